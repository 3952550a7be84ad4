import Verif.Model.Report
import Verif.Spec.Report
import Verif.Props.Table

/-!
C149: the exact text of the warnings about a file.
-/

set_option linter.unusedSimpArgs false

namespace Midiasm
open Spec

theorem typeName_view (b : Body) : b.typeName = warnedName b.view := by
  cases b with
  | text k s => cases k <;> rfl
  | _ => rfl

theorem str_flat (l : List String) : l.flatMap str = str (String.join l) := by
  induction l with
  | nil => rfl
  | cons a l ih => rw [List.flatMap_cons, ih, ← str_append, String.join_cons]

/-- Findings are shown by texts. -/
def ShownBy (fs : List Finding) (ws : List String) : Prop := fs.map Finding.text = ws.map str

theorem ShownBy.append {a b : List Finding} {x y : List String} (h : ShownBy a x) (h' : ShownBy b y) : ShownBy (a ++ b) (x ++ y) := by
  unfold ShownBy at *
  rw [List.map_append, List.map_append, h, h']

theorem ShownBy.flat {α β : Type} (l : List α) (g : α → β) (f : α → List Finding) (k : β → List String) (h : ∀ a ∈ l, ShownBy (f a) (k (g a))) :
    ShownBy (l.map f).flatten ((l.map g).flatMap k) := by
  induction l with
  | nil => rfl
  | cons a l ih =>
    rw [List.map_cons, List.flatten_cons, List.map_cons, List.flatMap_cons]
    exact (h a (by simp)).append (ih fun b hb => h b (by simp [hb]))

theorem format_shown (n : Nat) (ts : List MTrk) : ShownBy (formatFindings n ts) (formatWarnings n (ts.map MTrk.entry)) := by
  unfold formatFindings formatWarnings
  rw [List.length_map]
  by_cases h0 : n = 0 ∧ ts.length ≠ 1
  · rw [if_pos h0, if_pos h0, if_neg (by omega), List.append_nil]
    unfold ShownBy
    simp only [List.map_cons, List.map_nil, Finding.text, dec_eq_repr, ← str_append]
    congr 1
  · rw [if_neg h0, if_neg h0, List.nil_append]
    by_cases h1 : n = 1
    · rw [if_pos h1, if_pos h1]
      refine .append ?_ ?_
      · rw [← List.map_take]
        refine .flat _ _ _ _ fun t _ => ?_
        unfold ShownBy
        rw [MTrk.entry, List.filter_map, List.map_map, List.map_map, List.map_map]
        apply List.map_congr_left
        intro e _
        show Finding.text (.track0Unexpected e.body) = str s!"Track 0: unexpected event ({warnedName e.body.view})"
        rw [Finding.text, typeName_view]
        simp only [← str_append]
        congr 1
      · rw [← List.map_drop]
        refine .flat _ _ _ _ fun t _ => ?_
        unfold ShownBy
        rw [MTrk.entry, List.filter_map, List.map_map, List.map_map, List.map_map]
        apply List.map_congr_left
        intro e _
        show Finding.text (.trackUnexpected t.trackNumber e.body) = str s!"Track {t.trackNumber}: unexpected event ({warnedName e.body.view})"
        rw [Finding.text, typeName_view, dec_eq_repr]
        simp only [← str_append]
        congr 1
    · rw [if_neg h1, if_neg h1]
      rfl

theorem filterMap_if {α β : Type} (p : α → Prop) [DecidablePred p] (f : α → β) (l : List α) :
    l.filterMap (fun a => if p a then some (f a) else none) = (l.filter fun a => p a).map f := by
  induction l with
  | nil => rfl
  | cons a l ih =>
    rw [List.filterMap_cons, List.filter_cons]
    by_cases h : p a
    · simp [h, ih]
    · simp [h, ih]

theorem zipIdx_filter {α : Type} (q : α → Bool) (N : Nat) (l : List α) : ∀ i,
    ((l.zipIdx i).filter fun p => decide (q p.1 = true ∧ p.2 + 1 ≠ N)).map (·.2) =
      (List.range' i l.length).filter fun k => decide ((l[k - i]?).any q = true ∧ k + 1 ≠ N) := by
  induction l with
  | nil => intro i; rfl
  | cons a l ih =>
    intro i
    rw [List.zipIdx_cons, List.length_cons, List.range'_succ, List.filter_cons, List.filter_cons]
    have hc : (List.range' (i + 1) l.length).filter (fun k => decide (((a :: l)[k - i]?).any q = true ∧ k + 1 ≠ N)) =
        (List.range' (i + 1) l.length).filter fun k => decide ((l[k - (i + 1)]?).any q = true ∧ k + 1 ≠ N) := by
      apply List.filter_congr
      intro k hk
      have := (List.mem_range'_1.1 hk).1
      rw [show k - i = (k - (i + 1)) + 1 by omega, List.getElem?_cons_succ]
    rw [hc, ← ih (i + 1)]
    simp only [Nat.sub_self, List.getElem?_cons_zero, Option.any_some]
    split <;> simp

theorem range_last (n : Nat) (p : Nat → Bool) :
    (List.range' 0 n).filter (fun k => decide (p k = true ∧ k + 1 ≠ n)) = (List.range (n - 1)).filter p := by
  rw [← List.range_eq_range']
  cases n with
  | zero => rfl
  | succ n =>
    rw [List.range_succ, List.filter_append, Nat.add_sub_cancel]
    have h1 : [n].filter (fun k => decide (p k = true ∧ k + 1 ≠ n + 1)) = [] := by simp
    rw [h1, List.append_nil]
    apply List.filter_congr
    intro k hk
    have := List.mem_range.1 hk
    have : k ≠ n := by omega
    simp [this]

theorem end_shown (t : MTrk) : ShownBy (validateEOT t) (endWarnings t.entry) := by
  obtain ⟨h1, h2⟩ := eotLoop_spec t.trackNumber t.events.length 0 t.events
  have hc : t.entry.events.map (·.content) = t.contents := by
    rw [MTrk.entry, List.map_map]; rfl
  have hl : t.entry.events.length = t.events.length := by rw [MTrk.entry, List.length_map]
  unfold validateEOT endWarnings
  rw [hc, hl]
  simp only
  refine .append ?_ ?_
  · rw [h2, filterMap_if (fun p : Event × Nat => p.1.body = .endOfTrack ∧ p.2 + 1 ≠ t.events.length) (fun p => Finding.eotNotLast t.trackNumber (p.2 + 1))]
    have hz := zipIdx_filter (fun e : Event => decide (e.body = .endOfTrack)) t.events.length t.events 0
    rw [range_last] at hz
    simp only [decide_eq_true_eq, Nat.sub_zero] at hz
    have hq : ((List.range (t.events.length - 1)).filter fun k => (t.events[k]?).any fun e => decide (e.body = .endOfTrack)) =
        (List.range (t.events.length - 1)).filter fun k => decide (t.contents[k]? = some .endOfTrack) := by
      apply List.filter_congr
      intro k _
      rw [MTrk.contents, List.getElem?_map]
      cases t.events[k]? with
      | none => simp
      | some e => simp [view_eot]
    rw [hq] at hz
    unfold ShownBy
    rw [← hz, List.map_map, List.map_map, List.map_map]
    apply List.map_congr_left
    intro p _
    show Finding.text (.eotNotLast t.trackNumber (p.2 + 1)) = str s!"Track {t.trackNumber}: EndOfTrack @{p.2 + 1} (EndOfTrack) is not last event"
    simp only [Finding.text, dec_eq_repr, ← str_append]
    simp only [Body.typeName, String.append_assoc]
    rfl
  · have hm : (eotLoop t.trackNumber t.events.length 0 t.events).1 = true ↔ Content.endOfTrack ∈ t.contents := by
      rw [h1, MTrk.contents, List.mem_map]
      constructor
      · rintro ⟨e, he, hb⟩
        exact ⟨e, he, (view_eot _).2 hb⟩
      · rintro ⟨e, he, hb⟩
        exact ⟨e, he, (view_eot _).1 hb⟩
    by_cases hmem : Content.endOfTrack ∈ t.contents
    · rw [if_pos hmem, hm.2 hmem]
      rfl
    · rw [if_neg hmem, if_pos (by rw [Bool.not_eq_true', ← Bool.not_eq_true]; exact fun h => hmem (hm.1 h))]
      unfold ShownBy
      simp only [List.map_cons, List.map_nil, Finding.text, dec_eq_repr, ← str_append]
      congr 1

theorem bankStep_shown (tr i : Nat) (last : Option Body) (e : Body) :
    ShownBy (bankStep tr i last e) (bankWarnings tr (i + 1) (last.map Body.view) e.view) := by
  have key : ∀ (b : Body) (id : UInt8), controllerOn id.toNat b.view = (asController b).bind fun c => if c.2 = id then some c.1.toNat else none := by
    intro b id
    cases b <;> simp [Body.view, controllerOn, asController, UInt8.toNat_inj]
  have h0 : (last.map Body.view).bind (controllerOn 0) = (last.bind asController).bind fun c => if c.2 = 0 then some c.1.toNat else none := by
    cases last with
    | none => rfl
    | some b => exact key b 0
  have h1 : controllerOn 32 e.view = (asController e).bind fun c => if c.2 = 32 then some c.1.toNat else none := key e 32
  unfold bankStep bankWarnings
  rw [h0, h1]
  generalize last.bind asController = c0
  generalize asController e = c1
  have e1 : ∀ (x : Option (UInt8 × UInt8)) (id : UInt8), x.any (fun c => c.2 == id) = true ∧ (∃ a, x = some (a, id)) ∨
      x.any (fun c => c.2 == id) = false ∧ (x.bind fun c => if c.2 = id then some c.1.toNat else none) = none := by
    intro x id
    cases x with
    | none => right; simp
    | some c =>
      obtain ⟨a, b⟩ := c
      by_cases h : b = id
      · left; subst h; simp
      · right; simp [h]
  rcases e1 c0 0 with ⟨a1, a, rfl⟩ | ⟨a1, a2⟩ <;> rcases e1 c1 32 with ⟨b1, b, rfl⟩ | ⟨b1, b2⟩
  · have hb1 : (Option.bind (some (a, (0 : UInt8))) fun c => if c.2 = 0 then some c.1.toNat else none) = some a.toNat := by simp
    have hb2 : (Option.bind (some (b, (32 : UInt8))) fun c => if c.2 = 32 then some c.1.toNat else none) = some b.toNat := by simp
    rw [hb1, hb2]
    by_cases hab : a = b
    · subst hab
      simp [ShownBy]
    · have hn : a.toNat ≠ b.toNat := fun h => hab (UInt8.toNat_inj.1 h)
      simp only [a1, b1, Bool.not_true, Bool.and_false, Bool.and_true, Bool.false_and, Bool.false_eq_true, if_false, List.nil_append, if_neg hn,
        Option.map_some, ne_eq, Option.some.injEq, hab, not_false_eq_true, decide_true, if_true]
      rw [if_pos (by simp [hab])]
      unfold ShownBy
      simp only [List.map_cons, List.map_nil, Finding.text, dec_eq_repr, ← str_append, Nat.add_sub_cancel]
      congr 1
  · have hb1 : (Option.bind (some (a, (0 : UInt8))) fun c => if c.2 = 0 then some c.1.toNat else none) = some a.toNat := by simp
    rw [hb1, b2]
    simp only [a1, b1, Bool.not_true, Bool.not_false, Bool.and_false, Bool.and_true, Bool.false_and, Bool.true_and, Bool.false_eq_true, if_false, if_true, List.nil_append,
      List.append_nil]
    unfold ShownBy
    simp only [List.map_cons, List.map_nil, Finding.text, dec_eq_repr, ← str_append, Nat.add_sub_cancel]
    congr 1
  · have hb2 : (Option.bind (some (b, (32 : UInt8))) fun c => if c.2 = 32 then some c.1.toNat else none) = some b.toNat := by simp
    rw [hb2, a2]
    simp only [a1, b1, Bool.not_true, Bool.not_false, Bool.and_false, Bool.and_true, Bool.false_and, Bool.true_and, Bool.false_eq_true, if_false, if_true, List.nil_append,
      List.append_nil]
    unfold ShownBy
    simp only [List.map_cons, List.map_nil, Finding.text, dec_eq_repr, ← str_append, Nat.add_sub_cancel]
    congr 1
  · rw [a2, b2]
    simp only [a1, b1, Bool.and_false, Bool.false_and, Bool.false_eq_true, if_false, List.nil_append]
    rfl

theorem bankLoop_shown (tr : Nat) (cs : List Content) (es : List Event) : ∀ (i : Nat) (last : Option Body),
    (∀ k, (es.map fun e => e.body.view)[k]? = cs[i + k]?) → (if i = 0 then none else cs[i - 1]?) = last.map Body.view →
    ShownBy (bankLoop tr i last es) ((List.range' i es.length).flatMap fun k =>
      match cs[k]? with
      | some c => bankWarnings tr (k + 1) (if k = 0 then none else cs[k - 1]?) c
      | none => []) := by
  induction es with
  | nil => intro i last _ _; rfl
  | cons e es ih =>
    intro i last h hl
    have h0 : cs[i]? = some e.body.view := by
      have := h 0
      simpa using this.symm
    rw [bankLoop, List.length_cons, List.range'_succ, List.flatMap_cons, h0]
    refine ShownBy.append ?_ (ih (i + 1) (some e.body) ?_ ?_)
    · show ShownBy _ (bankWarnings tr (i + 1) (if i = 0 then none else cs[i - 1]?) e.body.view)
      rw [hl]
      exact bankStep_shown tr i last e.body
    · intro k
      have := h (k + 1)
      rw [List.map_cons, List.getElem?_cons_succ] at this
      rw [this]
      congr 1
      omega
    · rw [if_neg (by omega), Nat.add_sub_cancel, h0]
      rfl

theorem bank_shown (t : MTrk) : ShownBy (bankLoop t.trackNumber 0 none t.events) (trackBankWarnings t.entry) := by
  have hc : t.entry.events.map (·.content) = t.contents := by
    rw [MTrk.entry, MTrk.contents, List.map_map]; rfl
  have hl : t.entry.events.length = t.events.length := by simp [MTrk.entry]
  unfold trackBankWarnings
  rw [hc, hl, List.range_eq_range']
  exact bankLoop_shown t.trackNumber t.contents t.events 0 none (fun k => by rw [Nat.zero_add]; rfl) rfl

/-- The text of shown findings. -/
theorem warnings_text (fs : List Finding) (ws : List String) (h : ShownBy fs ws) : warnings fs = warningText ws := by
  have hl : fs.length = ws.length := by
    have := congrArg List.length h
    simpa using this
  have h2 : ∀ (fs : List Finding) (ws : List String), ShownBy fs ws →
      (fs.flatMap fun f => str "         ** " ++ f.text ++ str "\n") = ws.flatMap fun w => str s!"         ** {w}\n" := by
    intro fs
    induction fs with
    | nil =>
      intro ws h
      cases ws with
      | nil => rfl
      | cons w ws => cases h
    | cons f fs ih =>
      intro ws h
      cases ws with
      | nil => cases h
      | cons w ws =>
        unfold ShownBy at h
        rw [List.map_cons, List.map_cons, List.cons.injEq] at h
        rw [List.flatMap_cons, List.flatMap_cons, ih ws h.2, h.1]
        simp only [← str_append]
        congr 1
  unfold warnings warningText
  cases fs with
  | nil =>
    cases ws with
    | nil => rfl
    | cons w ws => cases hl
  | cons f fs =>
    cases ws with
    | nil => cases hl
    | cons w ws =>
      rw [if_neg (by simp), if_neg (by simp), h2 _ _ h, ← str_append]
      rfl

/-- C149: the warnings printed about a file are those about what its bytes stand for, unless it is a format 1 file without tracks. -/
theorem C149_warnings (w : World) (mc : MiddleC) (file bytes : Bytes) (hfile : file ≠ []) (hby : w.read file = some bytes) (h : Header)
    (ts : List TrackEntry) (hf : FileSays (octaveOffset mc) bytes h ts) (hn : ¬ (h.format = 1 ∧ ts = [])) :
    warningsFor w mc file = warningText (fileWarnings h.format ts) := by
  obtain ⟨smf, hdec, ⟨m, hm, hsh, _⟩, rfl⟩ := (C143_decoding mc w.spare bytes h ts).2 hf
  have hform : m.format.toNat = h.format := hsh.2.2.1
  have hne : ¬ (m.format.toNat = 1 ∧ smf.tracks = []) := by
    rintro ⟨h1, h2⟩
    exact hn ⟨hform.symm.trans h1, by rw [h2]; rfl⟩
  unfold warningsFor World.file
  rw [if_neg hfile, hby]
  show (match (do let smf ← decode mc w.spare bytes; validate smf) with
    | .ok fs => warnings fs
    | _ => []) = _
  rw [hdec, Outcome.bind_ok, validate_ok smf m hm hne]
  apply warnings_text
  rw [hform]
  exact ((format_shown _ _).append (.flat _ _ _ _ fun t _ => end_shown t)).append (.flat _ _ _ _ fun t _ => bank_shown t)

/-- No warnings are printed about a file that cannot be read or decoded. -/
theorem C149_unread (w : World) (mc : MiddleC) (file : Bytes)
    (h : file = [] ∨ w.read file = none ∨ ∃ bytes, w.read file = some bytes ∧ ¬ ∃ h ts, FileSays (octaveOffset mc) bytes h ts) :
    warningsFor w mc file = [] := by
  unfold warningsFor World.file
  by_cases hfile : file = []
  · rw [if_pos hfile]
  · rw [if_neg hfile]
    rcases h with h | h | ⟨bytes, h, h'⟩
    · exact absurd h hfile
    · rw [h]
    · rw [h]
      show (match (do let smf ← decode mc w.spare bytes; validate smf) with
        | .ok fs => warnings fs
        | _ => []) = _
      cases hd : decode mc w.spare bytes with
      | ok smf =>
        obtain ⟨a, b, hab, _⟩ := C143_total mc w.spare bytes smf hd
        exact absurd ⟨a, b, hab⟩ h'
      | _ => rfl

/-- C149: a file with a note in the first track, and an end before its last event, and half a bank selection in the second; the warnings about it. -/
example : ∃ h ts, FileSays 1 (tracksFile 1 0 96 [[0, 0x90, 60, 64, 0, 0xff, 0x2f, 0], [0, 0xb1, 0, 3, 0, 0xc1, 5]]) h ts ∧ ¬ (h.format = 1 ∧ ts = []) ∧
    fileWarnings h.format ts =
      ["Track 0: unexpected event (NoteOn)", "Track 0: EndOfTrack @2 (EndOfTrack) is not last event", "Track 1: 'Bank Select MSB' event @1 missing LSB (Controller)"] := by
  obtain ⟨smf, h1, h2⟩ := Outcome.of_test (o := decode .c3 [] (tracksFile 1 0 96 [[0, 0x90, 60, 64, 0, 0xff, 0x2f, 0], [0, 0xb1, 0, 3, 0, 0xc1, 5]]))
    (p := fun smf => match smf.mthd with
      | some m => decide (m.format = 1) && decide (smf.tracks ≠ []) && decide (fileWarnings 1 (smf.tracks.map MTrk.entry) =
      ["Track 0: unexpected event (NoteOn)", "Track 0: EndOfTrack @2 (EndOfTrack) is not last event", "Track 1: 'Bank Select MSB' event @1 missing LSB (Controller)"])
      | none => false) (by decide +kernel)
  obtain ⟨h, ts, hf, ⟨m, hm, hsh, _⟩, rfl⟩ := C143_total .c3 [] _ smf h1
  rw [hm] at h2
  simp only [Bool.and_eq_true, decide_eq_true_eq] at h2
  obtain ⟨⟨a, b⟩, c⟩ := h2
  have hform : h.format = 1 := by
    rw [← hsh.2.2.1, a]
    rfl
  refine ⟨h, _, hf, fun hh => b (List.map_eq_nil_iff.1 hh.2), ?_⟩
  rw [hform]
  exact c

end Midiasm
