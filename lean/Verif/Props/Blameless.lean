import Verif.Spec.Blameless
import Verif.Props.Report
import Verif.Props.AssembledRead
import Verif.Props.NormalForm

/-!
C176: when commands print no warnings about a file.
-/

set_option linter.unusedSimpArgs false

namespace Midiasm
open Spec

/-- The events of a track. -/
def _root_.Spec.TrackEntry.contents (t : TrackEntry) : List Content := t.events.map (·.content)

theorem endWarnings_none (t : TrackEntry) : endWarnings t = [] ↔ ProperlyEnded t.contents := by
  unfold endWarnings TrackEntry.contents
  have hlen : t.events.length = (t.events.map (·.content)).length := by rw [List.length_map]
  rw [hlen]
  generalize t.events.map (·.content) = cs
  rw [List.append_eq_nil_iff, List.map_eq_nil_iff, List.filter_eq_nil_iff]
  constructor
  · rintro ⟨h1, h2⟩
    have hm : Content.endOfTrack ∈ cs := by
      by_contra hc
      rw [if_neg hc] at h2
      cases h2
    rcases List.eq_nil_or_concat' cs with rfl | ⟨pre, x, rfl⟩
    · cases hm
    · have hp : Content.endOfTrack ∉ pre := by
        intro hc
        obtain ⟨k, hk, he⟩ := List.getElem_of_mem hc
        refine h1 k (List.mem_range.2 (by rw [List.length_append, List.length_singleton]; omega)) ?_
        rw [List.getElem?_append_left hk, List.getElem?_eq_getElem hk, he, decide_eq_true_eq]
      rw [List.mem_append] at hm
      rcases hm with hm | hm
      · exact absurd hm hp
      · rw [List.mem_singleton] at hm
        exact ⟨pre, by rw [hm], hp⟩
  · rintro ⟨pre, rfl, hp⟩
    refine ⟨?_, by rw [if_pos (by simp)]⟩
    intro k hk
    have hk : k < pre.length := by simpa using hk
    rw [List.getElem?_append_left hk]
    simp only [decide_eq_true_eq]
    intro hc
    exact hp (List.mem_of_getElem? hc)

theorem bankWarnings_none (track k : Nat) (before : Option Content) (c : Content) :
    bankWarnings track k before c = [] ↔ before.bind (controllerOn 0) = controllerOn 32 c := by
  unfold bankWarnings
  cases before.bind (controllerOn 0) <;> cases controllerOn 32 c <;> simp

theorem controllerOn_some (id : Nat) (c : Content) (ch : Nat) : controllerOn id c = some ch ↔ ∃ v, c = .controller ch id v := by
  cases c <;> simp only [controllerOn] <;> try simp
  rename_i a b v
  by_cases h : b = id
  · simp [h]
  · simp [h]

theorem bank_none (t : TrackEntry) : trackBankWarnings t = [] ↔
    ∀ k c, t.contents[k]? = some c → (if k = 0 then none else t.contents[k - 1]?).bind (controllerOn 0) = controllerOn 32 c := by
  unfold trackBankWarnings TrackEntry.contents
  have hlen : t.events.length = (t.events.map (·.content)).length := by rw [List.length_map]
  rw [hlen]
  generalize t.events.map (·.content) = cs
  rw [List.flatMap_eq_nil_iff]
  constructor
  · intro h k c hc
    have := h k (List.mem_range.2 (List.getElem?_eq_some_iff.1 hc).1)
    rw [hc] at this
    exact (bankWarnings_none _ _ _ _).1 this
  · intro h k _
    cases hc : cs[k]? with
    | none => rfl
    | some c => exact (bankWarnings_none _ _ _ _).2 (h k c hc)

theorem track_none (t : TrackEntry) : endWarnings t = [] ∧ trackBankWarnings t = [] ↔ BlamelessTrack t.contents := by
  rw [endWarnings_none, bank_none]
  unfold BlamelessTrack
  refine and_congr_right ?_
  rintro ⟨pre, hpre, _⟩
  generalize t.contents = cs at hpre ⊢
  constructor
  · intro h k
    constructor
    · rintro ⟨ch, c, h1, ⟨v, rfl⟩, h3⟩
      have hk : k < pre.length := by
        have hl := (List.getElem?_eq_some_iff.1 h1).1
        rw [hpre] at hl h1
        rcases Nat.lt_or_ge k pre.length with hk | hk
        · exact hk
        · have : k = pre.length := by simp at hl; omega
          subst this
          simp at h1
      have hn : k + 1 < cs.length := by rw [hpre]; simp; omega
      have := h (k + 1) _ (List.getElem?_eq_getElem hn)
      rw [if_neg (by omega), Nat.add_sub_cancel, h1] at this
      have h0 : (some (Content.controller ch 0 v)).bind (controllerOn 0) = some ch := by simp [controllerOn]
      rw [h0] at this
      obtain ⟨v', hv⟩ := (controllerOn_some _ _ _).1 this.symm
      exact h3 ⟨_, List.getElem?_eq_getElem hn, v', hv⟩
    · rintro ⟨ch, c, h1, ⟨v, rfl⟩, h3⟩
      have := h k _ h1
      have h0 : controllerOn 32 (Content.controller ch 32 v) = some ch := by simp [controllerOn]
      rw [h0] at this
      cases k with
      | zero => simp at this
      | succ j =>
        rw [if_neg (by omega), Nat.add_sub_cancel] at this
        obtain ⟨c', hc', hb⟩ := Option.bind_eq_some_iff.1 this
        obtain ⟨v', hv⟩ := (controllerOn_some _ _ _).1 hb
        exact h3 ⟨j, c', rfl, hc', v', hv⟩
  · intro h k c hc
    cases hx : controllerOn 32 c with
    | some ch =>
      obtain ⟨v, rfl⟩ := (controllerOn_some _ _ _).1 hx
      have := (h k).2
      by_contra hne
      refine this ⟨ch, _, hc, ⟨v, rfl⟩, ?_⟩
      rintro ⟨j, c', rfl, hj, v', rfl⟩
      refine hne ?_
      rw [if_neg (by omega), Nat.add_sub_cancel, hj]
      simp [controllerOn]
    | none =>
      cases k with
      | zero => rfl
      | succ j =>
        rw [if_neg (by omega), Nat.add_sub_cancel]
        by_contra hne
        obtain ⟨ch, hch⟩ := Option.ne_none_iff_exists'.1 hne
        obtain ⟨c', hc', hb⟩ := Option.bind_eq_some_iff.1 hch
        obtain ⟨v', rfl⟩ := (controllerOn_some _ _ _).1 hb
        refine (h j).1 ⟨ch, _, hc', ⟨v', rfl⟩, ?_⟩
        rintro ⟨c'', hc'', v'', rfl⟩
        rw [hc] at hc''
        injection hc'' with hc''
        rw [hc''] at hx
        simp [controllerOn] at hx

theorem format_none (format : Nat) (ts : List TrackEntry) : formatWarnings format ts = [] ↔
    (format = 0 → ts.length = 1) ∧ (format = 1 → ∀ (i : Nat) (t : TrackEntry), ts[i]? = some t → ∀ c ∈ t.contents, if i = 0 then TempoMapKind c else ¬ TempoMapOnly c) := by
  unfold formatWarnings
  by_cases h0 : format = 0
  · subst h0
    by_cases hl : ts.length = 1
    · simp [hl]
    · simp [hl]
  · rw [if_neg (by tauto)]
    by_cases h1 : format = 1
    · subst h1
      simp only [if_true, h0, false_imp_iff, true_and, true_imp_iff, List.append_eq_nil_iff, List.flatMap_eq_nil_iff, List.map_eq_nil_iff, List.filter_eq_nil_iff,
        decide_eq_true_eq, not_not]
      constructor
      · rintro ⟨a, b⟩ i t hi c hc
        obtain ⟨e, he, rfl⟩ := List.mem_map.1 hc
        cases i with
        | zero =>
          rw [if_pos rfl]
          refine a t ?_ e he
          exact List.mem_of_getElem? (i := 0) (by rw [List.getElem?_take]; simpa using hi)
        | succ i =>
          rw [if_neg (by omega)]
          refine b t ?_ e he
          exact List.mem_of_getElem? (i := i) (by rw [List.getElem?_drop, Nat.add_comm]; exact hi)
      · intro h
        constructor
        · intro t ht e he
          obtain ⟨i, hi⟩ := List.getElem?_of_mem ht
          rw [List.getElem?_take] at hi
          split at hi
          · have : i = 0 := by omega
            subst this
            have := h 0 t hi e.content (List.mem_map_of_mem he)
            rwa [if_pos rfl] at this
          · cases hi
        · intro t ht e he
          obtain ⟨i, hi⟩ := List.getElem?_of_mem ht
          rw [List.getElem?_drop] at hi
          have := h _ t hi e.content (List.mem_map_of_mem he)
          rwa [if_neg (by omega)] at this
    · simp [h0, h1]

/-- There are no warnings about a file exactly if it is blameless. -/
theorem fileWarnings_none (format : Nat) (ts : List TrackEntry) : fileWarnings format ts = [] ↔ Blameless format (ts.map TrackEntry.contents) := by
  unfold fileWarnings Blameless
  rw [List.append_eq_nil_iff, List.append_eq_nil_iff, format_none, List.flatMap_eq_nil_iff, List.flatMap_eq_nil_iff, List.length_map, and_assoc, and_assoc]
  refine and_congr_right fun _ => and_congr ?_ ?_
  · refine imp_congr_right fun _ => ⟨?_, ?_⟩
    · intro h i cs hi
      rw [List.getElem?_map] at hi
      cases ht : ts[i]? with
      | none => rw [ht] at hi; cases hi
      | some t =>
        rw [ht] at hi
        injection hi with hi
        subst hi
        exact h i t ht
    · intro h i t ht
      exact h i _ (by rw [List.getElem?_map, ht]; rfl)
  · rw [List.forall_mem_map]
    constructor
    · rintro ⟨a, b⟩ t ht
      exact (track_none t).1 ⟨a t ht, b t ht⟩
    · intro h
      exact ⟨fun t ht => ((track_none t).2 (h t ht)).1, fun t ht => ((track_none t).2 (h t ht)).2⟩

theorem warningText_none (ws : List String) : warningText ws = [] ↔ ws = [] := by
  unfold warningText
  by_cases h : ws = []
  · simp [h]
  · rw [if_neg h]
    simp only [h, iff_false]
    intro hc
    have := congrArg List.length hc
    rw [List.length_append, List.length_append] at this
    have h0 : (str "\n").length = 1 := by decide +kernel
    rw [h0] at this
    simp at this

/-- **C176.** The commands print no warnings about a file exactly if what its bytes stand for is blameless. -/
theorem C176_no_warnings (w : World) (mc : MiddleC) (file bytes : Bytes) (hfile : file ≠ []) (hby : w.read file = some bytes) (h : Header)
    (ts : List TrackEntry) (hf : FileSays (octaveOffset mc) bytes h ts) (hn : ¬ (h.format = 1 ∧ ts = [])) :
    warningsFor w mc file = [] ↔ Blameless h.format (ts.map fun t => t.events.map fun e => e.content) := by
  rw [C149_warnings w mc file bytes hfile hby h ts hf hn, warningText_none, fileWarnings_none]
  rfl

theorem contents_of_stated {ts' : List TrackEntry} {l : List (List (Nat × Content))} (h : contentsOf id ts' = l) :
    (ts'.map fun t => t.events.map fun e => e.content) = l.map fun es => es.map Prod.snd := by
  rw [← h]
  unfold contentsOf
  rw [List.map_map]
  refine List.map_congr_left fun t _ => ?_
  show _ = ((t.events.map _).map _)
  rw [List.map_map]
  rfl

/-- **C176.** No warnings are printed about the file that a text is assembled to exactly if the events that the text states are blameless. -/
theorem C176_text (table : List (String × Lib.Manufacturer)) (text : Bytes) (hshort : ShortLines text) (lines : List Bytes) (secs : List (List Bytes))
    (h : Header) (ts : List (List Event)) (h1 : Lines text lines) (h2 : Chunked lines secs) (h3 : Stands table secs (some h) ts)
    (hn : h.tracks = ts.length) (hk : ∀ es ∈ ts, RecoverableTrack es) (hne : ¬ (h.format = 1 ∧ ts = [])) :
    ∃ b, assembleText table text = .ok b ∧ (b.length < 2 ^ 32 → ∀ (w : World) (mc : MiddleC) (file : Bytes), file ≠ [] → w.read file = some b →
      (warningsFor w mc file = [] ↔ Blameless h.format (ts.map fun es => es.map fun e => e.body.view))) := by
  obtain ⟨b, k1, k2, _⟩ := C151_text table text hshort lines secs h ts h1 h2 h3 hn hk
  refine ⟨b, k1, fun hb w mc file hfile hby => ?_⟩
  obtain ⟨ts', f1, f2⟩ := k2 hb mc
  have hl : ts'.length = ts.length := by
    have := congrArg List.length f2
    simpa [contentsOf, stated] using this
  rw [C176_no_warnings w mc file b hfile hby h ts' f1 (fun hc => hne ⟨hc.1, List.eq_nil_of_length_eq_zero (by rw [← hl, hc.2]; rfl)⟩),
    contents_of_stated f2]
  unfold stated
  rw [List.map_map]
  have : (List.map ((fun es => es.map Prod.snd) ∘ fun es : List Event => es.map fun e => (e.delta.toNat, e.body.view)) ts) = ts.map fun es => es.map fun e => e.body.view := by
    refine List.map_congr_left fun es _ => ?_
    show ((es.map _).map _) = _
    rw [List.map_map]
    rfl
  rw [this]

/-- **C176.** The same for JSON. -/
theorem C176_json (mc : MiddleC) (a s rest : Bytes) (j : Json) (ha : Space a) (hs : JsonText CharsRead j s) (hd : nesting j ≤ 10000)
    (f d : Nat) (ts : List (List Event)) (hj : DocumentSays j f d ts) (hn : ts.length < 65536) (hk : ∀ es ∈ ts, RecoverableTrack es) (hne : ¬ (f = 1 ∧ ts = [])) :
    ∃ b, assembleJsonText mc (a ++ s ++ rest) = .ok b ∧ (b.length < 2 ^ 32 → ∀ (w : World) (mc : MiddleC) (file : Bytes), file ≠ [] → w.read file = some b →
      (warningsFor w mc file = [] ↔ Blameless f (ts.map fun es => es.map fun e => e.body.view))) := by
  obtain ⟨b, k1, k2, _⟩ := C151_json mc a s rest j ha hs hd f d ts hj hn hk
  refine ⟨b, k1, fun hb w mc file hfile hby => ?_⟩
  obtain ⟨ts', f1, f2⟩ := k2 hb mc
  have hl : ts'.length = ts.length := by
    have := congrArg List.length f2
    simpa [contentsOf, stated] using this
  rw [C176_no_warnings w mc file b hfile hby ⟨f, ts.length, d⟩ ts' f1 (fun hc => hne ⟨hc.1, List.eq_nil_of_length_eq_zero (by rw [← hl, hc.2]; rfl)⟩),
    contents_of_stated f2]
  unfold stated
  rw [List.map_map]
  have : (List.map ((fun es => es.map Prod.snd) ∘ fun es : List Event => es.map fun e => (e.delta.toNat, e.body.view)) ts) = ts.map fun es => es.map fun e => e.body.view := by
    refine List.map_congr_left fun es _ => ?_
    show ((es.map _).map _) = _
    rw [List.map_map]
    rfl
  rw [this]

/-! ### Transposition -/

theorem warnedName_moved (n : Int) (c : Content) : warnedName (moved n c) = warnedName c := by
  cases c <;> rfl

theorem tempoMapKind_moved (n : Int) (c : Content) : TempoMapKind (moved n c) ↔ TempoMapKind c := by
  cases c <;> exact Iff.rfl

theorem tempoMapOnly_moved (n : Int) (c : Content) : TempoMapOnly (moved n c) ↔ TempoMapOnly c := by
  cases c <;> exact Iff.rfl

theorem controllerOn_moved (n : Int) (id : Nat) (c : Content) : controllerOn id (moved n c) = controllerOn id c := by
  cases c <;> rfl

theorem moved_end (n : Int) (c : Content) : moved n c = .endOfTrack ↔ c = .endOfTrack := by
  cases c <;> simp [moved]

/-- A track with the same number and the moved events. -/
def TransposedEntry (n : Int) (t t' : TrackEntry) : Prop := t'.number = t.number ∧ t'.contents = t.contents.map (moved n)

theorem endWarnings_moved {n : Int} {t t' : TrackEntry} (h : TransposedEntry n t t') : endWarnings t' = endWarnings t := by
  obtain ⟨h1, h2⟩ := h
  unfold TrackEntry.contents at h2
  have hl : t'.events.length = t.events.length := by simpa using congrArg List.length h2
  unfold endWarnings
  rw [h1, h2, hl]
  have e1 : ∀ k : Nat, ((t.events.map (·.content)).map (moved n))[k]? = some Content.endOfTrack ↔ (t.events.map (·.content))[k]? = some Content.endOfTrack := by
    intro k
    rw [List.getElem?_map]
    cases (t.events.map (·.content))[k]? with
    | none => simp
    | some c => simp [moved_end]
  have e2 : Content.endOfTrack ∈ (t.events.map (·.content)).map (moved n) ↔ Content.endOfTrack ∈ t.events.map (·.content) := by
    rw [List.mem_map]
    constructor
    · rintro ⟨c, hc, he⟩
      rwa [(moved_end n c).1 he] at hc
    · intro h
      exact ⟨_, h, rfl⟩
  simp only [e1, e2]

theorem bankWarnings_moved (n : Int) (track k : Nat) (b : Option Content) (c : Content) :
    bankWarnings track k (b.map (moved n)) (moved n c) = bankWarnings track k b c := by
  unfold bankWarnings
  rw [controllerOn_moved]
  have : (b.map (moved n)).bind (controllerOn 0) = b.bind (controllerOn 0) := by
    cases b with
    | none => rfl
    | some b => exact controllerOn_moved n 0 b
  rw [this]

theorem trackBankWarnings_moved {n : Int} {t t' : TrackEntry} (h : TransposedEntry n t t') : trackBankWarnings t' = trackBankWarnings t := by
  obtain ⟨h1, h2⟩ := h
  unfold TrackEntry.contents at h2
  have hl : t'.events.length = t.events.length := by simpa using congrArg List.length h2
  unfold trackBankWarnings
  rw [h1, h2, hl]
  congr 1
  funext k
  rw [List.getElem?_map]
  cases (t.events.map (·.content))[k]? with
  | none => rfl
  | some c =>
    simp only [Option.map_some]
    by_cases hk : k = 0
    · rw [if_pos hk, if_pos hk]
      exact bankWarnings_moved n _ _ none c
    · rw [if_neg hk, if_neg hk, List.getElem?_map]
      exact bankWarnings_moved n _ _ _ c

theorem filtered_contents (p : Content → Bool) (f : Content → String) (es : List Entry) :
    (es.filter fun e => p e.content).map (fun e => f e.content) = ((es.map (·.content)).filter p).map f := by
  rw [List.filter_map, List.map_map]
  rfl

theorem filtered_moved (n : Int) (p : Content → Bool) (f : Content → String) (hp : ∀ c, p (moved n c) = p c) (hf : ∀ c, f (moved n c) = f c) (cs : List Content) :
    ((cs.map (moved n)).filter p).map f = (cs.filter p).map f := by
  rw [List.filter_map, List.map_map]
  have h1 : p ∘ moved n = p := funext hp
  have h2 : f ∘ moved n = f := funext hf
  rw [h1, h2]

theorem formatWarnings_moved {n : Int} {format : Nat} {ts ts' : List TrackEntry} (h : List.Forall₂ (TransposedEntry n) ts ts') :
    formatWarnings format ts' = formatWarnings format ts := by
  unfold formatWarnings
  rw [← h.length_eq]
  have key : ∀ {q q' : List TrackEntry}, List.Forall₂ (TransposedEntry n) q q' → ∀ (g : Nat → Content → String) (p : Content → Bool), (∀ c, p (moved n c) = p c) →
      (∀ k c, g k (moved n c) = g k c) →
      (q'.flatMap fun t => (t.events.filter fun e => p e.content).map fun e => g t.number e.content) =
        q.flatMap fun t => (t.events.filter fun e => p e.content).map fun e => g t.number e.content := by
    intro q q' hq g p hp hg
    induction hq with
    | nil => rfl
    | cons a _ ih =>
      rw [List.flatMap_cons, List.flatMap_cons, ih, filtered_contents p (g _), filtered_contents p (g _), a.1]
      have := a.2
      unfold TrackEntry.contents at this
      rw [this, filtered_moved n p _ hp (hg _)]
  have a := key (List.forall₂_take 1 h) (fun _ c => s!"Track 0: unexpected event ({warnedName c})") (fun c => decide (¬ TempoMapKind c))
    (fun c => by simp only [tempoMapKind_moved]) (fun _ c => by rw [warnedName_moved])
  have b := key (List.forall₂_drop 1 h) (fun k c => s!"Track {k}: unexpected event ({warnedName c})") (fun c => decide (TempoMapOnly c))
    (fun c => by simp only [tempoMapOnly_moved]) (fun _ c => by rw [warnedName_moved])
  rw [a, b]

theorem fileWarnings_moved {n : Int} {format : Nat} {ts ts' : List TrackEntry} (h : List.Forall₂ (TransposedEntry n) ts ts') :
    fileWarnings format ts' = fileWarnings format ts := by
  unfold fileWarnings
  rw [formatWarnings_moved h]
  have key : ∀ f : TrackEntry → List String, (∀ t t', TransposedEntry n t t' → f t' = f t) → ts'.flatMap f = ts.flatMap f := by
    intro f hf
    clear * - h hf
    induction h with
    | nil => rfl
    | cons a _ ih => rw [List.flatMap_cons, List.flatMap_cons, ih, hf _ _ a]
  rw [key endWarnings fun _ _ => endWarnings_moved, key trackBankWarnings fun _ _ => trackBankWarnings_moved]

theorem fileSays_numbered {offset : Int} {bytes : Bytes} {h : Header} {ts : List TrackEntry} (hf : FileSays offset bytes h ts) (i : Nat) (t : TrackEntry)
    (ht : ts[i]? = some t) : t.number = i := by
  obtain ⟨cs, tail, _, _, _, _, h5, h6, h7⟩ := hf
  have hi : i < (cs.filter fun c => c.tag == tagMTrk).length := by
    rw [h6, ← h5]
    exact (List.getElem?_eq_some_iff.1 ht).1
  obtain ⟨_, _, _, _, _, _, _, _, rfl⟩ := h7 i _ t (List.getElem?_eq_getElem hi) ht
  rfl

/-- **C176.** Transposing does not change the warnings about a file. -/
theorem C176_transposed (w w' : World) (mc mc' : MiddleC) (file file' bytes : Bytes) (hfile : file ≠ []) (hfile' : file' ≠ []) (h : Header) (ts : List TrackEntry)
    (hf : FileSays (octaveOffset mc) bytes h ts) (hne : ¬ (h.format = 1 ∧ ts = [])) (hlen : bytes.length < 2 ^ 28) (hl : ∀ t ∈ ts, Lasting t) (n : Int) (hn : Fits n)
    (hby : w.read file = some bytes) :
    ∃ bytes', (∃ smf, decode mc w.spare bytes = .ok smf ∧ transposeExecute mc n false smf = .ok bytes') ∧
      (w'.read file' = some bytes' → warningsFor w' mc' file' = warningsFor w mc file) := by
  refine ⟨_, C146_transposed mc mc w.spare bytes h ts hf n hn, fun hby' => ?_⟩
  obtain ⟨ts', k1, k2⟩ := C150_reread mc mc' bytes h ts hf hlen hl n hn
  have hlt : ts'.length = ts.length := by
    have := congrArg List.length k2
    simpa [contentsOf] using this
  rw [C149_warnings w mc file bytes hfile hby h ts hf hne,
    C149_warnings w' mc' file' _ hfile' hby' h ts' k1 (fun hc => hne ⟨hc.1, List.eq_nil_of_length_eq_zero (by rw [← hlt, hc.2]; rfl)⟩), fileWarnings_moved (n := n)]
  rw [List.forall₂_iff_get]
  refine ⟨hlt.symm, fun i hi hi' => ?_⟩
  simp only [List.get_eq_getElem]
  refine ⟨?_, ?_⟩
  · rw [fileSays_numbered k1 i _ (List.getElem?_eq_getElem hi'), fileSays_numbered hf i _ (List.getElem?_eq_getElem hi)]
  · have := congrArg (fun l => (l[i]?).map (List.map Prod.snd)) k2
    simp only [contentsOf, List.getElem?_map, List.getElem?_eq_getElem hi', List.getElem?_eq_getElem hi, Option.map_some, List.map_map] at this
    injection this with this
    unfold TrackEntry.contents
    rw [List.map_map]
    exact this

/-- C176: a file with a tempo map and a track with a bank selection, about which there are no warnings; the hypotheses about its transposition. -/
example : ∃ h ts, FileSays 1 (tracksFile 1 0 96 [[0, 0xff, 0x51, 3, 7, 0xa1, 0x20], [0, 0xb1, 0, 3, 0, 0xb1, 32, 1, 0, 0xc1, 5, 0, 0x91, 60, 64]]) h ts ∧
    ¬ (h.format = 1 ∧ ts = []) ∧ Blameless h.format (ts.map fun t => t.events.map fun e => e.content) ∧ ∀ t ∈ ts, Lasting t := by
  obtain ⟨smf, h1, h2⟩ := Outcome.of_test
    (o := decode .c3 [] (tracksFile 1 0 96 [[0, 0xff, 0x51, 3, 7, 0xa1, 0x20], [0, 0xb1, 0, 3, 0, 0xb1, 32, 1, 0, 0xc1, 5, 0, 0x91, 60, 64]]))
    (p := fun smf => match smf.mthd with
      | some m => decide (m.format = 1) && decide (smf.tracks ≠ []) && decide (fileWarnings 1 (smf.tracks.map MTrk.entry) = []) &&
        decide (∀ t ∈ smf.tracks.map MTrk.entry, ∀ e ∈ t.events, Rewritable e.content ∧ e.delta < 2 ^ 28)
      | none => false) (by decide +kernel)
  obtain ⟨h, ts, hf, ⟨m, hm, hsh, _⟩, rfl⟩ := C143_total .c3 [] _ smf h1
  rw [hm] at h2
  simp only [Bool.and_eq_true, decide_eq_true_eq] at h2
  obtain ⟨⟨⟨a, b⟩, c⟩, d⟩ := h2
  have hform : h.format = 1 := by
    rw [← hsh.2.2.1, a]
    rfl
  refine ⟨h, _, hf, fun hh => b (List.map_eq_nil_iff.1 hh.2), ?_, d⟩
  rw [hform]
  exact (fileWarnings_none _ _).1 c

/-- C176: the events of the text of the case beside C151, which meets the other hypotheses, are blameless; without the end of the track they are not. -/
example : Blameless 0 [twoPacketsEvents.map fun e => e.body.view] ∧ ¬ Blameless 0 [(twoPacketsEvents.take 3).map fun e => e.body.view] := by
  have key := fun es : List Event => fileWarnings_none 0 [⟨0, [], 0, [], es.map fun e => ⟨0, 0, [], e.body.view, [], none⟩⟩]
  simp only [List.map_cons, List.map_nil, TrackEntry.contents, List.map_map, Function.comp_def] at key
  exact ⟨(key _).1 (by decide +kernel), fun h => absurd ((key _).2 h) (by decide +kernel)⟩

end Midiasm
