import Verif.Lemmas.Decoded
import Verif.Model.Validate
import Verif.Spec.Validate

/-!
Properties C36 to C39: validation.
-/

set_option linter.unusedSimpArgs false

namespace Midiasm
open Spec

/-- The contents of a track's events. -/
def MTrk.contents (t : MTrk) : List Content := t.events.map (·.body.view)

/-- Track `i` of a file. -/
def SMF.contents (smf : SMF) (i : Nat) : List Content := ((smf.tracks[i]?).map MTrk.contents).getD []

/-- Tracks are numbered from 0. -/
def Numbered (ts : List MTrk) : Prop := ∀ (i : Nat) t, ts[i]? = some t → t.trackNumber = i

theorem decoded_numbered {mc : MiddleC} {spare file : Bytes} {smf : SMF} (hd : decode mc spare file = .ok smf) : Numbered smf.tracks := by
  intro i t hit
  obtain ⟨_, _, _, _, _, _, h⟩ := decode_ok hd
  obtain ⟨ch, hwf, htag, _, hu⟩ := h i t hit
  exact ((unmarshalMTrk_ok mc spare i ch hwf htag t).1 hu).2.2.1

theorem view_eot (b : Body) : b.view = .endOfTrack ↔ b = .endOfTrack := by
  cases b <;> simp [Body.view]

theorem eotLoop_spec (tr n i : Nat) (es : List Event) :
    ((eotLoop tr n i es).1 = true ↔ ∃ e ∈ es, e.body = .endOfTrack) ∧
    (eotLoop tr n i es).2 = (es.zipIdx i).filterMap (fun p => if p.1.body = .endOfTrack ∧ p.2 + 1 ≠ n then some (.eotNotLast tr (p.2 + 1)) else none) := by
  induction es generalizing i with
  | nil => simp [eotLoop]
  | cons e es ih =>
    obtain ⟨h1, h2⟩ := ih (i + 1)
    simp only [eotLoop, List.zipIdx_cons, List.filterMap_cons]
    split
    · rename_i hb
      refine ⟨by simp [hb], ?_⟩
      rw [h2]
      by_cases hn : i + 1 = n
      · rw [if_neg (by simp [hn]), if_neg (by simp [hn])]
      · rw [if_pos hn, if_pos ⟨hb, hn⟩]
    · rename_i hb
      refine ⟨?_, ?_⟩
      · rw [h1]
        constructor
        · rintro ⟨x, hx, hxe⟩; exact ⟨x, by simp [hx], hxe⟩
        · rintro ⟨x, hx, hxe⟩
          rcases List.mem_cons.1 hx with rfl | hx
          · exact absurd hxe hb
          · exact ⟨x, hx, hxe⟩
      · rw [h2, if_neg (fun h => hb h.1)]

/-- End of track findings of a track, exactly. -/
theorem validateEOT_mem (t : MTrk) (f : Finding) : f ∈ validateEOT t ↔
    (∃ k : Nat, f = .eotNotLast t.trackNumber (k + 1) ∧ t.contents[k]? = some .endOfTrack ∧ k + 1 ≠ t.contents.length) ∨
    (f = .eotMissing t.trackNumber ∧ Content.endOfTrack ∉ t.contents) := by
  obtain ⟨h1, h2⟩ := eotLoop_spec t.trackNumber t.events.length 0 t.events
  unfold validateEOT
  generalize hr : eotLoop t.trackNumber t.events.length 0 t.events = r at h1 h2
  obtain ⟨eot, fs⟩ := r
  simp only at h1 h2 ⊢
  have hm : Content.endOfTrack ∈ t.contents ↔ eot = true := by
    rw [h1]
    simp [MTrk.contents, view_eot]
  rw [List.mem_append, h2]
  apply or_congr
  · simp only [List.mem_filterMap, Prod.exists, List.mem_zipIdx_iff_getElem?]
    constructor
    · rintro ⟨e, k, hk, hf⟩
      split at hf
      · rename_i hc
        injection hf with hf
        refine ⟨k, hf.symm, ?_, by simp [MTrk.contents]; exact hc.2⟩
        simp [MTrk.contents, hk, hc.1, Body.view]
      · cases hf
    · rintro ⟨k, rfl, hk, hn⟩
      simp only [MTrk.contents, List.getElem?_map, Option.map_eq_some_iff, view_eot, List.length_map] at hk hn
      obtain ⟨e, he, hb⟩ := hk
      exact ⟨e, k, he, by rw [if_pos ⟨hb, hn⟩]⟩
  · rw [hm]
    cases eot <;> simp

/-- The findings of one step of the bank select check. -/
theorem bankLoop_mem (tr i : Nat) (last : Option Body) (es : List Event) (f : Finding) : f ∈ bankLoop tr i last es ↔
    ∃ (k : Nat) (e : Event), es[k]? = some e ∧ f ∈ bankStep tr (i + k) (if k = 0 then last else (es[k - 1]?).map Event.body) e.body := by
  induction es generalizing i last with
  | nil => simp [bankLoop]
  | cons e es ih =>
    rw [bankLoop, List.mem_append, ih]
    constructor
    · rintro (h | ⟨k, x, hx, h⟩)
      · exact ⟨0, e, rfl, by simpa using h⟩
      · refine ⟨k + 1, x, by simpa using hx, ?_⟩
        cases k with
        | zero => simpa using h
        | succ k =>
          simp only [Nat.add_one_ne_zero, if_false, Nat.add_sub_cancel, List.getElem?_cons_succ] at h ⊢
          rw [show i + (k + 1 + 1) = i + 1 + (k + 1) from by omega]
          exact h
    · rintro ⟨k, x, hx, h⟩
      cases k with
      | zero =>
        simp at hx
        subst hx
        exact Or.inl (by simpa using h)
      | succ k =>
        refine Or.inr ⟨k, x, by simpa using hx, ?_⟩
        cases k with
        | zero => simpa using h
        | succ k =>
          simp only [Nat.add_one_ne_zero, if_false, Nat.add_sub_cancel, List.getElem?_cons_succ] at h ⊢
          rw [show i + 1 + (k + 1) = i + (k + 1 + 1) from by omega]
          exact h

/-- Controllers by channel and number. -/
theorem asController_view (b : Body) (ch id : UInt8) : asController b = some (ch, id) ↔ ∃ v, b.view = .controller ch.toNat id.toNat v := by
  cases b <;> simp [asController, Body.view, UInt8.toNat_inj]

theorem any_msb (b : Body) : (asController b).any (fun c => c.2 == 0x00) = true ↔ ∃ ch, IsMSB ch b.view := by
  cases b <;> simp [asController, Body.view, IsMSB, ← UInt8.toNat_inj]

theorem any_lsb (b : Body) : (asController b).any (fun c => c.2 == 0x20) = true ↔ ∃ ch, IsLSB ch b.view := by
  cases b <;> simp [asController, Body.view, IsLSB, ← UInt8.toNat_inj]

theorem bankStep_mem (tr i : Nat) (last : Option Body) (e : Body) (f : Finding) : f ∈ bankStep tr i last e ↔
    (f = .msbMissingLsb tr i ∧ (∃ b, last = some b ∧ ∃ ch, IsMSB ch b.view) ∧ ¬ ∃ ch, IsLSB ch e.view) ∨
    (f = .lsbMissingMsb tr (i + 1) ∧ (∃ ch, IsLSB ch e.view) ∧ ¬ ∃ b, last = some b ∧ ∃ ch, IsMSB ch b.view) ∨
    ((f = .msbOtherChannel tr i ∨ f = .lsbOtherChannel tr (i + 1)) ∧
      ∃ b ch ch', last = some b ∧ IsMSB ch b.view ∧ IsLSB ch' e.view ∧ ch ≠ ch') := by
  have hm : (last.bind asController).any (fun c => c.2 == 0x00) = true ↔ ∃ b, last = some b ∧ ∃ ch, IsMSB ch b.view := by
    cases last with
    | none => simp
    | some b => simp [any_msb]
  have hl := any_lsb e
  unfold bankStep
  simp only [List.mem_append, or_assoc]
  refine or_congr ?_ (or_congr ?_ ?_)
  · rw [← hm, ← hl]
    generalize (last.bind asController).any (fun c => c.2 == 0x00) = x
    generalize (asController e).any (fun c => c.2 == 0x20) = y
    cases x <;> cases y <;> simp
  · rw [← hm, ← hl]
    generalize (last.bind asController).any (fun c => c.2 == 0x00) = x
    generalize (asController e).any (fun c => c.2 == 0x20) = y
    cases x <;> cases y <;> simp
  · clear hm hl
    cases last with
    | none => simp
    | some b =>
      have e1 : Option.bind (some b) asController = asController b := rfl
      rw [e1]
      cases hb : asController b with
      | none =>
        have : ¬ ∃ ch, IsMSB ch b.view := by rw [← any_msb, hb]; simp
        simp only [Option.any_none, Bool.false_and, Bool.false_eq_true, if_false, List.not_mem_nil, false_iff]
        rintro ⟨_, b', ch, ch', h, h', _⟩
        injection h with h
        subst h
        exact this ⟨_, h'⟩
      | some p =>
        cases he : asController e with
        | none =>
          have : ¬ ∃ ch, IsLSB ch e.view := by rw [← any_lsb, he]; simp
          simp only [Option.any_none, Bool.and_false, Bool.false_and, Bool.false_eq_true, if_false, List.not_mem_nil, false_iff]
          rintro ⟨_, b', ch, ch', h, _, h', _⟩
          exact this ⟨_, h'⟩
        | some q =>
          obtain ⟨pc, pid⟩ := p
          obtain ⟨qc, qid⟩ := q
          obtain ⟨v, hv⟩ := (asController_view b pc pid).1 hb
          obtain ⟨w, hw⟩ := (asController_view e qc qid).1 he
          have : (∃ b_1 ch ch', some b = some b_1 ∧ IsMSB ch b_1.view ∧ IsLSB ch' e.view ∧ ch ≠ ch') ↔ pid = 0 ∧ qid = 0x20 ∧ pc ≠ qc := by
            constructor
            · rintro ⟨b', ch, ch', h, ⟨v', h1⟩, ⟨w', h2⟩, hne⟩
              injection h with h
              subst h
              rw [hv] at h1
              rw [hw] at h2
              injection h1 with a1 a2 a3
              injection h2 with b1 b2 b3
              refine ⟨UInt8.toNat_inj.1 a2, UInt8.toNat_inj.1 b2, ?_⟩
              rintro rfl
              exact hne (a1.symm.trans b1)
            · rintro ⟨rfl, rfl, hne⟩
              exact ⟨b, _, _, rfl, ⟨v, hv⟩, ⟨w, hw⟩, fun h => hne (UInt8.toNat_inj.1 h)⟩
          rw [this]
          by_cases h1 : pid = 0 <;> by_cases h2 : qid = 0x20 <;> by_cases h3 : pc = qc <;> simp [h1, h2, h3]

/-- The bank select findings of a track, exactly. -/
theorem bankLoop_exact (t : MTrk) (f : Finding) : f ∈ bankLoop t.trackNumber 0 none t.events ↔ ∃ (k : Nat) (c : Content), t.contents[k]? = some c ∧
    ((f = .msbMissingLsb t.trackNumber (k + 1) ∧ (∃ ch, IsMSB ch c) ∧ ∃ c', t.contents[k + 1]? = some c' ∧ ¬ ∃ ch, IsLSB ch c') ∨
     (f = .lsbMissingMsb t.trackNumber (k + 1) ∧ (∃ ch, IsLSB ch c) ∧ ¬ ∃ j c', j + 1 = k ∧ t.contents[j]? = some c' ∧ ∃ ch, IsMSB ch c') ∨
     (f = .msbOtherChannel t.trackNumber (k + 1) ∧ ∃ ch ch' c', IsMSB ch c ∧ t.contents[k + 1]? = some c' ∧ IsLSB ch' c' ∧ ch ≠ ch') ∨
     (f = .lsbOtherChannel t.trackNumber (k + 1) ∧ ∃ ch ch' j c', IsLSB ch c ∧ j + 1 = k ∧ t.contents[j]? = some c' ∧ IsMSB ch' c' ∧ ch' ≠ ch)) := by
  rw [bankLoop_mem]
  simp only [bankStep_mem, Nat.zero_add]
  have hget : ∀ (k : Nat) (c : Content), t.contents[k]? = some c ↔ ∃ e, t.events[k]? = some e ∧ e.body.view = c := by
    intro k c
    simp [MTrk.contents]
  have hlast : ∀ (k : Nat) (b : Body), (if k = 0 then none else (t.events[k - 1]?).map Event.body) = some b ↔
      ∃ j e, j + 1 = k ∧ t.events[j]? = some e ∧ e.body = b := by
    intro k b
    cases k with
    | zero => simp
    | succ k => simp
  simp only [hlast]
  constructor
  · rintro ⟨k, e, he, (⟨rfl, ⟨b, ⟨j, e0, rfl, hj, rfl⟩, h1⟩, h2⟩ | ⟨rfl, h1, h2⟩ | ⟨hf, b, ch, ch', ⟨j, e0, rfl, hj, rfl⟩, h1, h2, h3⟩)⟩
    · exact ⟨j, _, (hget _ _).2 ⟨e0, hj, rfl⟩, Or.inl ⟨rfl, h1, _, (hget _ _).2 ⟨e, he, rfl⟩, h2⟩⟩
    · refine ⟨k, _, (hget _ _).2 ⟨e, he, rfl⟩, Or.inr (Or.inl ⟨rfl, h1, ?_⟩)⟩
      rintro ⟨j, c', hj, hc', h3⟩
      obtain ⟨e', he', rfl⟩ := (hget _ _).1 hc'
      exact h2 ⟨_, ⟨j, e', hj, he', rfl⟩, h3⟩
    · rcases hf with rfl | rfl
      · exact ⟨j, _, (hget _ _).2 ⟨e0, hj, rfl⟩, Or.inr (Or.inr (Or.inl ⟨rfl, ch, ch', _, h1, (hget _ _).2 ⟨e, he, rfl⟩, h2, h3⟩))⟩
      · exact ⟨j + 1, _, (hget _ _).2 ⟨e, he, rfl⟩, Or.inr (Or.inr (Or.inr ⟨rfl, ch', ch, j, _, h2, rfl, (hget _ _).2 ⟨e0, hj, rfl⟩, h1, h3⟩))⟩
  · rintro ⟨k, c, hc, (⟨rfl, h1, c', hc', h2⟩ | ⟨rfl, h1, h2⟩ | ⟨rfl, ch, ch', c', h1, hc', h2, h3⟩ | ⟨rfl, ch, ch', j, c', h1, rfl, hc', h2, h3⟩)⟩
    · obtain ⟨e, he, rfl⟩ := (hget _ _).1 hc
      obtain ⟨e', he', rfl⟩ := (hget _ _).1 hc'
      exact ⟨k + 1, e', he', Or.inl ⟨rfl, ⟨_, ⟨k, e, rfl, he, rfl⟩, h1⟩, h2⟩⟩
    · obtain ⟨e, he, rfl⟩ := (hget _ _).1 hc
      refine ⟨k, e, he, Or.inr (Or.inl ⟨rfl, h1, ?_⟩)⟩
      rintro ⟨b, ⟨j, e', hj, he', rfl⟩, h3⟩
      exact h2 ⟨j, _, hj, (hget _ _).2 ⟨e', he', rfl⟩, h3⟩
    · obtain ⟨e, he, rfl⟩ := (hget _ _).1 hc
      obtain ⟨e', he', rfl⟩ := (hget _ _).1 hc'
      exact ⟨k + 1, e', he', Or.inr (Or.inr ⟨Or.inl rfl, _, ch, ch', ⟨k, e, rfl, he, rfl⟩, h1, h2, h3⟩)⟩
    · obtain ⟨e, he, rfl⟩ := (hget _ _).1 hc
      obtain ⟨e', he', rfl⟩ := (hget _ _).1 hc'
      exact ⟨j + 1, e, he, Or.inr (Or.inr ⟨Or.inr rfl, _, ch', ch, ⟨j, e', rfl, he', rfl⟩, h2, h1, h3⟩)⟩

/-- Kinds of findings. -/
def Finding.IsEot (tr : Nat) : Finding → Prop
  | .eotNotLast n _ => n = tr
  | .eotMissing n => n = tr
  | _ => False

def Finding.IsBank (tr pos : Nat) : Finding → Prop
  | .msbMissingLsb n p => n = tr ∧ p = pos
  | .lsbMissingMsb n p => n = tr ∧ p = pos
  | .msbOtherChannel n p => n = tr ∧ p = pos
  | .lsbOtherChannel n p => n = tr ∧ p = pos
  | _ => False

/-- The findings of the format checks. -/
def Finding.isFormat : Finding → Bool
  | .format0TrackCount _ => true
  | .track0Unexpected _ => true
  | .trackUnexpected _ _ => true
  | _ => false

/-- What the format checks have to report. -/
def formatFindings (format : Nat) (ts : List MTrk) : List Finding :=
  (if format = 0 ∧ ts.length ≠ 1 then [.format0TrackCount ts.length] else []) ++
  (if format = 1 then
    ((ts.take 1).map (fun t => (t.events.filter (fun e => ¬ TempoMapKind e.body.view)).map (fun e => .track0Unexpected e.body))).flatten ++
    ((ts.drop 1).map (fun t => (t.events.filter (fun e => TempoMapOnly e.body.view)).map (fun e => .trackUnexpected t.trackNumber e.body))).flatten
   else [])

theorem isTrack0Event_view (b : Body) : isTrack0Event b = decide (TempoMapKind b.view) := by
  cases b with
  | text k s => cases k <;> rfl
  | _ => rfl

theorem isTrack1Event_view (b : Body) : isTrack1Event b = !decide (TempoMapOnly b.view) := by
  cases b <;> rfl

theorem validate_ok (smf : SMF) (m : MThd) (hm : smf.mthd = some m) (h : ¬ (m.format.toNat = 1 ∧ smf.tracks = [])) :
    validate smf = .ok (formatFindings m.format.toNat smf.tracks ++ (smf.tracks.map validateEOT).flatten ++
      (smf.tracks.map (fun t => bankLoop t.trackNumber 0 none t.events)).flatten) := by
  have e0 : (m.format = 0) = (m.format.toNat = 0) := by rw [← UInt16.toNat_inj]; rfl
  have e1 : (m.format = 1) = (m.format.toNat = 1) := by rw [← UInt16.toNat_inj]; rfl
  unfold validate formatFindings
  rw [hm]
  simp only [e0, e1]
  by_cases h0 : m.format.toNat = 0
  · have h1 : ¬ m.format.toNat = 1 := by omega
    by_cases hl : smf.tracks.length = 1 <;> simp [h0, h1, validateFormat0, hl]
  · by_cases h1 : m.format.toNat = 1
    · cases ht : smf.tracks with
      | nil => exact absurd ⟨h1, ht⟩ h
      | cons t ts =>
        simp [h0, h1, validateFormat1, isTrack0Event_view, isTrack1Event_view]
    · simp [h0, h1]

theorem eot_not_format (t : MTrk) (f : Finding) (h : f ∈ validateEOT t) : f.isFormat = false ∧ ∀ tr pos, ¬ f.IsBank tr pos := by
  rcases (validateEOT_mem t f).1 h with ⟨_, rfl, _⟩ | ⟨rfl, _⟩ <;> exact ⟨rfl, fun _ _ h => h⟩

theorem bank_not_format (t : MTrk) (f : Finding) (h : f ∈ bankLoop t.trackNumber 0 none t.events) : f.isFormat = false ∧ ∀ tr, ¬ f.IsEot tr := by
  obtain ⟨k, c, _, (⟨rfl, _⟩ | ⟨rfl, _⟩ | ⟨rfl, _⟩ | ⟨rfl, _⟩)⟩ := (bankLoop_exact t f).1 h <;> exact ⟨rfl, fun _ h => h⟩

theorem format_is_format (n : Nat) (ts : List MTrk) (f : Finding) (h : f ∈ formatFindings n ts) :
    f.isFormat = true ∧ (∀ tr, ¬ f.IsEot tr) ∧ ∀ tr pos, ¬ f.IsBank tr pos := by
  have key : f.isFormat = true := by
    unfold formatFindings at h
    rw [List.mem_append] at h
    rcases h with h | h
    · split at h
      · simp at h; rw [h]; rfl
      · cases h
    · split at h
      · simp only [List.mem_append, List.mem_flatten, List.mem_map] at h
        rcases h with ⟨_, ⟨_, _, rfl⟩, h⟩ | ⟨_, ⟨_, _, rfl⟩, h⟩
        all_goals
          obtain ⟨_, _, rfl⟩ := List.mem_map.1 h
          rfl
      · cases h
  refine ⟨key, ?_, ?_⟩
  · intro tr h; cases f <;> first | exact h | cases key
  · intro tr pos h; cases f <;> first | exact h | cases key

/-- C39 exactly: validating a decoded file panics if and only if it is a format 1 file without tracks. -/
theorem C39_validate_never_panics_partial (mc : MiddleC) (spare file : Bytes) (smf : SMF) (hd : decode mc spare file = .ok smf) :
    ∃ m, smf.mthd = some m ∧ ((m.format.toNat = 1 ∧ smf.tracks = []) → validate smf = .panic) ∧
      (¬ (m.format.toNat = 1 ∧ smf.tracks = []) → ∃ fs, validate smf = .ok fs) := by
  obtain ⟨m, h, hm, _⟩ := decode_ok hd
  refine ⟨m, hm, ?_, fun h => ⟨_, validate_ok smf m hm h⟩⟩
  rintro ⟨h1, h2⟩
  have h1 : m.format = 1 := UInt16.toNat_inj.1 h1
  unfold validate
  rw [hm]
  simp only [h1, if_true, h2]
  rfl

/-- C39 is false: the header of a format 1 file without tracks. -/
theorem C39_validate_never_panics_fails (mc : MiddleC) :
    ∃ smf, decode mc [] [0x4d, 0x54, 0x68, 0x64, 0, 0, 0, 6, 0, 1, 0, 0, 0, 96] = .ok smf ∧ validate smf = .panic := by
  have hf : ([0x4d, 0x54, 0x68, 0x64, 0, 0, 0, 6, 0, 1, 0, 0, 0, 96] : Bytes) = fileBytes [(Header.mk 1 0 96).chunk] := by decide
  obtain ⟨smf, h1, h2⟩ := Outcome.of_test (o := decode mc [] [0x4d, 0x54, 0x68, 0x64, 0, 0, 0, 6, 0, 1, 0, 0, 0, 96])
    (p := fun smf => smf.mthd.all (fun m => m.format.toNat == 1) && smf.tracks.length == 0) (by cases mc <;> decide +kernel)
  obtain ⟨m, hm, hp, _⟩ := C39_validate_never_panics_partial mc [] _ smf h1
  rw [hm] at h2
  simp at h2
  exact ⟨smf, h1, hp ⟨h2.1, h2.2⟩⟩

/-- C36: an end of track problem is reported for track `i` if and only if the track is not events without an End of Track followed
by one End of Track. -/
theorem C36_end_of_track (mc : MiddleC) (spare file : Bytes) (smf : SMF) (hd : decode mc spare file = .ok smf) (fs : List Finding)
    (hv : validate smf = .ok fs) (i : Nat) (hi : i < smf.tracks.length) :
    (∃ f ∈ fs, f.IsEot i) ↔ ¬ ProperlyEnded (smf.contents i) := by
  obtain ⟨m, hm, hp, hq⟩ := C39_validate_never_panics_partial mc spare file smf hd
  have hnp : ¬ (m.format.toNat = 1 ∧ smf.tracks = []) := fun h => by rw [hp h] at hv; cases hv
  rw [validate_ok smf m hm hnp] at hv
  injection hv with hv
  have hnum := decoded_numbered hd
  have hti : smf.tracks[i]? = some smf.tracks[i] := by simp [hi]
  generalize smf.tracks[i] = t at hti
  have hc : smf.contents i = t.contents := by simp [SMF.contents, hti]
  have hmem : (∃ f ∈ fs, f.IsEot i) ↔ ∃ f ∈ validateEOT t, f.IsEot i := by
    constructor
    · rintro ⟨f, hf, he⟩
      rw [← hv] at hf
      simp only [List.mem_append, List.mem_flatten, List.mem_map] at hf
      rcases hf with (hf | ⟨_, ⟨t', ht', rfl⟩, hf⟩) | ⟨_, ⟨t', ht', rfl⟩, hf⟩
      · exact absurd he ((format_is_format _ _ _ hf).2.1 i)
      · obtain ⟨j, hj⟩ := List.mem_iff_getElem?.1 ht'
        have htj := hnum j t' hj
        have hij : t'.trackNumber = i := by
          rcases (validateEOT_mem t' f).1 hf with ⟨_, rfl, _⟩ | ⟨rfl, _⟩ <;> exact he
        have : j = i := by omega
        subst this
        rw [hti] at hj
        injection hj with hj
        subst hj
        exact ⟨f, hf, he⟩
      · exact absurd he ((bank_not_format _ _ hf).2 i)
    · rintro ⟨f, hf, he⟩
      refine ⟨f, ?_, he⟩
      rw [← hv]
      simp only [List.mem_append, List.mem_flatten, List.mem_map]
      exact Or.inl (Or.inr ⟨_, ⟨t, List.mem_of_getElem? hti, rfl⟩, hf⟩)
  rw [hmem, hc]
  have hn := hnum i t hti
  constructor
  · rintro ⟨f, hf, _⟩ ⟨pre, hpre, hno⟩
    rcases (validateEOT_mem t f).1 hf with ⟨k, _, hk, hne⟩ | ⟨_, h⟩
    · rw [hpre] at hk hne
      simp only [List.length_append, List.length_singleton] at hne
      rw [List.getElem?_append] at hk
      split at hk
      · exact hno (List.mem_of_getElem? hk)
      · have : k = pre.length := by
          have := (List.getElem?_eq_some_iff.1 hk).1
          simp at this
          omega
        omega
    · exact h (by rw [hpre]; simp)
  · intro hnp
    by_cases hex : Content.endOfTrack ∈ t.contents
    · obtain ⟨pre, post, hpp, hno⟩ := List.eq_append_cons_of_mem hex
      have hpost : post ≠ [] := by
        rintro rfl
        exact hnp ⟨pre, hpp, hno⟩
      have hlen : 0 < post.length := List.length_pos_iff.2 hpost
      refine ⟨.eotNotLast t.trackNumber (pre.length + 1), (validateEOT_mem t _).2 (Or.inl ⟨pre.length, rfl, ?_, ?_⟩), hn⟩
      · rw [hpp]; simp
      · rw [hpp]; simp; omega
    · exact ⟨.eotMissing t.trackNumber, (validateEOT_mem t _).2 (Or.inr ⟨rfl, hex⟩), hn⟩

/-- C37: of the findings of the format checks there are exactly: the number of tracks of a format 0 file if it is not one; in
format 1, in order, every event of track 0 that is not of a tempo map kind, and every tempo and SMPTE offset event of the
other tracks, with the number of its track. -/
theorem C37_format_rules (mc : MiddleC) (spare file : Bytes) (smf : SMF) (hd : decode mc spare file = .ok smf) (fs : List Finding)
    (hv : validate smf = .ok fs) :
    ∃ m, smf.mthd = some m ∧ fs.filter Finding.isFormat = formatFindings m.format.toNat smf.tracks ∧
      ∀ (i : Nat) t, smf.tracks[i]? = some t → t.trackNumber = i := by
  obtain ⟨m, hm, hp, hq⟩ := C39_validate_never_panics_partial mc spare file smf hd
  have hnp : ¬ (m.format.toNat = 1 ∧ smf.tracks = []) := fun h => by rw [hp h] at hv; cases hv
  rw [validate_ok smf m hm hnp] at hv
  injection hv with hv
  refine ⟨m, hm, ?_, decoded_numbered hd⟩
  rw [← hv, List.filter_append, List.filter_append, List.filter_eq_self.2, List.filter_eq_nil_iff.2, List.filter_eq_nil_iff.2]
  · simp
  · intro f hf
    simp only [List.mem_flatten, List.mem_map] at hf
    obtain ⟨_, ⟨t, _, rfl⟩, hf⟩ := hf
    rw [(bank_not_format t f hf).1]
    simp
  · intro f hf
    simp only [List.mem_flatten, List.mem_map] at hf
    obtain ⟨_, ⟨t, _, rfl⟩, hf⟩ := hf
    rw [(eot_not_format t f hf).1]
    simp
  · intro f hf
    exact (format_is_format _ _ f hf).1

/-- C38 except for an MSB that is the last event of its track: a bank select problem is reported at position `k + 1` of track `i`
if and only if the event there is a Bank Select MSB that has a next event and is not followed by an LSB on the same channel, or
an LSB not preceded by an MSB on the same channel. -/
theorem C38_bank_select_partial (mc : MiddleC) (spare file : Bytes) (smf : SMF) (hd : decode mc spare file = .ok smf) (fs : List Finding)
    (hv : validate smf = .ok fs) (i : Nat) (hi : i < smf.tracks.length) (k : Nat) :
    (∃ f ∈ fs, f.IsBank i (k + 1)) ↔
      (LonelyMSB (smf.contents i) k ∧ k + 1 < (smf.contents i).length) ∨ LonelyLSB (smf.contents i) k := by
  obtain ⟨m, hm, hp, hq⟩ := C39_validate_never_panics_partial mc spare file smf hd
  have hnp : ¬ (m.format.toNat = 1 ∧ smf.tracks = []) := fun h => by rw [hp h] at hv; cases hv
  rw [validate_ok smf m hm hnp] at hv
  injection hv with hv
  have hnum := decoded_numbered hd
  have hti : smf.tracks[i]? = some smf.tracks[i] := by simp [hi]
  generalize smf.tracks[i] = t at hti
  have hc : smf.contents i = t.contents := by simp [SMF.contents, hti]
  have hn := hnum i t hti
  have hmem : (∃ f ∈ fs, f.IsBank i (k + 1)) ↔ ∃ f ∈ bankLoop t.trackNumber 0 none t.events, f.IsBank i (k + 1) := by
    constructor
    · rintro ⟨f, hf, he⟩
      rw [← hv] at hf
      simp only [List.mem_append, List.mem_flatten, List.mem_map] at hf
      rcases hf with (hf | ⟨_, ⟨t', ht', rfl⟩, hf⟩) | ⟨_, ⟨t', ht', rfl⟩, hf⟩
      · exact absurd he ((format_is_format _ _ _ hf).2.2 i _)
      · exact absurd he ((eot_not_format _ _ hf).2 i _)
      · obtain ⟨j, hj⟩ := List.mem_iff_getElem?.1 ht'
        have htj := hnum j t' hj
        have hij : t'.trackNumber = i := by
          obtain ⟨k, c, _, (⟨rfl, _⟩ | ⟨rfl, _⟩ | ⟨rfl, _⟩ | ⟨rfl, _⟩)⟩ := (bankLoop_exact t' f).1 hf <;> exact he.1
        have : j = i := by omega
        subst this
        rw [hti] at hj
        injection hj with hj
        subst hj
        exact ⟨f, hf, he⟩
    · rintro ⟨f, hf, he⟩
      refine ⟨f, ?_, he⟩
      rw [← hv]
      simp only [List.mem_append, List.mem_flatten, List.mem_map]
      exact Or.inr ⟨_, ⟨t, List.mem_of_getElem? hti, rfl⟩, hf⟩
  rw [hmem, hc]
  have msb_ch : ∀ {ch ch' : Nat} {c : Content}, IsMSB ch c → IsMSB ch' c → ch = ch' := by
    rintro ch ch' c ⟨v, rfl⟩ ⟨v', h⟩
    injection h
  have lsb_ch : ∀ {ch ch' : Nat} {c : Content}, IsLSB ch c → IsLSB ch' c → ch = ch' := by
    rintro ch ch' c ⟨v, rfl⟩ ⟨v', h⟩
    injection h
  constructor
  · rintro ⟨f, hf, he⟩
    obtain ⟨k', c, hk', hcase⟩ := (bankLoop_exact t f).1 hf
    have hkk : k' = k := by
      rcases hcase with ⟨rfl, _⟩ | ⟨rfl, _⟩ | ⟨rfl, _⟩ | ⟨rfl, _⟩ <;> have := he.2 <;> omega
    subst hkk
    rcases hcase with ⟨rfl, ⟨ch, h1⟩, c', hc', h2⟩ | ⟨rfl, ⟨ch, h1⟩, h2⟩ | ⟨rfl, ch, ch', c', h1, hc', h2, h3⟩ | ⟨rfl, ch, ch', j, c', h1, hj, hc', h2, h3⟩
    · refine Or.inl ⟨⟨ch, c, hk', h1, ?_⟩, (List.getElem?_eq_some_iff.1 hc').1⟩
      rintro ⟨c'', hc'', h⟩
      rw [hc'] at hc''
      injection hc'' with hc''
      subst hc''
      exact h2 ⟨_, h⟩
    · refine Or.inr ⟨ch, c, hk', h1, ?_⟩
      rintro ⟨j, c', hj, hc', h⟩
      exact h2 ⟨j, c', hj, hc', _, h⟩
    · refine Or.inl ⟨⟨ch, c, hk', h1, ?_⟩, (List.getElem?_eq_some_iff.1 hc').1⟩
      rintro ⟨c'', hc'', h⟩
      rw [hc'] at hc''
      injection hc'' with hc''
      subst hc''
      exact h3 (lsb_ch h h2)
    · refine Or.inr ⟨ch, c, hk', h1, ?_⟩
      rintro ⟨j', c'', hj', hc'', h⟩
      have : j' = j := by omega
      subst this
      rw [hc'] at hc''
      injection hc'' with hc''
      subst hc''
      exact h3 (msb_ch h2 h)
  · rintro (⟨⟨ch, c, hk, h1, h2⟩, hlt⟩ | ⟨ch, c, hk, h1, h2⟩)
    · obtain ⟨c', hc'⟩ : ∃ c', t.contents[k + 1]? = some c' := ⟨_, List.getElem?_eq_some_iff.2 ⟨hlt, rfl⟩⟩
      by_cases hl : ∃ ch, IsLSB ch c'
      · obtain ⟨ch', hl⟩ := hl
        exact ⟨_, (bankLoop_exact t _).2 ⟨k, c, hk, Or.inr (Or.inr (Or.inl ⟨rfl, ch, ch', c', h1, hc', hl, fun h => h2 ⟨c', hc', h ▸ hl⟩⟩))⟩, hn, rfl⟩
      · exact ⟨_, (bankLoop_exact t _).2 ⟨k, c, hk, Or.inl ⟨rfl, ⟨ch, h1⟩, c', hc', hl⟩⟩, hn, rfl⟩
    · by_cases hl : ∃ j c', j + 1 = k ∧ t.contents[j]? = some c' ∧ ∃ ch, IsMSB ch c'
      · obtain ⟨j, c', hj, hc', ch', hl⟩ := hl
        exact ⟨_, (bankLoop_exact t _).2 ⟨k, c, hk, Or.inr (Or.inr (Or.inr ⟨rfl, ch, ch', j, c', h1, hj, hc', hl,
          fun h => h2 ⟨j, c', hj, hc', h ▸ hl⟩⟩))⟩, hn, rfl⟩
      · exact ⟨_, (bankLoop_exact t _).2 ⟨k, c, hk, Or.inr (Or.inl ⟨rfl, ⟨ch, h1⟩, hl⟩)⟩, hn, rfl⟩

/-- C38 is false: a Bank Select MSB that is the last event of its track is not reported. -/
theorem C38_bank_select_fails (mc : MiddleC) : ∃ smf fs, decode mc [] (oneTrack [0, 0xb2, 0x00, 5]) = .ok smf ∧ validate smf = .ok fs ∧
    LonelyMSB (smf.contents 0) 0 ∧ ¬ ∃ f ∈ fs, ∃ tr pos, f.IsBank tr pos := by
  obtain ⟨smf, h1, h2⟩ := Outcome.of_test (o := decode mc [] (oneTrack [0, 0xb2, 0x00, 5]))
    (p := fun smf => smf.contents 0 == [.controller 2 0 5] && (validate smf).test (fun fs => fs == [.eotMissing 0])) (by cases mc <;> decide +kernel)
  simp only [Bool.and_eq_true, beq_iff_eq] at h2
  obtain ⟨fs, h3, h4⟩ := Outcome.of_test h2.2
  have h4 : fs = [.eotMissing 0] := by simpa using h4
  refine ⟨smf, fs, h1, h3, ?_, ?_⟩
  · rw [h2.1]
    exact ⟨2, _, rfl, ⟨5, rfl⟩, by simp⟩
  · rw [h4]
    rintro ⟨f, hf, tr, pos, h⟩
    simp at hf
    subst hf
    exact h

/-- Non-vacuity: a format 1 file whose first track has a note, whose second has a tempo, an unpaired MSB, an LSB without MSB and no
End of Track. -/
example : ∃ smf fs, decode .c3 [] (fileBytes [(Header.mk 1 2 96).chunk, ⟨tagMTrk, [0, 0x90, 60, 64, 0, 0xff, 0x2f, 0]⟩,
      ⟨tagMTrk, [0, 0xff, 0x51, 3, 7, 0xa1, 0x20, 0, 0xb0, 0, 1, 0, 0x20, 2, 0, 0x90, 1, 1, 0, 0xb0, 0, 1, 0, 0xb1, 0x20, 2]⟩]) = .ok smf ∧
    validate smf = .ok fs ∧ fs.length = 5 := by
  obtain ⟨smf, h1, h2⟩ := Outcome.of_test (o := decode .c3 [] (fileBytes [(Header.mk 1 2 96).chunk, ⟨tagMTrk, [0, 0x90, 60, 64, 0, 0xff, 0x2f, 0]⟩,
      ⟨tagMTrk, [0, 0xff, 0x51, 3, 7, 0xa1, 0x20, 0, 0xb0, 0, 1, 0, 0x20, 2, 0, 0x90, 1, 1, 0, 0xb0, 0, 1, 0, 0xb1, 0x20, 2]⟩]))
    (p := fun smf => (validate smf).test (fun fs => fs.length == 5)) (by decide +kernel)
  obtain ⟨fs, h3, h4⟩ := Outcome.of_test h2
  exact ⟨smf, fs, h1, h3, by simpa using h4⟩

end Midiasm
