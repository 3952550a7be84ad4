import Verif.Props.Encode
import Verif.Spec.Transpose
import Verif.Model.Transpose

/-!
C29 to C35: transposition and the scale tables.
-/

set_option linter.unusedSimpArgs false

namespace Midiasm
open Spec

/-! ### Scales -/

/-- The spelling of a scale: notes with pitch classes as their names say, in the interval pattern of the mode from the tonic
that names the key, every letter once, and as many sharps or flats (and no others) as stated. -/
def ScaleOk (s : Lib.Scale) (minor : Bool) : Prop :=
  (∀ n ∈ s.notes, pitchClass n.name = some (n.ord : Int)) ∧
  intervals (s.notes.map (fun n => (n.ord : Int))) = scaleSteps minor ∧
  (∀ l ∈ ['A', 'B', 'C', 'D', 'E', 'F', 'G'], (s.notes.filter (fun n => n.name.toList.head? == some l)).length = 1) ∧
  ((s.notes.filter (fun n => n.name.toList.drop 1 == ['♯'])).length : Int) = max 0 s.accidentals.toInt ∧
  ((s.notes.filter (fun n => n.name.toList.drop 1 == ['♭'])).length : Int) = max 0 (- s.accidentals.toInt) ∧
  s.notes.length = 7 ∧
  (s.notes.head?.map (fun n => n.name ++ if minor then " minor" else " major")) = some s.name ∧
  s.keyType = if minor then 1 else 0

instance (s : Lib.Scale) (minor : Bool) : Decidable (ScaleOk s minor) := by unfold ScaleOk; infer_instance

/-- C35: the scale found for a key signature is spelled as it should be, for every number of accidentals and both modes; there is
exactly one for -7..7 accidentals and none for other numbers. -/
theorem C35_scales (a : Int8) :
    (-7 ≤ a.toInt ∧ a.toInt ≤ 7 →
      (∃ s, Lib.majorScale a = some s ∧ s.accidentals = a ∧ ScaleOk s false ∧ ∀ s' ∈ Lib.MAJOR_SCALES, s'.accidentals = a → s' = s) ∧
      (∃ s, Lib.minorScale a = some s ∧ s.accidentals = a ∧ ScaleOk s true ∧ ∀ s' ∈ Lib.MINOR_SCALES, s'.accidentals = a → s' = s)) ∧
    (¬ (-7 ≤ a.toInt ∧ a.toInt ≤ 7) → Lib.majorScale a = none ∧ Lib.minorScale a = none) := by
  have hM : ∀ s ∈ Lib.MAJOR_SCALES, ScaleOk s false := by decide +kernel
  have hm : ∀ s ∈ Lib.MINOR_SCALES, ScaleOk s true := by decide +kernel
  have uM : ∀ s ∈ Lib.MAJOR_SCALES, ∀ s' ∈ Lib.MAJOR_SCALES, s'.accidentals = s.accidentals → s' = s := by decide +kernel
  have um : ∀ s ∈ Lib.MINOR_SCALES, ∀ s' ∈ Lib.MINOR_SCALES, s'.accidentals = s.accidentals → s' = s := by decide +kernel
  have cover : ∀ b : UInt8, ((-7 ≤ b.toInt8.toInt ∧ b.toInt8.toInt ≤ 7) ↔ (Lib.majorScale b.toInt8).isSome = true) ∧
      ((-7 ≤ b.toInt8.toInt ∧ b.toInt8.toInt ≤ 7) ↔ (Lib.minorScale b.toInt8).isSome = true) :=
    all8 (P := fun b => ((-7 ≤ b.toInt8.toInt ∧ b.toInt8.toInt ≤ 7) ↔ (Lib.majorScale b.toInt8).isSome = true) ∧
      ((-7 ≤ b.toInt8.toInt ∧ b.toInt8.toInt ≤ 7) ↔ (Lib.minorScale b.toInt8).isSome = true)) (by decide +kernel)
  have hc := cover a.toUInt8
  have ha : a.toUInt8.toInt8 = a := rfl
  rw [ha] at hc
  obtain ⟨c1, c2⟩ := hc
  constructor
  · intro h
    constructor
    · obtain ⟨s, hs⟩ := Option.isSome_iff_exists.1 (c1.1 h)
      have e1 := List.find?_some hs
      have e2 := List.mem_of_find?_eq_some hs
      simp at e1
      exact ⟨s, hs, e1, hM s e2, fun s' hs' h' => uM s e2 s' hs' (by rw [h', e1])⟩
    · obtain ⟨s, hs⟩ := Option.isSome_iff_exists.1 (c2.1 h)
      have e1 := List.find?_some hs
      have e2 := List.mem_of_find?_eq_some hs
      simp at e1
      exact ⟨s, hs, e1, hm s e2, fun s' hs' h' => um s e2 s' hs' (by rw [h', e1])⟩
  · intro h
    constructor
    · cases hs : Lib.majorScale a with
      | none => rfl
      | some s => exact absurd (c1.2 (by rw [hs]; rfl)) h
    · cases hs : Lib.minorScale a with
      | none => rfl
      | some s => exact absurd (c2.2 (by rw [hs]; rfl)) h

/-- E♭ minor is found for six flats. -/
example : (Lib.minorScale (-6)).map (fun s => (s.name, s.notes.map Lib.Note.name)) =
    some ("E♭ minor", ["E♭", "F", "G♭", "A♭", "B♭", "C♭", "D♭"]) := by decide +kernel

/-- A shift for which adding a note number or an index does not overflow a 64-bit `int`. -/
def Fits (n : Int) : Prop := -2 ^ 63 ≤ n ∧ n + 255 < 2 ^ 63

theorem wrap64_eq {x : Int} (h1 : -2 ^ 63 ≤ x) (h2 : x < 2 ^ 63) : wrap64 x = x := by
  unfold wrap64
  rw [Int.bmod_def]
  split <;> omega

theorem transposeNote_mod (n : Lib.Note) (steps : Int) (hf : Fits steps) : Lib.transposeNote n steps = Lib.transposeNote n (steps % 12) := by
  unfold Lib.transposeNote Lib.transposeIndex
  split
  · rfl
  · rename_i ix hix
    have hl : ix < 12 := (List.findIdx?_eq_some_iff_getElem.1 hix).1
    obtain ⟨h1, h2⟩ := hf
    rw [wrap64_eq (by omega) (by omega), wrap64_eq (by omega) (by omega)]
    have : (((ix : Int) + steps) % 12) = (((ix : Int) + steps % 12) % 12) := by omega
    rw [this]

theorem transposeNotes_mod (ns : List Lib.Note) (steps : Int) (hf : Fits steps) : Lib.transposeNotes steps ns = Lib.transposeNotes (steps % 12) ns := by
  induction ns with
  | nil => rfl
  | cons n ns ih => simp only [Lib.transposeNotes, transposeNote_mod n steps hf, ih]

theorem scale_transpose_mod (s : Lib.Scale) (steps : Int) (hf : Fits steps) : s.transpose steps = s.transpose (steps % 12) := by
  unfold Lib.Scale.transpose
  rw [transposeNotes_mod _ _ hf]

/-- What transposing a scale gives: for every scale of the tables and every shift. -/
theorem scale_transpose (minor : Bool) (s : Lib.Scale) (hs : s ∈ (if minor then Lib.MINOR_SCALES else Lib.MAJOR_SCALES)) (n : Int)
    (hf : Fits n) :
    ∃ t, s.transpose n = .ok t ∧ t.accidentals.toInt = movedKey n s.accidentals.toInt ∧
      t.name = keyName t.accidentals.toInt minor := by
  have key : ∀ minor : Bool, ∀ r : Fin 12, ∀ s ∈ (if minor then Lib.MINOR_SCALES else Lib.MAJOR_SCALES),
      (s.transpose (r.val : Int)).test (fun t => t.accidentals.toInt == movedKey r.val s.accidentals.toInt &&
        t.name == keyName t.accidentals.toInt minor) = true := by
    decide +kernel
  have hr : (n % 12).toNat < 12 := by omega
  have hn : (((⟨(n % 12).toNat, hr⟩ : Fin 12).val : Nat) : Int) = n % 12 := by simp only; omega
  have := key minor ⟨(n % 12).toNat, hr⟩ s hs
  rw [hn] at this
  obtain ⟨t, h1, h2⟩ := Outcome.of_test this
  simp at h2
  refine ⟨t, by rw [scale_transpose_mod s n hf]; exact h1, ?_, h2.2⟩
  rw [h2.1]
  unfold movedKey
  omega

/-- Key signatures the decoder accepts. -/
def KeyValid : Content → Prop
  | .keySignature a m => -7 ≤ a ∧ a ≤ 7 ∧ m ≤ 1
  | _ => True

theorem transposeKey_ok (ctx : Context) (a : Int8) (k : UInt8) (h1 : -7 ≤ a.toInt) (h2 : a.toInt ≤ 7) (hk : k.toNat ≤ 1) (n : Int) (hf : Fits n) :
    ∃ (a' : Int8) (ctx' : Context), transposeKey (some ctx) a k n = .ok (.keySignature a' k (keyName a'.toInt (k == 1)), ctx') ∧
      a'.toInt = movedKey n a.toInt := by
  obtain ⟨⟨s, hs, hsa, _⟩, ⟨s', hs', hsa', _⟩⟩ := (C35_scales a).1 ⟨h1, h2⟩
  have hk' : k = 0 ∨ k = 1 := by
    have : k.toNat = 0 ∨ k.toNat = 1 := by omega
    rcases this with h | h
    · exact Or.inl (u8_ext (by simpa using h))
    · exact Or.inr (u8_ext (by simpa using h))
  rcases hk' with rfl | rfl
  · obtain ⟨t, t1, t2, t3⟩ := scale_transpose false s (List.mem_of_find?_eq_some hs) n hf
    refine ⟨t.accidentals, if t.accidentals < 0 then ctx.useFlats else ctx.useSharps, ?_, by rw [t2, hsa]⟩
    simp only [transposeKey, if_true, hs, Outcome.bind_ok, t1, t3]
    rfl
  · obtain ⟨t, t1, t2, t3⟩ := scale_transpose true s' (List.mem_of_find?_eq_some hs') n hf
    refine ⟨t.accidentals, if t.accidentals < 0 then ctx.useFlats else ctx.useSharps, ?_, by rw [t2, hsa']⟩
    have h01 : ¬ (1 : UInt8) = 0 := by decide
    simp only [transposeKey, if_neg h01, if_true, hs', Outcome.bind_ok, t1, t3]
    rfl

/-- C33: a transposed key signature has the same mode, the tonic `n` semitones away, is one of the valid key signatures, shows its
name, and depends only on `n` modulo 12. -/
theorem C33_key_signature_transposed (ctx : Context) (a : Int8) (k : UInt8) (h1 : -7 ≤ a.toInt) (h2 : a.toInt ≤ 7) (hk : k.toNat ≤ 1)
    (n : Int) (hf : Fits n) :
    ∃ (a' : Int8) (ctx' : Context), transposeKey (some ctx) a k n = .ok (.keySignature a' k (keyName a'.toInt (k == 1)), ctx') ∧
      tonic a'.toInt (k == 1) = (tonic a.toInt (k == 1) + n) % 12 ∧ -7 ≤ a'.toInt ∧ a'.toInt ≤ 7 ∧
      ∀ m : Int, Fits m → m % 12 = n % 12 → transposeKey (some ctx) a k m = transposeKey (some ctx) a k n := by
  obtain ⟨a', ctx', h3, h4⟩ := transposeKey_ok ctx a k h1 h2 hk n hf
  refine ⟨a', ctx', h3, ?_, ?_, ?_, ?_⟩
  · rw [h4]
    unfold tonic movedKey
    split <;> omega
  · rw [h4]; unfold movedKey; omega
  · rw [h4]; unfold movedKey; omega
  · intro m hf' hm
    have : ∀ s : Lib.Scale, s.transpose m = s.transpose n := by
      intro s
      rw [scale_transpose_mod s m hf', hm, ← scale_transpose_mod s n hf]
    unfold transposeKey
    simp only [this]

/-- A♭ major (four flats) up a tone is B♭ major (two flats); E major down a semitone is E♭ major. -/
example (ctx : Context) : ∃ ctx', transposeKey (some ctx) (-4) 0 2 = .ok (.keySignature (-2) 0 "B♭ major", ctx') := ⟨_, rfl⟩
example : tonic (-4) false = 8 ∧ tonic (-2) false = 10 ∧ tonic 4 false = 4 ∧ tonic 1 true = 4 := by decide

/-! ### Events -/

theorem transposeValue_toNat (v : UInt8) (n : Int) (hf : Fits n) : (transposeValue v n).toNat = movedNote n v.toNat := by
  unfold transposeValue movedNote
  obtain ⟨h1, h2⟩ := hf
  have hv := v.toNat_lt
  rw [wrap64_eq (by omega) (by omega)]
  simp only
  split
  · simp; omega
  · split
    · simp; omega
    · rw [UInt8.toNat_ofNat']
      omega

/-- One event. -/
theorem transposeEvent_ok (mc : MiddleC) (ctx : Context) (e : Event) (n : Int) (hf : Fits n) (hk : KeyValid e.body.view) :
    ∃ (e' : Event) (ctx' : Context), transposeEvent mc (some ctx) e n = .ok (e', some ctx') ∧ e'.tick = e.tick ∧ e'.delta = e.delta ∧
      e'.body.view = moved n e.body.view ∧ (¬ IsPitched e.body.view → e' = e) ∧
      (∀ a k s, e'.body = .keySignature a k s → IsPitched e.body.view → s = keyName a.toInt (k == 1)) := by
  obtain ⟨tick, delta, bytes, body⟩ := e
  cases body with
  | keySignature a k s =>
    obtain ⟨h1, h2, h3⟩ := hk
    obtain ⟨a', ctx', h4, h5⟩ := transposeKey_ok ctx a k h1 h2 h3 n hf
    refine ⟨⟨tick, delta, [], .keySignature a' k (keyName a'.toInt (k == 1))⟩, ctx', ?_, rfl, rfl, ?_, ?_, ?_⟩
    · simp only [transposeEvent, h4, Outcome.bind_ok]
    · simp [Body.view, moved, h5]
    · intro h; exact absurd trivial h
    · intro a2 k2 s2 h _
      injection h with e1 e2 e3
      subst e1 e2
      exact e3.symm
  | noteOn ch v vel =>
    refine ⟨_, ctx, rfl, rfl, rfl, ?_, fun h => absurd trivial h, by simp⟩
    simp [Body.view, moved, transposeValue_toNat _ _ hf]
  | noteOff ch v vel =>
    refine ⟨_, ctx, rfl, rfl, rfl, ?_, fun h => absurd trivial h, by simp⟩
    simp [Body.view, moved, transposeValue_toNat _ _ hf]
  | _ => exact ⟨_, ctx, rfl, rfl, rfl, rfl, fun _ => rfl, fun _ _ _ _ h => absurd h (by simp [Body.view, IsPitched])⟩

/-- The events of a track before and after transposition. -/
def TrackMoved (n : Int) (es es' : List Event) : Prop :=
  es'.map Event.tick = es.map Event.tick ∧ es'.map Event.delta = es.map Event.delta ∧
  es'.map (·.body.view) = es.map (fun e => moved n e.body.view) ∧
  ∀ (i : Nat) e e', es[i]? = some e → es'[i]? = some e' → (¬ IsPitched e.body.view → e' = e) ∧
    (∀ a k s, e'.body = .keySignature a k s → s = keyName a.toInt (k == 1))

theorem transposeEvents_ok (mc : MiddleC) (n : Int) (hf : Fits n) (ctx : Context) (es : List Event) (hk : ∀ e ∈ es, KeyValid e.body.view) :
    ∃ es', transposeEvents mc n (some ctx) es = .ok es' ∧ TrackMoved n es es' := by
  induction es generalizing ctx with
  | nil => exact ⟨[], rfl, rfl, rfl, rfl, by simp⟩
  | cons e es ih =>
    obtain ⟨e', ctx', h1, h2, h3, h4, h5, h6⟩ := transposeEvent_ok mc ctx e n hf (hk e (by simp))
    obtain ⟨es', i1, i2, i3, i4, i5⟩ := ih ctx' (fun e he => hk e (by simp [he]))
    refine ⟨e' :: es', ?_, by simp [h2, i2], by simp [h3, i3], by simp [h4, i4], ?_⟩
    · simp only [transposeEvents, h1, Outcome.bind_ok, i1]
    · intro i x x' hx hx'
      cases i with
      | zero =>
        simp at hx hx'
        subst hx hx'
        refine ⟨h5, fun a k s h => ?_⟩
        apply h6 a k s h
        have : IsPitched e'.body.view := by rw [h]; trivial
        rw [h4] at this
        revert this
        cases e.body.view <;> simp [moved, IsPitched]
      | succ i => exact i5 i x x' (by simpa using hx) (by simpa using hx')

theorem transposeTracks_ok (mc : MiddleC) (n : Int) (hf : Fits n) (ts : List MTrk) (hk : ∀ t ∈ ts, ∀ e ∈ t.events, KeyValid e.body.view) :
    ∃ ts', transposeTracks mc n false ts = .ok ts' ∧ ts'.length = ts.length ∧
      ∀ (i : Nat) t t', ts[i]? = some t → ts'[i]? = some t' → t'.tag = tagMTrk ∧ t'.trackNumber = t.trackNumber ∧ TrackMoved n t.events t'.events := by
  induction ts with
  | nil => exact ⟨[], rfl, rfl, by simp⟩
  | cons t ts ih =>
    obtain ⟨es', h1, h2⟩ := transposeEvents_ok mc n hf t.context t.events (hk t (by simp))
    obtain ⟨ts', i1, i2, i3⟩ := ih (fun t ht => hk t (by simp [ht]))
    refine ⟨⟨str "MTrk", t.trackNumber, 0, [], es', newContext⟩ :: ts', ?_, by simp [i2], ?_⟩
    · simp only [transposeTracks, transposeTrack, Bool.false_eq_true, if_false, h1, Outcome.bind_ok, i1]
    · intro i x x' hx hx'
      cases i with
      | zero =>
        simp at hx hx'
        subst hx hx'
        exact ⟨str_MTrk, rfl, h2⟩
      | succ i => exact i3 i x x' (by simpa using hx) (by simpa using hx')

theorem decoded_keyValid {mc : MiddleC} {spare file : Bytes} {smf : SMF} (hd : decode mc spare file = .ok smf) :
    ∀ t ∈ smf.tracks, ∀ e ∈ t.events, KeyValid e.body.view := by
  intro t ht e he
  obtain ⟨p, r, c, hm, hv⟩ := decode_view hd ht he
  rw [hv]
  obtain ⟨k1, k2, k3⟩ := meaning_kind hm
  cases c with
  | keySignature a m =>
    obtain ⟨ty, d, rfl⟩ := k3 rfl rfl
    obtain ⟨_, x, y, _, _, _, h⟩ := metaMeaning_inv hm
    exact h
  | _ => trivial

/-- C29 and C30: transposing a decoded file by `n` semitones never fails; header, number, numbers and tags of the tracks, and the
number, order, ticks and delta times of the events stay the same; every event is `moved n`: note numbers move by `n`, limited
to 0..127, channels and velocities stay; every event that is not a note or a key signature stays the same, down to its recorded
bytes. -/
theorem C29_notes_shifted (mc : MiddleC) (spare file : Bytes) (smf : SMF) (hd : decode mc spare file = .ok smf) (n : Int)
    (hf : Fits n) :
    ∃ smf', transposeSMF mc n false smf = .ok smf' ∧ smf'.events = smf.events.map (fun t => t.map (fun e => (e.1, moved n e.2))) := by
  obtain ⟨ts', h1, h2, h3⟩ := transposeTracks_ok mc n hf smf.tracks (decoded_keyValid hd)
  refine ⟨⟨smf.mthd, ts'⟩, by rw [transposeSMF, h1, Outcome.bind_ok], ?_⟩
  simp only [SMF.events, List.map_map]
  apply List.ext_getElem?
  intro i
  rw [List.getElem?_map, List.getElem?_map]
  cases ht : smf.tracks[i]? with
  | none =>
    have : ts'[i]? = none := by
      rw [List.getElem?_eq_none_iff] at ht ⊢
      omega
    rw [this]; rfl
  | some t =>
    have hi : i < ts'.length := by rw [h2]; exact (List.getElem?_eq_some_iff.1 ht).1
    obtain ⟨t', ht'⟩ : ∃ t', ts'[i]? = some t' := ⟨_, List.getElem?_eq_some_iff.2 ⟨hi, rfl⟩⟩
    rw [ht']
    obtain ⟨_, _, m1, m2, m3, m4⟩ := h3 i t t' ht ht'
    simp only [Option.map_some, Option.some.injEq, Function.comp, List.map_map]
    have : ∀ (es es' : List Event), es'.map Event.delta = es.map Event.delta → es'.map (·.body.view) = es.map (fun e => moved n e.body.view) →
        es'.map (fun e => (e.delta, e.body.view)) = es.map (fun e => (e.delta, moved n e.body.view)) := by
      intro es
      induction es with
      | nil => intro es' h _; simp at h; subst h; rfl
      | cons e es ih =>
        intro es' a b
        cases es' with
        | nil => simp at a
        | cons e' es' =>
          simp at a b
          simp [a.1, b.1, ih es' a.2 (by simpa using b.2)]
    exact this _ _ m2 m3

theorem C30_nothing_else_changes (mc : MiddleC) (spare file : Bytes) (smf : SMF) (hd : decode mc spare file = .ok smf) (n : Int)
    (hf : Fits n) :
    ∃ smf', transposeSMF mc n false smf = .ok smf' ∧ smf'.mthd = smf.mthd ∧ smf'.tracks.length = smf.tracks.length ∧
      ∀ (i : Nat) t t', smf.tracks[i]? = some t → smf'.tracks[i]? = some t' →
        t'.tag = t.tag ∧ t'.trackNumber = t.trackNumber ∧ TrackMoved n t.events t'.events := by
  obtain ⟨ts', h1, h2, h3⟩ := transposeTracks_ok mc n hf smf.tracks (decoded_keyValid hd)
  refine ⟨⟨smf.mthd, ts'⟩, by rw [transposeSMF, h1, Outcome.bind_ok], rfl, h2, ?_⟩
  intro i t t' ht ht'
  obtain ⟨a, b, c⟩ := h3 i t t' ht ht'
  refine ⟨?_, b, c⟩
  obtain ⟨_, _, _, _, _, _, hh⟩ := decode_ok hd
  obtain ⟨ch, hwf, htag, _, hu⟩ := hh i t ht
  rw [a, ((unmarshalMTrk_ok mc spare _ ch hwf htag t).1 hu).2.1]

/-- Beyond: the largest 64-bit shift takes every note from 1 on down to note 0. -/
theorem C29_overflow (v : UInt8) (h : 1 ≤ v.toNat) : transposeValue v (2 ^ 63 - 1) = 0 := by
  unfold transposeValue
  have hv := v.toNat_lt
  have : wrap64 ((v.toNat : Int) + (2 ^ 63 - 1)) < 0 := by
    unfold wrap64
    rw [Int.bmod_def]
    split <;> omega
  simp only [if_pos this]

/-- Non-vacuity: a decoded file with a key signature, two notes and a controller, up seven semitones. -/
example : ∃ smf, decode .c3 [] (oneTrack [0, 0xff, 0x59, 2, 0xfd, 0, 0, 0x90, 60, 64, 0, 125, 64, 0, 0xb0, 7, 100]) = .ok smf ∧
    smf.events = [[(0, .keySignature (-3) 0), (0, .noteOn 0 60 64), (0, .noteOn 0 125 64), (0, .controller 0 7 100)]] ∧
    smf.events.map (fun t => t.map (fun e => (e.1, moved 7 e.2))) =
      [[(0, .keySignature (-2) 0), (0, .noteOn 0 67 64), (0, .noteOn 0 127 64), (0, .controller 0 7 100)]] := by
  obtain ⟨smf, h1, h2⟩ := Outcome.of_test
    (o := decode .c3 [] (oneTrack [0, 0xff, 0x59, 2, 0xfd, 0, 0, 0x90, 60, 64, 0, 125, 64, 0, 0xb0, 7, 100]))
    (p := fun smf => smf.events == [[(0, .keySignature (-3) 0), (0, .noteOn 0 60 64), (0, .noteOn 0 125 64), (0, .controller 0 7 100)]])
    (by decide +kernel)
  have h2 : smf.events = [[(0, .keySignature (-3) 0), (0, .noteOn 0 60 64), (0, .noteOn 0 125 64), (0, .controller 0 7 100)]] := by
    simpa using h2
  refine ⟨smf, h1, h2, ?_⟩
  rw [h2]
  decide

/-! ### Composition -/

/-- No note of the file is limited when moved by `n`. -/
def Unclamped (n : Int) : Content → Prop
  | .noteOff _ k _ => 0 ≤ (k : Int) + n ∧ (k : Int) + n ≤ 127
  | .noteOn _ k _ => 0 ≤ (k : Int) + n ∧ (k : Int) + n ≤ 127
  | _ => True

theorem moved_moved (a b : Int) (c : Content) (h : Unclamped a c) : moved b (moved a c) = moved (a + b) c := by
  cases c <;> simp only [moved, Unclamped] at h ⊢
  · congr 1
    unfold movedKey
    omega
  · congr 1
    unfold movedNote
    omega
  · congr 1
    unfold movedNote
    omega

theorem keyValid_moved (n : Int) (c : Content) (h : KeyValid c) : KeyValid (moved n c) := by
  cases c <;> simp only [moved, KeyValid] at h ⊢
  unfold movedKey
  omega

theorem events_keyValid {smf smf' : SMF} (h : smf'.events = smf.events)
    (hk : ∀ t ∈ smf.events, ∀ e ∈ t, KeyValid e.2) : ∀ t ∈ smf'.tracks, ∀ e ∈ t.events, KeyValid e.body.view := by
  intro t ht e he
  refine hk (t.events.map (fun e => (e.delta, e.body.view))) ?_ (e.delta, e.body.view) (List.mem_map.2 ⟨e, he, rfl⟩)
  rw [← h]
  exact List.mem_map.2 ⟨t, ht, rfl⟩

theorem keyValid_events {smf : SMF} (hk : ∀ t ∈ smf.tracks, ∀ e ∈ t.events, KeyValid e.body.view) :
    ∀ t ∈ smf.events, ∀ e ∈ t, KeyValid e.2 := by
  intro t ht e he
  obtain ⟨t', ht', rfl⟩ := List.mem_map.1 ht
  obtain ⟨e', he', rfl⟩ := List.mem_map.1 he
  exact hk t' ht' e' he'

/-- C29 for file values in general. -/
theorem transpose_events (mc : MiddleC) (smf : SMF) (hk : ∀ t ∈ smf.tracks, ∀ e ∈ t.events, KeyValid e.body.view) (n : Int) (hf : Fits n) :
    ∃ smf', transposeSMF mc n false smf = .ok smf' ∧ smf'.mthd = smf.mthd ∧
      smf'.events = smf.events.map (fun t => t.map (fun e => (e.1, moved n e.2))) ∧ smf'.tracks.length = smf.tracks.length ∧
      (∀ t' ∈ smf'.tracks, ∃ t ∈ smf.tracks, t'.tag = tagMTrk ∧ TrackMoved n t.events t'.events) := by
  obtain ⟨ts', h1, h2, h3⟩ := transposeTracks_ok mc n hf smf.tracks hk
  refine ⟨⟨smf.mthd, ts'⟩, by rw [transposeSMF, h1, Outcome.bind_ok], rfl, ?_, h2, ?_⟩
  · simp only [SMF.events, List.map_map]
    apply List.ext_getElem?
    intro i
    rw [List.getElem?_map, List.getElem?_map]
    cases ht : smf.tracks[i]? with
    | none =>
      have : ts'[i]? = none := by
        rw [List.getElem?_eq_none_iff] at ht ⊢
        omega
      rw [this]; rfl
    | some t =>
      have hi : i < ts'.length := by rw [h2]; exact (List.getElem?_eq_some_iff.1 ht).1
      obtain ⟨t', ht'⟩ : ∃ t', ts'[i]? = some t' := ⟨_, List.getElem?_eq_some_iff.2 ⟨hi, rfl⟩⟩
      rw [ht']
      obtain ⟨_, _, m1, m2, m3, m4⟩ := h3 i t t' ht ht'
      simp only [Option.map_some, Option.some.injEq, Function.comp, List.map_map]
      have : ∀ (es es' : List Event), es'.map Event.delta = es.map Event.delta → es'.map (·.body.view) = es.map (fun e => moved n e.body.view) →
          es'.map (fun e => (e.delta, e.body.view)) = es.map (fun e => (e.delta, moved n e.body.view)) := by
        intro es
        induction es with
        | nil => intro es' h _; simp at h; subst h; rfl
        | cons e es ih =>
          intro es' a b
          cases es' with
          | nil => simp at a
          | cons e' es' =>
            simp at a b
            simp [a.1, b.1, ih es' a.2 (by simpa using b.2)]
      exact this _ _ m2 m3
  · intro t' ht'
    obtain ⟨i, hi, hit⟩ := List.mem_iff_getElem.1 ht'
    have hi' : i < smf.tracks.length := by simp only at hi; omega
    obtain ⟨a, b, c⟩ := h3 i smf.tracks[i] t' (by simp [hi']) (by simp only at hi hit; simp [hi, hit])
    exact ⟨_, List.getElem_mem hi', a, c⟩

/-- C31: transposing a decoded file by `a`, and a file with the resulting events (for example read back from the written file) by
`b`, gives the events of transposing by `a + b`, if no note is limited by the first; in particular transposing back by `-a`
restores every note. -/
theorem C31_transposition_composes (mc : MiddleC) (spare file : Bytes) (smf : SMF) (hd : decode mc spare file = .ok smf) (a b : Int)
    (ha : Fits a) (hb : Fits b) (hab : Fits (a + b)) (hu : ∀ t ∈ smf.events, ∀ e ∈ t, Unclamped a e.2) :
    ∃ smf1 smf3, transposeSMF mc a false smf = .ok smf1 ∧ transposeSMF mc (a + b) false smf = .ok smf3 ∧
      ∀ smf1', smf1'.events = smf1.events → ∃ smf2, transposeSMF mc b false smf1' = .ok smf2 ∧ smf2.events = smf3.events := by
  have hk := decoded_keyValid hd
  obtain ⟨smf1, h1, _, h2, _⟩ := transpose_events mc smf hk a ha
  obtain ⟨smf3, h3, _, h4, _⟩ := transpose_events mc smf hk (a + b) hab
  refine ⟨smf1, smf3, h1, h3, ?_⟩
  intro smf1' he
  have hk1 : ∀ t ∈ smf1.events, ∀ e ∈ t, KeyValid e.2 := by
    rw [h2]
    intro t ht e he
    obtain ⟨t', ht', rfl⟩ := List.mem_map.1 ht
    obtain ⟨e', he', rfl⟩ := List.mem_map.1 he
    exact keyValid_moved a _ (keyValid_events hk t' ht' e' he')
  obtain ⟨smf2, h5, _, h6, _⟩ := transpose_events mc smf1' (events_keyValid he hk1) b hb
  refine ⟨smf2, h5, ?_⟩
  rw [h6, he, h2, h4, List.map_map]
  apply List.map_congr_left
  intro t ht
  simp only [Function.comp, List.map_map]
  apply List.map_congr_left
  intro e hee
  simp only [Function.comp, moved_moved a b e.2 (hu t ht e hee)]

theorem C31_transposing_back (n : Int) (c : Content) (h : Unclamped n c) :
    (∀ ch k v, c = .noteOn ch k v → k ≤ 127 → moved (-n) (moved n c) = c) ∧
    (∀ ch k v, c = .noteOff ch k v → k ≤ 127 → moved (-n) (moved n c) = c) := by
  rw [moved_moved n (-n) c h]
  constructor
  · rintro ch k v rfl hk
    simp only [moved]
    congr 1
    unfold movedNote
    omega
  · rintro ch k v rfl hk
    simp only [moved]
    congr 1
    unfold movedNote
    omega

example : Unclamped 5 (.noteOn 0 60 64) ∧ moved 5 (.noteOn 0 60 64) = .noteOn 0 65 64 ∧ moved (-5) (moved 5 (.noteOn 0 60 64)) = .noteOn 0 60 64 ∧
    ¬ Unclamped 70 (.noteOn 0 60 64) ∧ moved (-70) (moved 70 (.noteOn 0 60 64)) = .noteOn 0 57 64 := by
  simp only [Unclamped]
  decide

/-- Channel and note number of a note event. -/
def noteOf : Content → Option (Nat × Nat)
  | .noteOff ch k _ => some (ch, k)
  | .noteOn ch k _ => some (ch, k)
  | _ => none

/-- C32: in a transposed file, events that addressed the same note of the same channel still do, and events that addressed
different ones still do if neither is limited. -/
theorem C32_note_matching_preserved (mc : MiddleC) (spare file : Bytes) (smf : SMF) (hd : decode mc spare file = .ok smf) (n : Int)
    (hf : Fits n) :
    ∃ smf', transposeSMF mc n false smf = .ok smf' ∧ ∀ (t i j : Nat) (tr : List (UInt32 × Content)) (d1 d2 : UInt32) (c1 c2 : Content) (p q : Nat × Nat),
      smf.events[t]? = some tr → tr[i]? = some (d1, c1) → tr[j]? = some (d2, c2) → noteOf c1 = some p → noteOf c2 = some q →
      ∃ tr' c1' c2' p' q', smf'.events[t]? = some tr' ∧ tr'[i]? = some (d1, c1') ∧ tr'[j]? = some (d2, c2') ∧
        noteOf c1' = some p' ∧ noteOf c2' = some q' ∧ (p = q → p' = q') ∧
        (Unclamped n c1 → Unclamped n c2 → p' = q' → p = q) := by
  obtain ⟨smf', h1, h2⟩ := C29_notes_shifted mc spare file smf hd n hf
  refine ⟨smf', h1, ?_⟩
  intro t i j tr d1 d2 c1 c2 p q ht hi hj hp hq
  have key : ∀ (c : Content) (p : Nat × Nat), noteOf c = some p → noteOf (moved n c) = some (p.1, movedNote n p.2) ∧
      (Unclamped n c → 0 ≤ (p.2 : Int) + n ∧ (p.2 : Int) + n ≤ 127) := by
    intro c p h
    cases c <;> simp [noteOf] at h
    · subst h; exact ⟨rfl, fun h => h⟩
    · subst h; exact ⟨rfl, fun h => h⟩
  obtain ⟨k1, k2⟩ := key c1 p hp
  obtain ⟨k3, k4⟩ := key c2 q hq
  refine ⟨tr.map (fun e => (e.1, moved n e.2)), moved n c1, moved n c2, _, _, ?_, ?_, ?_, k1, k3, ?_, ?_⟩
  · rw [h2, List.getElem?_map, ht]; rfl
  · rw [List.getElem?_map, hi]; rfl
  · rw [List.getElem?_map, hj]; rfl
  · intro h; rw [h]
  · intro u1 u2 h
    have := k2 u1
    have := k4 u2
    injection h with e1 e2
    unfold movedNote at e2
    exact Prod.ext e1 (by omega)

example : noteOf (moved 3 (.noteOn 2 60 64)) = some (2, 63) ∧ noteOf (moved 3 (.noteOff 2 60 0)) = some (2, 63) ∧
    noteOf (moved 3 (.noteOff 2 61 0)) = some (2, 64) ∧ noteOf (moved 70 (.noteOff 2 61 0)) = noteOf (moved 70 (.noteOff 2 60 0)) := by
  decide

/-! ### Transposing by nothing -/

/-- The events that transposing by 0 (or an octave, for key signatures) leaves alone: notes in the MIDI range, and key
signatures with at most five flats and at most six sharps. -/
def Settled : Content → Prop
  | .noteOff _ k _ => k ≤ 127
  | .noteOn _ k _ => k ≤ 127
  | .keySignature a _ => -5 ≤ a ∧ a ≤ 6
  | _ => True

theorem moved_zero (c : Content) (h : KeyValid c) : moved 0 c = c ↔ Settled c := by
  cases c <;> simp only [moved, Settled, KeyValid, Content.noteOff.injEq, Content.noteOn.injEq, Content.keySignature.injEq, true_and, and_true] at h ⊢
  · unfold movedKey; omega
  · unfold movedNote; omega
  · unfold movedNote; omega

theorem map_fixed {α : Type} (f : α → α) (l : List α) : l.map f = l ↔ ∀ x ∈ l, f x = x := by
  induction l with
  | nil => simp
  | cons x l ih => simp [ih]

/-- C34 exactly: transposing a decoded file by 0 leaves its events unchanged if and only if it has no key signature with six or
seven flats or seven sharps and no note number above 127. -/
theorem C34_transpose_zero_partial (mc : MiddleC) (spare file : Bytes) (smf : SMF) (hd : decode mc spare file = .ok smf) :
    ∃ smf', transposeSMF mc 0 false smf = .ok smf' ∧ (smf'.events = smf.events ↔ ∀ t ∈ smf.events, ∀ e ∈ t, Settled e.2) := by
  obtain ⟨smf', h1, h2⟩ := C29_notes_shifted mc spare file smf hd 0 (by unfold Fits; decide)
  refine ⟨smf', h1, ?_⟩
  have hk := keyValid_events (decoded_keyValid hd)
  rw [h2, map_fixed]
  constructor
  · intro h t ht e he
    have := (map_fixed _ _).1 (h t ht) e he
    exact (moved_zero _ (hk t ht e he)).1 (congrArg Prod.snd this)
  · intro h t ht
    rw [map_fixed]
    intro e he
    rw [(moved_zero _ (hk t ht e he)).2 (h t ht e he)]

/-- A key signature moved by octaves is a key signature moved by 0. -/
theorem C34_octaves (q : Int) (a : Int) (m : Nat) : moved (12 * q) (.keySignature a m) = moved 0 (.keySignature a m) := by
  simp only [moved]
  congr 1
  unfold movedKey
  omega

/-- C34 is false: C♯ major becomes D♭ major. -/
theorem C34_transpose_zero_fails (mc : MiddleC) : ∃ smf smf', decode mc [] (oneTrack [0, 0xff, 0x59, 2, 7, 0]) = .ok smf ∧
    transposeSMF mc 0 false smf = .ok smf' ∧ smf.events = [[(0, .keySignature 7 0)]] ∧ smf'.events = [[(0, .keySignature (-5) 0)]] := by
  obtain ⟨smf, h1, h2⟩ := Outcome.of_test (o := decode mc [] (oneTrack [0, 0xff, 0x59, 2, 7, 0]))
    (p := fun smf => smf.events == [[(0, .keySignature 7 0)]]) (by cases mc <;> decide +kernel)
  have h2 : smf.events = [[(0, .keySignature 7 0)]] := by simpa using h2
  obtain ⟨smf', h3, h4⟩ := C29_notes_shifted mc [] _ smf h1 0 (by unfold Fits; decide)
  refine ⟨smf, smf', h1, h3, h2, ?_⟩
  rw [h4, h2]
  decide

/-! ### The transposed file -/

theorem moved_faithful {n : Int} {b b' : Body} (hf : b.Faithful) (hv : b'.view = moved n b.view) (hs : ¬ IsPitched b.view → b' = b) (hk : b.KeyOk) :
    b'.Faithful ∧ b'.KeyOk ∧ (∀ p, b.InOrder p → b'.InOrder p) ∧ ∀ p, b'.pendingNext p = b.pendingNext p := by
  by_cases hp : IsPitched b.view
  · cases b <;> simp only [Body.view, IsPitched] at hp
    · cases b' <;> simp only [Body.view, moved, reduceCtorEq, Content.keySignature.injEq] at hv
      simp only [Body.Faithful, Body.KeyOk, Body.InOrder, Body.pendingNext] at hf ⊢
      have h1 := hv.1
      unfold movedKey at h1
      refine ⟨by omega, trivial, by simp, by simp⟩
    all_goals
      cases b' <;> simp only [Body.view, moved, reduceCtorEq, Content.noteOff.injEq, Content.noteOn.injEq] at hv
      simp only [Body.Faithful, Body.KeyOk, Body.InOrder, Body.pendingNext] at hf hk ⊢
      have h1 := hv.2.1
      unfold movedNote at h1
      refine ⟨by omega, by omega, by simp, by simp⟩
  · rw [hs hp]
    exact ⟨hf, hk, fun _ h => h, fun _ => rfl⟩

theorem trackMoved_faithful {n : Int} {es es' : List Event} (hm : TrackMoved n es es') (p : Bool)
    (hf : ∀ e ∈ es, e.body.Faithful ∧ e.body.KeyOk ∧ e.delta.toNat < 2 ^ 28) (ho : sysexOrdered p (es.map Event.body)) :
    (∀ e ∈ es', e.body.Faithful ∧ e.body.KeyOk ∧ e.delta.toNat < 2 ^ 28) ∧ sysexOrdered p (es'.map Event.body) := by
  induction es generalizing es' p with
  | nil =>
    obtain ⟨h, _⟩ := hm
    simp at h
    subst h
    exact ⟨by simp, trivial⟩
  | cons e es ih =>
    obtain ⟨m1, m2, m3, m4⟩ := hm
    cases es' with
    | nil => simp at m1
    | cons e' es' =>
      simp only [List.map_cons, List.cons.injEq] at m1 m2 m3
      obtain ⟨f1, f2, f3⟩ := hf e (by simp)
      obtain ⟨o1, o2⟩ := ho
      obtain ⟨s1, _⟩ := m4 0 e e' rfl rfl
      obtain ⟨g1, g2, g3, g4⟩ := moved_faithful f1 m3.1 (fun h => by rw [s1 h]) f2
      obtain ⟨i1, i2⟩ := ih ⟨m1.2, m2.2, m3.2, fun i x x' hx hx' => m4 (i + 1) x x' (by simpa using hx) (by simpa using hx')⟩
        (e.body.pendingNext p) (fun e he => hf e (by simp [he])) o2
      refine ⟨?_, g3 p o1, by rw [g4]; exact i2⟩
      intro x hx
      rcases List.mem_cons.1 hx with rfl | hx
      · exact ⟨g1, g2, by rw [m2.1]; exact f3⟩
      · exact i1 x hx

/-- C69 for files shorter than 2^28 bytes whose events are rewritable (C28): the file written by the transpose command decodes to
the same header and the events moved by `n`.  Missing: the events damaged by writing them, with or without transposition
(C28). -/
theorem C69_transposed_file_partial (mc : MiddleC) (spare file : Bytes) (smf : SMF) (hd : decode mc spare file = .ok smf)
    (hl : file.length < 2 ^ 28) (he : ∀ t ∈ smf.tracks, ∀ e ∈ t.events, Rewritable e.body.view ∧ e.delta.toNat < 2 ^ 28) (n : Int)
    (hn' : Fits n) :
    ∃ bs, transposeExecute mc n false smf = .ok bs ∧ (bs.length < 2 ^ 32 → ∀ mc spare, ∃ smf' m m', decode mc spare bs = .ok smf' ∧
      smf.mthd = some m ∧ smf'.mthd = some m' ∧ m'.SameAs m ∧
      smf'.events = smf.events.map (fun t => t.map (fun e => (e.1, moved n e.2)))) := by
  obtain ⟨m, h, hm, hs, hv, hn, _⟩ := decode_ok hd
  have hf := decoded_tracks_faithful mc spare file smf hd hl he
  obtain ⟨smf1, h1, h2, h3, h4, h5⟩ := transpose_events mc smf (decoded_keyValid hd) n hn'
  obtain ⟨bs, hbs, hback⟩ := C24_roundtrip_partial smf1 m (by rw [h2, hm]) h hs hv (by rw [h4, hn]) (by
    intro t' ht'
    obtain ⟨t, ht, e1, e2⟩ := h5 t' ht'
    obtain ⟨f1, f2, f3⟩ := hf t ht
    obtain ⟨g1, g2⟩ := trackMoved_faithful e2 false f2 f3
    exact ⟨e1, g1, g2⟩)
  refine ⟨bs, by rw [transposeExecute, h1, Outcome.bind_ok, hbs], fun hbl mc spare => ?_⟩
  obtain ⟨smf', m', g1, g2, g3, g4⟩ := hback hbl mc spare
  exact ⟨smf', m, m', g1, hm, g2, g3, by rw [← h3]; exact g4⟩

/-- C69 is false for the other events: a file with a centred pitch bend transposed by 0. -/
theorem C69_transposed_file_fails : ∃ smf bs, decode .c3 [] (oneTrack [0, 0xe0, 0x40, 0x00]) = .ok smf ∧
    transposeExecute .c3 0 false smf = .ok bs ∧ ¬ ∃ smf', decode .c3 [] bs = .ok smf' ∧ smf'.events = smf.events.map (fun t => t.map (fun e => (e.1, moved 0 e.2))) := by
  obtain ⟨smf, h1, h2⟩ := Outcome.of_test (o := decode .c3 [] (oneTrack [0, 0xe0, 0x40, 0x00]))
    (p := fun smf => (transposeExecute .c3 0 false smf).test (fun bs => (decode .c3 [] bs).test (fun smf' => smf'.events !=
      smf.events.map (fun t => t.map (fun e => (e.1, moved 0 e.2)))))) (by decide +kernel)
  obtain ⟨bs, h3, h4⟩ := Outcome.of_test h2
  obtain ⟨smf', h5, h6⟩ := Outcome.of_test h4
  refine ⟨smf, bs, h1, h3, ?_⟩
  rintro ⟨smf'', h7, h8⟩
  rw [h5] at h7
  injection h7 with h7
  subst h7
  simp [h8] at h6

/-! ### Transposing a file value twice -/

theorem transposeKey_nil (a : Int8) (k : UInt8) (h1 : -7 ≤ a.toInt) (h2 : a.toInt ≤ 7) (hk : k.toNat ≤ 1) (n : Int) (hf : Fits n) :
    transposeKey none a k n = .panic := by
  obtain ⟨a', ctx', h4, _⟩ := transposeKey_ok newContext a k h1 h2 hk n hf
  unfold transposeKey at h4 ⊢
  have key : ∀ s : Lib.Scale, ∀ r, (do
      let t ← s.transpose n
      Outcome.ok (Body.keySignature t.accidentals k t.name, if t.accidentals < 0 then newContext.useFlats else newContext.useSharps)) = Outcome.ok r →
      (do
        let _ ← s.transpose n
        (Outcome.panic : Outcome (Body × Context))) = .panic := by
    intro s r h
    cases ht : s.transpose n with
    | ok t => rfl
    | err _ => rw [ht] at h; cases h
    | panic => rfl
    | diverge => rw [ht] at h; cases h
  simp only [Outcome.bind_ok, Outcome.bind_panic] at h4 ⊢
  split
  · rename_i h0
    rw [if_pos h0] at h4
    split
    · rename_i hs
      rw [hs] at h4
      exact key _ _ h4
    · rfl
  · rename_i h0
    rw [if_neg h0] at h4
    split
    · rename_i h0
      rw [if_pos h0] at h4
      split
      · rename_i hs
        rw [hs] at h4
        exact key _ _ h4
      · rfl
    · rfl

theorem transposeEvents_nil (mc : MiddleC) (n : Int) (hf : Fits n) (es : List Event) :
    ((∃ e ∈ es, IsPitched e.body.view) → (∀ e ∈ es, KeyValid e.body.view) → transposeEvents mc n none es = .panic) ∧
    ((¬ ∃ e ∈ es, IsPitched e.body.view) → transposeEvents mc n none es = .ok es) := by
  induction es with
  | nil => exact ⟨by simp, fun _ => rfl⟩
  | cons e es ih =>
    by_cases hp : IsPitched e.body.view
    · refine ⟨fun _ hk => ?_, fun h => absurd ⟨e, by simp, hp⟩ h⟩
      have : transposeEvent mc none e n = .panic := by
        obtain ⟨tick, delta, bytes, body⟩ := e
        have hk := hk ⟨tick, delta, bytes, body⟩ (by simp)
        cases body <;> simp only [Body.view, IsPitched] at hp
        · obtain ⟨h1, h2, h3⟩ := hk
          have := transposeKey_nil _ _ h1 h2 h3 n hf
          simp only [transposeEvent, this, Outcome.bind_panic]
        · rfl
        · rfl
      rw [transposeEvents, this]
      rfl
    · have h0 : transposeEvent mc none e n = .ok (e, none) := by
        obtain ⟨tick, delta, bytes, body⟩ := e
        cases body <;> first | rfl | exact absurd trivial hp
      rw [transposeEvents, h0]
      simp only [Outcome.bind_ok]
      constructor
      · intro h hk
        rw [ih.1 (by
          obtain ⟨x, hx, hxp⟩ := h
          rcases List.mem_cons.1 hx with rfl | hx
          · exact absurd hxp hp
          · exact ⟨x, hx, hxp⟩) (fun e he => hk e (by simp [he]))]
        rfl
      · intro h
        rw [ih.2 (fun ⟨x, hx, hxp⟩ => h ⟨x, by simp [hx], hxp⟩)]
        rfl

theorem transposeTracks_again (mc : MiddleC) (n : Int) (hf : Fits n) (ts : List MTrk) :
    ((∃ t ∈ ts, ∃ e ∈ t.events, IsPitched e.body.view) → (∀ t ∈ ts, ∀ e ∈ t.events, KeyValid e.body.view) →
      transposeTracks mc n true ts = .panic) ∧
    ((¬ ∃ t ∈ ts, ∃ e ∈ t.events, IsPitched e.body.view) →
      ∃ ts', transposeTracks mc n true ts = .ok ts' ∧ ts'.map MTrk.events = ts.map MTrk.events) := by
  induction ts with
  | nil => exact ⟨by simp, fun _ => ⟨[], rfl, rfl⟩⟩
  | cons t ts ih =>
    obtain ⟨a1, a2⟩ := transposeEvents_nil mc n hf t.events
    rw [transposeTracks]
    simp only [if_true, transposeTrack]
    by_cases hp : ∃ e ∈ t.events, IsPitched e.body.view
    · refine ⟨fun _ hk => ?_, fun h => absurd ⟨t, by simp, hp⟩ h⟩
      rw [a1 hp (hk t (by simp))]
      rfl
    · rw [a2 hp]
      simp only [Outcome.bind_ok]
      constructor
      · intro h hk
        rw [ih.1 (by
          obtain ⟨x, hx, hxp⟩ := h
          rcases List.mem_cons.1 hx with rfl | hx
          · exact absurd hxp hp
          · exact ⟨x, hx, hxp⟩) (fun e he => hk e (by simp [he]))]
        rfl
      · intro h
        obtain ⟨ts', h1, h2⟩ := ih.2 (fun ⟨x, hx, hxp⟩ => h ⟨x, by simp [hx], hxp⟩)
        exact ⟨_, by rw [h1]; rfl, by simp [h2]⟩

/-- C70 is false: after one transposition, a second one of the same file value panics as soon as the file has a note or key
signature. -/
theorem C70_transpose_twice_fails (mc : MiddleC) (spare file : Bytes) (smf : SMF) (hd : decode mc spare file = .ok smf) (a b : Int)
    (ha : Fits a) (hb : Fits b) (hp : ∃ t ∈ smf.tracks, ∃ e ∈ t.events, IsPitched e.body.view) :
    ∃ smf1, transposeSMF mc a false smf = .ok smf1 ∧ transposeSMF mc b true smf1 = .panic := by
  have hk := decoded_keyValid hd
  obtain ⟨smf1, h1, _, h2, h3, h4⟩ := transpose_events mc smf hk a ha
  have hmem : ∃ t ∈ smf1.events, ∃ e ∈ t, IsPitched e.2 := by
    obtain ⟨t, ht, e, he, hpe⟩ := hp
    rw [h2]
    refine ⟨_, List.mem_map.2 ⟨_, List.mem_map.2 ⟨t, ht, rfl⟩, rfl⟩, (e.delta, moved a e.body.view), ?_, ?_⟩
    · exact List.mem_map.2 ⟨_, List.mem_map.2 ⟨e, he, rfl⟩, rfl⟩
    · revert hpe
      cases e.body.view <;> simp [moved, IsPitched]
  have hk1 : ∀ t ∈ smf1.events, ∀ e ∈ t, KeyValid e.2 := by
    rw [h2]
    intro t ht e he
    obtain ⟨t', ht', rfl⟩ := List.mem_map.1 ht
    obtain ⟨e', he', rfl⟩ := List.mem_map.1 he
    exact keyValid_moved a _ (keyValid_events hk t' ht' e' he')
  refine ⟨smf1, h1, ?_⟩
  have := (transposeTracks_again mc b hb smf1.tracks).1 (by
    obtain ⟨t, ht, e, he, hpe⟩ := hmem
    obtain ⟨t', ht', rfl⟩ := List.mem_map.1 ht
    obtain ⟨e', he', rfl⟩ := List.mem_map.1 he
    exact ⟨t', ht', e', he', hpe⟩) (events_keyValid rfl hk1)
  rw [transposeSMF, this]
  rfl

/-- C70 for files without notes and key signatures. -/
theorem C70_transpose_twice_partial (mc : MiddleC) (smf : SMF) (b : Int) (hb : Fits b)
    (hp : ¬ ∃ t ∈ smf.tracks, ∃ e ∈ t.events, IsPitched e.body.view) :
    ∃ smf2, transposeSMF mc b true smf = .ok smf2 ∧ smf2.mthd = smf.mthd ∧ smf2.tracks.map MTrk.events = smf.tracks.map MTrk.events := by
  obtain ⟨ts', h1, h2⟩ := (transposeTracks_again mc b hb smf.tracks).2 hp
  exact ⟨⟨smf.mthd, ts'⟩, by rw [transposeSMF, h1]; rfl, rfl, h2⟩

/-- Non-vacuity of C70: a file with one note. -/
example : ∃ smf smf1, decode .c3 [] (oneTrack [0, 0x90, 60, 64]) = .ok smf ∧ transposeSMF .c3 2 false smf = .ok smf1 ∧
    transposeSMF .c3 2 true smf1 = .panic := by
  obtain ⟨smf, h1, h2⟩ := Outcome.of_test (o := decode .c3 [] (oneTrack [0, 0x90, 60, 64]))
    (p := fun smf => smf.events == [[(0, .noteOn 0 60 64)]]) (by decide +kernel)
  have h2 : smf.events = [[(0, .noteOn 0 60 64)]] := by simpa using h2
  obtain ⟨smf1, h3, h4⟩ := C70_transpose_twice_fails .c3 [] _ smf h1 2 2 (by unfold Fits; decide) (by unfold Fits; decide) (by
    have ht : [(0, Content.noteOn 0 60 64)] ∈ smf.events := by rw [h2]; simp
    obtain ⟨t, ht, he⟩ := List.mem_map.1 ht
    have : (0, Content.noteOn 0 60 64) ∈ t.events.map (fun e => (e.delta, e.body.view)) := by rw [he]; simp
    obtain ⟨e, hee, hev⟩ := List.mem_map.1 this
    exact ⟨t, ht, e, hee, by injection hev with _ hev; rw [hev]; trivial⟩)
  exact ⟨smf, smf1, h1, h3, h4⟩

end Midiasm
