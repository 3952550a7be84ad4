import Verif.Lemmas.Decoded
import Verif.Props.Validate
import Verif.Spec.Decoded

/-!
Properties C40 to C43: what decoded events show.
-/

set_option linter.unusedSimpArgs false

namespace Midiasm
open Spec

/-- The octave number of the notes 0 to 11 is minus this. -/
def octaveOffset : MiddleC → Int
  | .c3 => 1
  | .c4 => 2

/-- The name the code gives a note. -/
def nameAfter (mc : MiddleC) (past : List Content) (n : UInt8) : String :=
  formatNoteWith mc (match recentKey past with | some a => if a < 0 then .flats else .sharps | none => .sharps) n

/-- The name shown by the most recent note on. -/
def onName (mc : MiddleC) (ch n : UInt8) : List Content → Option String
  | [] => none
  | .noteOn ch' n' _ :: past => if ch' = ch.toNat ∧ n' = n.toNat then some (nameAfter mc past n) else onName mc ch n past
  | _ :: past => onName mc ch n past

/-- The bank the code shows: six bits each. -/
def maskedBank (ch : Nat) (past : List Content) : Nat :=
  128 * ((recentController ch 0 past).getD 0 % 64) + (recentController ch 32 past).getD 0 % 64

/-- The display fields of an event. -/
def Shown (mc : MiddleC) (past : List Content) : Body → Prop
  | .noteOn _ n _ => n.name = nameAfter mc past n.value ∧ n.alias = nameAfter mc past n.value
  | .noteOff ch n _ => n.name = (onName mc ch n.value past).getD (nameAfter mc past n.value) ∧ n.alias = nameAfter mc past n.value
  | .programChange ch bank _ => bank.toNat = maskedBank ch.toNat past
  | _ => True

/-- The context is determined by the events before. -/
def Tracks (mc : MiddleC) (past : List Content) (ctx : Context) : Prop :=
  ctx.scale = (match recentKey past with | some a => if a < 0 then .flats else .sharps | none => .sharps) ∧
  (∀ ch n, ctx.notes (noteKey ch n) = onName mc ch n past) ∧
  (∀ ch : UInt8, (ctx.programBank ch).toNat = maskedBank ch.toNat past)

theorem noteKey_inj (ch n ch' n' : UInt8) : noteKey ch n = noteKey ch' n' ↔ ch = ch' ∧ n = n' := by
  have key : ∀ ch n : UInt8, (noteKey ch n).toNat = ch.toNat * 256 + n.toNat := fun ch n => beUint16_toNat ch n
  rw [← UInt16.toNat_inj, key, key, ← UInt8.toNat_inj, ← UInt8.toNat_inj]
  have := n.toNat_lt
  have := n'.toNat_lt
  omega

theorem tracks_format {mc : MiddleC} {past : List Content} {ctx : Context} (h : Tracks mc past ctx) (n : UInt8) :
    ctx.formatNote mc n = nameAfter mc past n := by
  unfold Context.formatNote nameAfter
  rw [h.1]

theorem bank_msb (b : UInt16) (v : UInt8) (m l : Nat) (h : b.toNat = 128 * (m % 64) + l % 64) :
    ((b &&& (0x003f : UInt16)) ||| ((v.toUInt16 &&& (0x003f : UInt16)) <<< (7 : UInt16))).toNat = 128 * (v.toNat % 64) + l % 64 := by
  have e1 : (b &&& (0x003f : UInt16)).toNat = b.toNat % 64 := by
    rw [UInt16.toNat_and]
    exact Nat.and_two_pow_sub_one_eq_mod _ 6
  have e2 : (v.toUInt16 &&& (0x003f : UInt16)).toNat = v.toNat % 64 := by
    rw [UInt16.toNat_and, UInt8.toNat_toUInt16]
    exact Nat.and_two_pow_sub_one_eq_mod _ 6
  have e3 : ((v.toUInt16 &&& (0x003f : UInt16)) <<< (7 : UInt16)).toNat = 128 * (v.toNat % 64) := by
    rw [UInt16.toNat_shiftLeft, e2]
    show ((v.toNat % 64) <<< 7) % 65536 = _
    rw [Nat.shiftLeft_eq]
    omega
  rw [UInt16.toNat_or, e1, e3, Nat.or_comm]
  have := Nat.two_pow_add_eq_or_of_lt (i := 7) (b := b.toNat % 64) (by omega) (v.toNat % 64)
  rw [show (128 : Nat) = 2 ^ 7 from rfl, ← this]
  omega

theorem bank_lsb (b : UInt16) (v : UInt8) (m l : Nat) (h : b.toNat = 128 * (m % 64) + l % 64) :
    ((b &&& ((0x003f : UInt16) <<< (7 : UInt16))) ||| (v.toUInt16 &&& (0x003f : UInt16))).toNat = 128 * (m % 64) + v.toNat % 64 := by
  have e2 : (v.toUInt16 &&& (0x003f : UInt16)).toNat = v.toNat % 64 := by
    rw [UInt16.toNat_and, UInt8.toNat_toUInt16]
    exact Nat.and_two_pow_sub_one_eq_mod _ 6
  have e1 : (b &&& ((0x003f : UInt16) <<< (7 : UInt16))).toNat = 128 * (m % 64) := by
    rw [UInt16.toNat_and]
    have e : ((0x003f : UInt16) <<< (7 : UInt16)).toNat = 2 ^ 7 * 63 := by decide
    have hb : b.toNat = 2 ^ 7 * (m % 64) + l % 64 := h
    rw [e, hb, Nat.two_pow_add_eq_or_of_lt (by omega), Nat.and_or_distrib_right]
    have a1 : 2 ^ 7 * (m % 64) &&& 2 ^ 7 * 63 = 2 ^ 7 * (m % 64) := by
      rw [Nat.mul_comm (2 ^ 7), Nat.mul_comm (2 ^ 7), ← Nat.shiftLeft_eq, ← Nat.shiftLeft_eq, ← Nat.shiftLeft_and_distrib,
        show (63 : Nat) = 2 ^ 6 - 1 from rfl, Nat.and_two_pow_sub_one_eq_mod]
      congr 1
      omega
    have a2 : (l % 64) &&& 2 ^ 7 * 63 = 0 := by
      apply Nat.eq_of_testBit_eq
      intro i
      rw [Nat.testBit_and, Nat.zero_testBit, Nat.testBit_two_pow_mul]
      by_cases hi : 7 ≤ i
      · have : (l % 64).testBit i = false := by
          apply Nat.testBit_lt_two_pow
          exact Nat.lt_of_lt_of_le (Nat.lt_of_lt_of_le (Nat.mod_lt _ (by omega)) (by decide : 64 ≤ 2 ^ 7)) (Nat.pow_le_pow_right (by omega) hi)
        simp [this]
      · simp [hi]
    rw [a1, a2]
    simp
  rw [UInt16.toNat_or, e1, e2]
  have := Nat.two_pow_add_eq_or_of_lt (i := 7) (b := v.toNat % 64) (by omega) (m % 64)
  rw [show (128 : Nat) = 2 ^ 7 from rfl, ← this]

theorem bankSelect_bank (ctx : Context) (ch id v ch' : UInt8) : (ctx.bankSelect ch id v).programBank ch' =
    if ch' = ch ∧ id = 0 then ((ctx.programBank ch' &&& (0x003f : UInt16)) ||| ((v.toUInt16 &&& (0x003f : UInt16)) <<< (7 : UInt16)) : UInt16)
    else if ch' = ch ∧ id = 0x20 then ((ctx.programBank ch' &&& ((0x003f : UInt16) <<< (7 : UInt16))) ||| (v.toUInt16 &&& (0x003f : UInt16)) : UInt16)
    else ctx.programBank ch' := by
  unfold Context.bankSelect
  simp only
  by_cases i0 : id = 0
  · subst i0
    rw [if_neg (show ¬ (0 : UInt8) = 0x20 by decide), if_pos (show (0 : UInt8) = 0 from rfl)]
    by_cases hc : ch' = ch
    · subst hc
      simp
    · simp [hc]
  · by_cases i1 : id = 0x20
    · subst i1
      rw [if_neg i0, if_pos (show (0x20 : UInt8) = 0x20 from rfl)]
      by_cases hc : ch' = ch
      · subst hc
        simp
      · simp [hc]
    · rw [if_neg i0, if_neg i1]
      simp [i0, i1]

theorem tracks_start (mc : MiddleC) : Tracks mc [] newContext := ⟨rfl, fun _ _ => rfl, fun _ => rfl⟩

/-- One event: what is shown, and the context after it. -/
theorem applyContext_shown {mc : MiddleC} {past : List Content} {ctx : Context} (h : Tracks mc past ctx) (e : Event) :
    Shown mc past (applyContext mc ctx e).1.body ∧ Tracks mc (e.body.view :: past) (applyContext mc ctx e).2 := by
  obtain ⟨tick, delta, bytes, body⟩ := e
  have hf := tracks_format h
  obtain ⟨h1, h2, h3⟩ := h
  cases body with
  | keySignature a k s =>
    refine ⟨trivial, ?_, ?_, ?_⟩
    · have : (a < 0) = (a.toInt < 0) := by rw [Int8.lt_iff_toInt_lt]; rfl
      simp only [applyContext, this, Body.view, recentKey]
      split <;> rfl
    · intro ch n
      rw [show (applyContext mc ctx ⟨tick, delta, bytes, .keySignature a k s⟩).2.notes = ctx.notes from by simp only [applyContext]; split <;> rfl]
      exact h2 ch n
    · intro ch
      rw [show (applyContext mc ctx ⟨tick, delta, bytes, .keySignature a k s⟩).2.programBank = ctx.programBank from by simp only [applyContext]; split <;> rfl]
      exact h3 ch
  | noteOn ch n v =>
    have hfo : (ctx.putNoteOn mc ch n.value).formatNote mc n.value = nameAfter mc past n.value := by
      rw [← hf]; rfl
    refine ⟨⟨hfo, hfo⟩, h1, ?_, h3⟩
    intro ch' n'
    simp only [applyContext, Context.putNoteOn, noteKey_inj, Body.view, onName, hf, h2]
    by_cases hc : ch' = ch ∧ n' = n.value
    · obtain ⟨rfl, rfl⟩ := hc
      simp
    · rw [if_neg hc, if_neg]
      rintro ⟨a, b⟩
      exact hc ⟨(UInt8.toNat_inj.1 a).symm, (UInt8.toNat_inj.1 b).symm⟩
  | noteOff ch n v =>
    refine ⟨⟨?_, hf _⟩, h1, h2, h3⟩
    show (match ctx.notes (noteKey ch n.value) with | some s => s | none => ctx.formatNote mc n.value) = _
    rw [h2, hf]
    cases onName mc ch n.value past <;> rfl
  | programChange ch b p => exact ⟨h3 ch, h1, h2, h3⟩
  | controller ch c v =>
    refine ⟨trivial, ?_, ?_, ?_⟩
    · show (ctx.bankSelect ch c.id v).scale = _
      rw [show (ctx.bankSelect ch c.id v).scale = ctx.scale from by simp only [Context.bankSelect]; split <;> split <;> rfl]
      exact h1
    · intro ch' n'
      show (ctx.bankSelect ch c.id v).notes _ = _
      rw [show (ctx.bankSelect ch c.id v).notes = ctx.notes from by simp only [Context.bankSelect]; split <;> split <;> rfl]
      exact h2 ch' n'
    · intro ch'
      show ((ctx.bankSelect ch c.id v).programBank ch').toNat = _
      rw [bankSelect_bank]
      simp only [Body.view, maskedBank, recentController]
      have hch : (ch.toNat = ch'.toNat) = (ch' = ch) := by rw [UInt8.toNat_inj]; exact propext ⟨Eq.symm, Eq.symm⟩
      have hid0 : (c.id.toNat = 0) = (c.id = 0) := by rw [← UInt8.toNat_inj]; rfl
      have hid1 : (c.id.toNat = 32) = (c.id = 0x20) := by rw [← UInt8.toNat_inj]; rfl
      simp only [hch, hid0, hid1]
      by_cases hc : ch' = ch
      · subst hc
        by_cases i0 : c.id = 0
        · have i1 : ¬ c.id = 0x20 := by rw [i0]; decide
          rw [if_pos ⟨rfl, i0⟩, if_pos ⟨rfl, i0⟩, if_neg (fun h => i1 h.2)]
          exact bank_msb _ v _ _ (h3 ch')
        · by_cases i1 : c.id = 0x20
          · rw [if_neg (fun h => i0 h.2), if_pos ⟨rfl, i1⟩, if_neg (fun h => i0 h.2), if_pos ⟨rfl, i1⟩]
            exact bank_lsb _ v _ _ (h3 ch')
          · rw [if_neg (fun h => i0 h.2), if_neg (fun h => i1 h.2), if_neg (fun h => i0 h.2), if_neg (fun h => i1 h.2)]
            exact h3 ch'
      · rw [if_neg (fun h => hc h.1), if_neg (fun h => hc h.1), if_neg (fun h => hc h.1), if_neg (fun h => hc h.1)]
        exact h3 ch'
  | _ => exact ⟨trivial, h1, h2, h3⟩

theorem ctxAfter_tracks {mc : MiddleC} {past : List Content} {ctx : Context} (h : Tracks mc past ctx) (raw : Raw) :
    Tracks mc past (ctxAfter ctx raw) := by
  cases raw <;> exact h

theorem loopItems_shown (mc : MiddleC) (items : List Item) (tick : UInt32) (ctx : Context) (past : List Content) (h : Tracks mc past ctx)
    (es : List Event) (ctx' : Context) (hl : loopItems mc tick ctx items = .ok (es, ctx')) :
    (∀ (k : Nat) e, es[k]? = some e → Shown mc (((es.take k).map (·.body.view)).reverse ++ past) e.body) ∧
    Tracks mc ((es.map (·.body.view)).reverse ++ past) ctx' := by
  induction items generalizing tick ctx past es with
  | nil =>
    simp only [loopItems] at hl
    injection hl with hl
    injection hl with e1 e2
    subst e1 e2
    exact ⟨by simp, h⟩
  | cons i is ih =>
    rw [loopItems] at hl
    cases hb : bodyOutcome mc ctx.casio i.raw with
    | ok b =>
      rw [hb] at hl
      simp only [Outcome.bind_ok] at hl
      obtain ⟨a1, a2⟩ := applyContext_shown (ctxAfter_tracks h i.raw) (mkEvent tick i b)
      have hview := (applyContext_event mc (ctxAfter ctx i.raw) (mkEvent tick i b)).2.2.2
      rw [← hview] at a2
      generalize applyContext mc (ctxAfter ctx i.raw) (mkEvent tick i b) = r at hl a1 a2
      obtain ⟨e0, ctx0⟩ := r
      simp only at hl a1 a2
      cases hr : loopItems mc (tick + i.delta) ctx0 is with
      | ok p =>
        rw [hr] at hl
        simp only [Outcome.bind_ok] at hl
        injection hl with hl
        injection hl with e1 e2
        obtain ⟨p1, p2⟩ := p
        simp only at e1 e2
        subst e1 e2
        obtain ⟨j1, j2⟩ := ih (tick + i.delta) ctx0 (e0.body.view :: past) a2 p1 hr
        refine ⟨?_, by simpa using j2⟩
        intro k e hk
        cases k with
        | zero =>
          simp at hk
          subst hk
          simpa using a1
        | succ k =>
          have := j1 k e (by simpa using hk)
          simpa using this
      | err _ => rw [hr] at hl; cases hl
      | panic => rw [hr] at hl; cases hl
      | diverge => rw [hr] at hl; cases hl
    | err _ => rw [hb] at hl; cases hl
    | panic => rw [hb] at hl; cases hl
    | diverge => rw [hb] at hl; cases hl

/-- What the events of a decoded file show. -/
theorem decoded_shown {mc : MiddleC} {spare file : Bytes} {smf : SMF} (hd : decode mc spare file = .ok smf) (i : Nat) (t : MTrk)
    (ht : smf.tracks[i]? = some t) (k : Nat) (e : Event) (he : t.events[k]? = some e) :
    Shown mc ((t.contents.take k).reverse) e.body := by
  obtain ⟨_, _, _, _, _, _, h⟩ := decode_ok hd
  obtain ⟨ch, hwf, htag, _, hu⟩ := h i t ht
  have hb := ((unmarshalMTrk_ok mc spare i ch hwf htag t).1 hu).1
  obtain ⟨items, tail, rs', _, _, hc⟩ := decodeBody_cases mc spare ch.body
  rcases hc with ⟨cs, es, c, _, hl, _, _, _, _, hr⟩ | ⟨_, _, _, _, _, _, hr⟩
  · rcases hr with ⟨_, hr⟩ | ⟨_, hr⟩ | ⟨_, hr⟩
    · rw [hb] at hr
      injection hr with hr
      injection hr with e1 e2
      have := (loopItems_shown mc items 0 newContext [] (tracks_start mc) es c hl).1 k e (by rw [← e1]; exact he)
      rw [List.append_nil, ← e1, List.map_take] at this
      exact this
    · rw [hb] at hr; cases hr
    · rw [hb] at hr; cases hr
  · rcases hr with ⟨_, hr⟩ | ⟨_, hr⟩ <;> (rw [hb] at hr; cases hr)

/-- C40 exactly: the bank of a decoded program change keeps six bits of each Bank Select value. -/
theorem C40_program_bank_exact (mc : MiddleC) (spare file : Bytes) (smf : SMF) (hd : decode mc spare file = .ok smf) (i : Nat) (t : MTrk)
    (ht : smf.tracks[i]? = some t) (k : Nat) (e : Event) (he : t.events[k]? = some e) (ch : UInt8) (bank : UInt16) (p : UInt8)
    (hp : e.body = .programChange ch bank p) :
    bank.toNat = 128 * ((recentController ch.toNat 0 (t.contents.take k).reverse).getD 0 % 64) +
      (recentController ch.toNat 32 (t.contents.take k).reverse).getD 0 % 64 := by
  have := decoded_shown hd i t ht k e he
  rw [hp] at this
  exact this

/-- C40 for Bank Select values below 64. -/
theorem C40_program_bank_partial (mc : MiddleC) (spare file : Bytes) (smf : SMF) (hd : decode mc spare file = .ok smf) (i : Nat) (t : MTrk)
    (ht : smf.tracks[i]? = some t) (k : Nat) (e : Event) (he : t.events[k]? = some e) (ch : UInt8) (bank : UInt16) (p : UInt8)
    (hp : e.body = .programChange ch bank p)
    (h0 : ∀ v, recentController ch.toNat 0 (t.contents.take k).reverse = some v → v < 64)
    (h1 : ∀ v, recentController ch.toNat 32 (t.contents.take k).reverse = some v → v < 64) :
    bank.toNat = selectedBank ch.toNat (t.contents.take k).reverse := by
  rw [C40_program_bank_exact mc spare file smf hd i t ht k e he ch bank p hp]
  unfold selectedBank
  have key : ∀ o : Option Nat, (∀ v, o = some v → v < 64) → o.getD 0 % 64 = o.getD 0 := by
    intro o h
    cases o with
    | none => rfl
    | some v => exact Nat.mod_eq_of_lt (h v rfl)
  rw [key _ h0, key _ h1]

/-- C40 is false from 64 on: after MSB 64 and LSB 3 the bank shown is 3, not 8195. -/
theorem C40_program_bank_fails (mc : MiddleC) :
    ∃ smf t e, decode mc [] (oneTrack [0, 0xb0, 0, 64, 0, 0x20, 3, 0, 0xc0, 7]) = .ok smf ∧ smf.tracks[0]? = some t ∧ t.events[2]? = some e ∧
      e.body = .programChange 0 3 7 ∧ selectedBank 0 (t.contents.take 2).reverse = 8195 := by
  obtain ⟨smf, h1, h2⟩ := Outcome.of_test (o := decode mc [] (oneTrack [0, 0xb0, 0, 64, 0, 0x20, 3, 0, 0xc0, 7]))
    (p := fun smf => match smf.tracks[0]? with
      | some t => (match t.events[2]? with | some e => e.body == .programChange 0 3 7 | none => false) &&
          selectedBank 0 (t.contents.take 2).reverse == 8195
      | none => false) (by cases mc <;> decide +kernel)
  split at h2
  · rename_i t ht
    simp only [Bool.and_eq_true] at h2
    obtain ⟨h2, h3⟩ := h2
    split at h2
    · rename_i e he
      exact ⟨smf, t, e, h1, ht, he, by simpa using h2, by simpa using h3⟩
    · cases h2
  · cases h2

/-- The code's names are names in the sense of the specification. -/
theorem nameAfter_names (mc : MiddleC) (past : List Content) (n : UInt8) : Names (useFlats past) (octaveOffset mc) (nameAfter mc past n) n.toNat := by
  have hsharp : ∀ k : Fin 12, pitchClass (ScaleKind.sharps.names[k.val]?.getD "") = some (k.val : Int) ∧
      '♭' ∉ (ScaleKind.sharps.names[k.val]?.getD "").toList := by decide +kernel
  have hflat : ∀ k : Fin 12, pitchClass (ScaleKind.flats.names[k.val]?.getD "") = some (k.val : Int) ∧
      '♯' ∉ (ScaleKind.flats.names[k.val]?.getD "").toList := by decide +kernel
  have hm : (n % 12).toNat = n.toNat % 12 := by rw [UInt8.toNat_mod]; rfl
  have hdiv : (n / 12).toNat = n.toNat / 12 := by rw [UInt8.toNat_div]; rfl
  have hlt : n.toNat % 12 < 12 := Nat.mod_lt _ (by omega)
  have hfmt : ∀ k, formatNoteWith mc k n = k.name (n % 12) ++ toString (((n.toNat / 12 : Nat) : Int) - octaveOffset mc) := by
    intro k
    unfold formatNoteWith
    rw [hdiv]; cases mc <;> rfl
  by_cases hf : useFlats past
  · obtain ⟨a, ha, hneg⟩ := hf
    obtain ⟨f1, f2⟩ := hflat ⟨n.toNat % 12, hlt⟩
    refine ⟨ScaleKind.flats.name (n % 12), ?_, by rw [ScaleKind.name, hm]; exact f1, fun _ => by rw [ScaleKind.name, hm]; exact f2,
      fun h => absurd ⟨a, ha, hneg⟩ h⟩
    unfold nameAfter
    simp only [ha, if_pos hneg, hfmt]
  · obtain ⟨f1, f2⟩ := hsharp ⟨n.toNat % 12, hlt⟩
    refine ⟨ScaleKind.sharps.name (n % 12), ?_, by rw [ScaleKind.name, hm]; exact f1, fun h => absurd h hf, fun _ => by rw [ScaleKind.name, hm]; exact f2⟩
    unfold nameAfter
    cases ha : recentKey past with
    | none => simp only [hfmt]
    | some a =>
      have : ¬ a < 0 := fun h => hf ⟨a, ha, h⟩
      simp only [if_neg this, hfmt]

/-- C41: the names of a decoded note on, and the alias of a decoded note off, name the note: the pitch class, spelled with flats
after a key signature with flats and with sharps otherwise, and the octave, `n / 12` minus 1 (or 2 with the other convention). -/
theorem C41_note_names (mc : MiddleC) (spare file : Bytes) (smf : SMF) (hd : decode mc spare file = .ok smf) (i : Nat) (t : MTrk)
    (ht : smf.tracks[i]? = some t) (k : Nat) (e : Event) (he : t.events[k]? = some e) (ch v : UInt8) (n : NoteVal) :
    (e.body = .noteOn ch n v → Names (useFlats (t.contents.take k).reverse) (octaveOffset mc) n.name n.value.toNat ∧ n.alias = n.name) ∧
    (e.body = .noteOff ch n v → Names (useFlats (t.contents.take k).reverse) (octaveOffset mc) n.alias n.value.toNat) := by
  have hs := decoded_shown hd i t ht k e he
  constructor
  · intro hb
    rw [hb] at hs
    obtain ⟨h1, h2⟩ := hs
    exact ⟨by rw [h1]; exact nameAfter_names mc _ _, by rw [h1, h2]⟩
  · intro hb
    rw [hb] at hs
    obtain ⟨h1, h2⟩ := hs
    rw [h2]
    exact nameAfter_names mc _ _

/-- C42 is false for both conventions: middle C (note 60) is shown as C4 by default and as C3 with `--C4`. -/
theorem C42_middle_c_fails : formatNoteNil .c3 60 = "C4" ∧ formatNoteNil .c4 60 = "C3" ∧
    (∀ ctx : Context, ctx.formatNote .c3 60 = "C4" ∧ ctx.formatNote .c4 60 = "C3") := by
  refine ⟨by decide +kernel, by decide +kernel, ?_⟩
  intro ctx
  have : ∀ k : ScaleKind, formatNoteWith .c3 k 60 = "C4" ∧ formatNoteWith .c4 k 60 = "C3" := by
    intro k; cases k <;> decide +kernel
  exact this ctx.scale

theorem onName_recent (mc : MiddleC) (ch n : UInt8) (past : List Content) (j : Nat) (v : Nat)
    (hj : past[j]? = some (.noteOn ch.toNat n.toNat v)) (hno : ∀ i, i < j → ∀ w, past[i]? ≠ some (.noteOn ch.toNat n.toNat w)) :
    onName mc ch n past = some (nameAfter mc (past.drop (j + 1)) n) := by
  induction past generalizing j with
  | nil => simp at hj
  | cons c past ih =>
    cases j with
    | zero =>
      simp at hj
      subst hj
      simp [onName]
    | succ j =>
      have h0 : ∀ w, c ≠ .noteOn ch.toNat n.toNat w := by
        intro w h
        exact hno 0 (by omega) w (by simp [h])
      have hrec := ih j (by simpa using hj) (fun i hi w => by
        have := hno (i + 1) (by omega) w
        simpa using this)
      have : onName mc ch n (c :: past) = onName mc ch n past := by
        cases c <;> try rfl
        rename_i ch' n' v'
        rw [onName, if_neg]
        rintro ⟨rfl, rfl⟩
        exact h0 _ rfl
      rw [this, hrec]
      simp

/-- C43: a note off shows the name shown by the most recent note on for the same channel and note, whatever happened to the key
signature; without one, its name in the current key signature. -/
theorem C43_note_off_names (mc : MiddleC) (spare file : Bytes) (smf : SMF) (hd : decode mc spare file = .ok smf) (i : Nat) (t : MTrk)
    (ht : smf.tracks[i]? = some t) (k : Nat) (e : Event) (he : t.events[k]? = some e) (ch v : UInt8) (n : NoteVal)
    (hb : e.body = .noteOff ch n v) :
    (∀ (j : Nat) (e0 : Event) (n0 : NoteVal) (v0 : UInt8), j < k → t.events[j]? = some e0 → e0.body = .noteOn ch n0 v0 → n0.value = n.value →
      (∀ (l : Nat) (e1 : Event) (n1 : NoteVal) (v1 : UInt8), j < l → l < k → t.events[l]? = some e1 → e1.body = .noteOn ch n1 v1 → n1.value ≠ n.value) →
      n.name = n0.name) ∧
    ((∀ (j : Nat) (e0 : Event) (n0 : NoteVal) (v0 : UInt8), j < k → t.events[j]? = some e0 → e0.body = .noteOn ch n0 v0 → n0.value ≠ n.value) →
      n.name = n.alias) := by
  have hs := decoded_shown hd i t ht k e he
  rw [hb] at hs
  obtain ⟨h1, h2⟩ := hs
  have hklen : k < t.contents.length := by
    simp only [MTrk.contents, List.length_map]
    exact (List.getElem?_eq_some_iff.1 he).1
  have hrev : ∀ m : Nat, m < k → ((t.contents.take k).reverse)[m]? = t.contents[k - 1 - m]? := by
    intro m hm
    rw [List.getElem?_reverse (by simp; omega), List.getElem?_take]
    simp only [List.length_take]
    rw [if_pos (by omega)]
    congr 1
    omega
  have hcont : ∀ (j : Nat) (w : Nat), t.contents[j]? = some (.noteOn ch.toNat n.value.toNat w) →
      ∃ e0 n0 v0, t.events[j]? = some e0 ∧ e0.body = .noteOn ch n0 v0 ∧ n0.value = n.value := by
    intro j w h
    simp only [MTrk.contents, List.getElem?_map, Option.map_eq_some_iff] at h
    obtain ⟨e0, he0, hv⟩ := h
    cases hbb : e0.body <;> rw [hbb] at hv <;> simp only [Body.view, reduceCtorEq, Content.noteOn.injEq] at hv
    rename_i ch0 n0 v0
    obtain ⟨a1, a2, _⟩ := hv
    have a1 := UInt8.toNat_inj.1 a1
    subst a1
    exact ⟨e0, n0, v0, he0, hbb, UInt8.toNat_inj.1 a2⟩
  constructor
  · intro j e0 n0 v0 hjk hj hb0 hn0 hno
    have hs0 := decoded_shown hd i t ht j e0 hj
    rw [hb0] at hs0
    have hin : ((t.contents.take k).reverse)[k - 1 - j]? = some (.noteOn ch.toNat n.value.toNat v0.toNat) := by
      rw [hrev _ (by omega), show k - 1 - (k - 1 - j) = j from by omega]
      simp [MTrk.contents, hj, hb0, Body.view, hn0]
    have := onName_recent mc ch n.value _ _ _ hin (by
      intro m hm w hw
      rw [hrev _ (by omega)] at hw
      obtain ⟨e1, n1, v1, he1, hb1, hn1⟩ := hcont _ _ hw
      exact hno (k - 1 - m) e1 n1 v1 (by omega) (by omega) he1 hb1 hn1)
    rw [h1, this, hs0.1, hn0]
    simp only [Option.getD_some]
    congr 1
    rw [show k - 1 - j + 1 = k - j from by omega, List.drop_reverse]
    congr 1
    rw [List.take_take, List.length_take]
    congr 1
    omega
  · intro hno
    have : onName mc ch n.value (t.contents.take k).reverse = none := by
      have key : ∀ past : List Content, (∀ (m w : Nat), past[m]? ≠ some (.noteOn ch.toNat n.value.toNat w)) → onName mc ch n.value past = none := by
        intro past h
        induction past with
        | nil => rfl
        | cons c past ih =>
          have hi := ih (fun m w => by simpa using h (m + 1) w)
          have h0 : ∀ w, c ≠ .noteOn ch.toNat n.value.toNat w := by
            intro w h'
            exact h 0 w (by simp [h'])
          cases c <;> try exact hi
          rename_i ch' n' v'
          rw [onName, if_neg]
          · exact hi
          · rintro ⟨rfl, rfl⟩
            exact h0 _ rfl
      apply key
      intro m w hw
      have hmk : m < k := by
        have := (List.getElem?_eq_some_iff.1 hw).1
        simp at this
        omega
      rw [hrev m hmk] at hw
      obtain ⟨e0, n0, v0, he0, hb0, hn0⟩ := hcont _ _ hw
      exact hno _ e0 n0 v0 (by omega) he0 hb0 hn0
    rw [h1, h2, this]
    rfl

/-- Non-vacuity of C40, C41, C43: a C♯ played in C major, released after a change to A♭ major as "C♯4", and played again as
"D♭4"; a program change after Bank Select 1/2. -/
example : ∃ smf, decode .c3 [] (oneTrack [0, 0x90, 61, 64, 0, 0xff, 0x59, 2, 0xfc, 0, 0, 0x80, 61, 64, 0, 0x90, 61, 64,
      0, 0xb0, 0, 1, 0, 0x20, 2, 0, 0xc0, 7]) = .ok smf ∧
    (smf.tracks.map (fun t => t.events.map Event.body)) = [[.noteOn 0 ⟨61, "C♯4", "C♯4"⟩ 64, .keySignature (-4) 0 "A♭ major",
      .noteOff 0 ⟨61, "C♯4", "D♭4"⟩ 64, .noteOn 0 ⟨61, "D♭4", "D♭4"⟩ 64, .controller 0 (Lib.lookupController 0) 1,
      .controller 0 (Lib.lookupController 0x20) 2, .programChange 0 130 7]] := by
  obtain ⟨smf, h1, h2⟩ := Outcome.of_test (o := decode .c3 [] (oneTrack [0, 0x90, 61, 64, 0, 0xff, 0x59, 2, 0xfc, 0, 0, 0x80, 61, 64, 0, 0x90, 61, 64,
      0, 0xb0, 0, 1, 0, 0x20, 2, 0, 0xc0, 7]))
    (p := fun smf => (smf.tracks.map (fun t => t.events.map Event.body)) == [[.noteOn 0 ⟨61, "C♯4", "C♯4"⟩ 64, .keySignature (-4) 0 "A♭ major",
      .noteOff 0 ⟨61, "C♯4", "D♭4"⟩ 64, .noteOn 0 ⟨61, "D♭4", "D♭4"⟩ 64, .controller 0 (Lib.lookupController 0) 1,
      .controller 0 (Lib.lookupController 0x20) 2, .programChange 0 130 7]]) (by decide +kernel)
  exact ⟨smf, h1, by simpa using h2⟩

theorem noteName_eq (mc : MiddleC) (past : List Content) (n : UInt8) : nameAfter mc past n = noteName (octaveOffset mc) (flatsAfter past) n.toNat := by
  have hm : (n % 12).toNat = n.toNat % 12 := by rw [UInt8.toNat_mod]; rfl
  have hdiv : (n / 12).toNat = n.toNat / 12 := by rw [UInt8.toNat_div]; rfl
  have hfmt : ∀ k, formatNoteWith mc k n = k.name (n % 12) ++ toString (((n.toNat / 12 : Nat) : Int) - octaveOffset mc) := by
    intro k
    unfold formatNoteWith
    rw [hdiv]; cases mc <;> rfl
  unfold nameAfter noteName flatsAfter
  rw [hfmt]
  unfold ScaleKind.name
  rw [hm]
  cases hr : recentKey past with
  | none => simp only [List.getD_eq_getElem?_getD]; rfl
  | some a =>
    simp only
    by_cases ha : a < 0
    · rw [if_pos ha]; simp only [ha, decide_true, if_true, List.getD_eq_getElem?_getD]; rfl
    · rw [if_neg ha]; simp only [ha, decide_false, Bool.false_eq_true, if_false, List.getD_eq_getElem?_getD]; rfl

end Midiasm
