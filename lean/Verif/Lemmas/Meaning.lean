import Verif.Spec.View
import Verif.Lemmas.Frame
import Verif.Lemmas.Loop
import Verif.Lemmas.Tables

/-!
The event bodies made by the parser are the meanings of `Spec/Wire.lean`.
-/

set_option linter.unusedSimpArgs false

namespace Midiasm
open Spec

/-- What the framing guarantees about an event. -/
def WfRaw : Raw → Prop
  | .chan s d => IsChannelStatus s ∧ d.length = dataLen 1 s
  | .metaEvent _ _ => True
  | .sysex s _ => s = 0xf0 ∨ s = 0xf7

theorem wfRaw_of_framed {rs raw bs rs'} (h : Framed 1 rs raw bs rs') : WfRaw raw := by
  cases h with
  | full h1 h2 => exact ⟨h1, h2⟩
  | running h1 h2 _ => exact ⟨h1, h2⟩
  | metaEvent _ => trivial
  | sysex h _ => exact h

theorem nibble_facts (s : UInt8) : s &&& 0xf0 = UInt8.ofNat (s.toNat / 16 * 16) ∧ (s &&& 0x0f).toNat = s.toNat % 16 ∧
    ¬ (s &&& 0x0f) > 15 :=
  all8 (P := fun s => s &&& 0xf0 = UInt8.ofNat (s.toNat / 16 * 16) ∧ (s &&& 0x0f).toNat = s.toNat % 16 ∧
    ¬ (s &&& 0x0f) > 15) (by decide +kernel) s

theorem u8_gt_127 (b : UInt8) : b > 127 ↔ ¬ b.toNat < 128 := by
  rw [GT.gt, UInt8.lt_iff_toNat_lt, Nat.not_lt]; exact Iff.rfl

theorem bendFromData_toNat (a b : UInt8) : (bendFromData a b).toNat = a.toNat * 128 + b.toNat % 128 := by
  have ha := a.toNat_lt
  have h1 : (bendFromData a b).toNat = (a.toNat <<< 7 % 65536) ||| (b.toNat &&& 127) := by
    simp [bendFromData]
  have h2 : b.toNat &&& 127 = b.toNat % 128 := Nat.and_two_pow_sub_one_eq_mod _ 7
  rw [h1, h2, Nat.shiftLeft_eq, Nat.mod_eq_of_lt (by omega)]
  have := Nat.two_pow_add_eq_or_of_lt (b := b.toNat % 128) (i := 7) (by omega) a.toNat
  rw [Nat.mul_comm] at this
  omega

/-- Channel messages: the body has the specified meaning, and its fields not covered by `view` are as shown. -/
theorem chan_body (mc : MiddleC) (s : UInt8) (d : Bytes) (hs : IsChannelStatus s) (hd : d.length = dataLen 1 s) :
    (∀ c, chanMeaning s d = some c → ∃ b, midiUnmarshal mc s d = .ok b ∧ b.view = c) ∧
    (chanMeaning s d = none → errPanics (midiUnmarshal mc s d) = .panic) := by
  obtain ⟨h1, h2, h3⟩ := nibble_facts s
  have hk : s.toNat / 16 = 8 ∨ s.toNat / 16 = 9 ∨ s.toNat / 16 = 10 ∨ s.toNat / 16 = 11 ∨ s.toNat / 16 = 12 ∨
      s.toNat / 16 = 13 ∨ s.toNat / 16 = 14 := by
    obtain ⟨ha, hb⟩ := hs
    omega
  rcases hk with hk | hk | hk | hk | hk | hk | hk
  all_goals
    rw [hk] at h1
    simp only [dataLen, hk] at hd
    simp only [chanMeaning, hk, midiUnmarshal, h1]
  · obtain ⟨n, v, rfl⟩ : ∃ n v, d = [n, v] := by
      match d, hd with
      | [n, v], _ => exact ⟨n, v, rfl⟩
    simp only [unmarshalNoteOff, u8_gt_127]
    by_cases hv : v.toNat < 128
    · simp [hv, makeNoteOff, h3, Body.view, h2, rawNote, u8_gt_127]
    · simp [hv, errPanics]
  · obtain ⟨n, v, rfl⟩ : ∃ n v, d = [n, v] := by
      match d, hd with
      | [n, v], _ => exact ⟨n, v, rfl⟩
    simp only [unmarshalNoteOn, u8_gt_127]
    by_cases hv : v.toNat < 128
    · simp [hv, makeNoteOn, h3, Body.view, h2, rawNote, u8_gt_127]
    · simp [hv, errPanics]
  · obtain ⟨n, rfl⟩ : ∃ n, d = [n] := by
      match d, hd with
      | [n], _ => exact ⟨n, rfl⟩
    simp only [unmarshalPolyphonicPressure]
    by_cases hv : n.toNat < 128
    · simp [hv, makePolyphonicPressure, h3, Body.view, h2, u8_gt_127]
    · simp [hv, makePolyphonicPressure, h3, u8_gt_127, errPanics]
  · obtain ⟨n, v, rfl⟩ : ∃ n v, d = [n, v] := by
      match d, hd with
      | [n, v], _ => exact ⟨n, v, rfl⟩
    simp [unmarshalController, makeController, h3, Body.view, h2, Lib.lookupController_id]
  · obtain ⟨n, rfl⟩ : ∃ n, d = [n] := by
      match d, hd with
      | [n], _ => exact ⟨n, rfl⟩
    simp [unmarshalProgramChange, makeProgramChange, h3, Body.view, h2]
  · obtain ⟨n, rfl⟩ : ∃ n, d = [n] := by
      match d, hd with
      | [n], _ => exact ⟨n, rfl⟩
    simp only [unmarshalChannelPressure, u8_gt_127]
    by_cases hv : n.toNat < 128
    · simp [hv, makeChannelPressure, h3, Body.view, h2, u8_gt_127]
    · simp [hv, errPanics]
  · obtain ⟨n, v, rfl⟩ : ∃ n v, d = [n, v] := by
      match d, hd with
      | [n, v], _ => exact ⟨n, v, rfl⟩
    simp [unmarshalPitchBend, makePitchBend, h3, Body.view, h2, bendFromData_toNat]

theorem beUint16_toNat (a b : UInt8) : ((a.toUInt16 <<< 8) ||| b.toUInt16).toNat = a.toNat * 256 + b.toNat := by
  have ha := a.toNat_lt
  have hb := b.toNat_lt
  have h1 : ((a.toUInt16 <<< 8) ||| b.toUInt16).toNat = (a.toNat <<< 8 % 65536) ||| b.toNat := by simp
  rw [h1, Nat.shiftLeft_eq, Nat.mod_eq_of_lt (by omega)]
  have := Nat.two_pow_add_eq_or_of_lt (b := b.toNat) (i := 8) (by omega) a.toNat
  rw [Nat.mul_comm] at this
  omega

theorem tempoFold_toNat (a b c : UInt8) : (tempoFold [a, b, c]).toNat = a.toNat * 65536 + b.toNat * 256 + c.toNat := by
  have ha := a.toNat_lt
  have hb := b.toNat_lt
  have hc := c.toNat_lt
  simp [tempoFold, Nat.shiftLeft_eq]
  omega

theorem u8_gt_toNat (b : UInt8) (n : Nat) (hn : n < 256) : b > UInt8.ofNat n ↔ ¬ b.toNat ≤ n := by
  rw [GT.gt, UInt8.lt_iff_toNat_lt, Nat.not_le]
  simp [Nat.mod_eq_of_lt hn]

theorem smpte_hour (h : UInt8) : (h &&& 0x1f).toNat = h.toNat % 32 :=
  all8 (P := fun h => (h &&& 0x1f).toNat = h.toNat % 32) (by decide +kernel) h

/-- The frame rate switch. -/
theorem smpte_rate (h : UInt8) :
    let rr := (h >>> 5) &&& 0x03
    ¬ (rr ≠ 0 ∧ rr ≠ 1 ∧ rr ≠ 2 ∧ rr ≠ 3) ∧
    (if rr = 0 then (24 : UInt8) else if rr = 1 then 25 else if rr = 2 then 29 else if rr = 3 then 30 else 0) =
      UInt8.ofNat (smpteRate (h.toNat / 32 % 4)) :=
  all8 (P := fun h => ¬ ((h >>> 5) &&& 0x03 ≠ 0 ∧ (h >>> 5) &&& 0x03 ≠ 1 ∧ (h >>> 5) &&& 0x03 ≠ 2 ∧ (h >>> 5) &&& 0x03 ≠ 3) ∧
    (if (h >>> 5) &&& 0x03 = 0 then (24 : UInt8) else if (h >>> 5) &&& 0x03 = 1 then 25
      else if (h >>> 5) &&& 0x03 = 2 then 29 else if (h >>> 5) &&& 0x03 = 3 then 30 else 0) =
      UInt8.ofNat (smpteRate (h.toNat / 32 % 4))) (by decide +kernel) h

theorem smpteRate_cases (n : Nat) : smpteRate n = 24 ∨ smpteRate n = 25 ∨ smpteRate n = 29 ∨ smpteRate n = 30 := by
  unfold smpteRate; split <;> simp

theorem makeSMPTEOffset_ok {h m s r f ff : UInt8} (h1 : h.toNat ≤ 24) (h2 : m.toNat ≤ 59) (h3 : s.toNat ≤ 59)
    (h4 : r.toNat = 24 ∨ r.toNat = 25 ∨ r.toNat = 29 ∨ r.toNat = 30) (h5 : f.toNat < r.toNat) (h6 : ff.toNat ≤ 100) :
    makeSMPTEOffset h m s r f ff = .ok (.smpteOffset h m s r f ff) := by
  unfold makeSMPTEOffset
  have e1 : ¬ h > 24 := by have := (u8_gt_toNat h 24 (by omega)); simp at this ⊢; exact UInt8.le_iff_toNat_le.2 h1
  have e2 : ¬ m > 59 := by simp; exact UInt8.le_iff_toNat_le.2 h2
  have e3 : ¬ s > 59 := by simp; exact UInt8.le_iff_toNat_le.2 h3
  have e4 : ¬ (r ≠ 24 ∧ r ≠ 25 ∧ r ≠ 29 ∧ r ≠ 30) := by
    rintro ⟨a, b, c, d⟩
    rcases h4 with h4 | h4 | h4 | h4
    · exact a (u8_ext h4)
    · exact b (u8_ext h4)
    · exact c (u8_ext h4)
    · exact d (u8_ext h4)
  have e5 : ¬ f ≥ r := by rw [ge_iff_le, UInt8.le_iff_toNat_le]; omega
  have e6 : ¬ ff > 100 := by simp; exact UInt8.le_iff_toNat_le.2 h6
  simp only [e1, e2, e3, e4, e5, e6, if_false]

theorem smpte_body (h m s f ff : UInt8) :
    smpteFromData h m s f ff =
      if h.toNat % 32 ≤ 24 ∧ m.toNat ≤ 59 ∧ s.toNat ≤ 59 ∧ f.toNat < smpteRate (h.toNat / 32 % 4) ∧ ff.toNat ≤ 100 then
        .ok (.smpteOffset (h &&& 0x1f) m s (UInt8.ofNat (smpteRate (h.toNat / 32 % 4))) f ff)
      else .err .other := by
  obtain ⟨hr1, hr2⟩ := smpte_rate h
  have hr : (UInt8.ofNat (smpteRate (h.toNat / 32 % 4))).toNat = smpteRate (h.toNat / 32 % 4) := by
    rcases smpteRate_cases (h.toNat / 32 % 4) with h | h | h | h <;> rw [h] <;> rfl
  have hc := smpteRate_cases (h.toNat / 32 % 4)
  unfold smpteFromData
  simp only [hr1, if_false, hr2]
  generalize UInt8.ofNat (smpteRate (h.toNat / 32 % 4)) = r at *
  generalize smpteRate (h.toNat / 32 % 4) = rn at *
  have c1 : (h &&& 0x1f) > 24 ↔ ¬ h.toNat % 32 ≤ 24 := by
    rw [GT.gt, UInt8.lt_iff_toNat_lt, smpte_hour, Nat.not_le]; rfl
  have c2 : m > 59 ↔ ¬ m.toNat ≤ 59 := u8_gt_toNat m 59 (by omega)
  have c3 : s > 59 ↔ ¬ s.toNat ≤ 59 := u8_gt_toNat s 59 (by omega)
  have c5 : f ≥ r ↔ ¬ f.toNat < rn := by rw [ge_iff_le, UInt8.le_iff_toNat_le, hr, Nat.not_lt]
  have c6 : ff > 100 ↔ ¬ ff.toNat ≤ 100 := u8_gt_toNat ff 100 (by omega)
  simp only [c1, c2, c3, c5, c6]
  by_cases d1 : h.toNat % 32 ≤ 24
  · by_cases d2 : m.toNat ≤ 59
    · by_cases d3 : s.toNat ≤ 59
      · by_cases d4 : f.toNat < rn
        · by_cases d5 : ff.toNat ≤ 100
          · have := makeSMPTEOffset_ok (h := h &&& 0x1f) (m := m) (s := s) (r := r) (f := f) (ff := ff)
              (by rw [smpte_hour]; exact d1) d2 d3 (by rw [hr]; exact hc) (by rw [hr]; exact d4) d5
            simp [d1, d2, d3, d4, d5, this]
          · simp [d1, d2, d3, d4, d5]
        · simp [d1, d2, d3, d4]
      · simp [d1, d2, d3]
    · simp [d1, d2]
  · simp [d1]

theorem toInt8_signed (a : UInt8) : a.toInt8.toInt = signed a :=
  all8 (P := fun a => a.toInt8.toInt = signed a) (by decide +kernel) a

/-- Key signatures accepted by the parser. -/
theorem keySignature_body (a m : UInt8) :
    (-7 ≤ signed a ∧ signed a ≤ 7 ∧ m.toNat ≤ 1 →
      ∃ name, keySignatureFromData a m = .ok (.keySignature a.toInt8 m name)) ∧
    (¬ (-7 ≤ signed a ∧ signed a ≤ 7 ∧ m.toNat ≤ 1) → keySignatureFromData a m = .err .other) := by
  have hM : ∀ a : UInt8, -7 ≤ signed a ∧ signed a ≤ 7 → (Lib.majorScale a.toInt8).isSome = true :=
    all8 (P := fun a => -7 ≤ signed a ∧ signed a ≤ 7 → (Lib.majorScale a.toInt8).isSome = true) (by decide +kernel)
  have hm : ∀ a : UInt8, -7 ≤ signed a ∧ signed a ≤ 7 → (Lib.minorScale a.toInt8).isSome = true :=
    all8 (P := fun a => -7 ≤ signed a ∧ signed a ≤ 7 → (Lib.minorScale a.toInt8).isSome = true) (by decide +kernel)
  have hMn : ∀ a : UInt8, ¬ (-7 ≤ signed a ∧ signed a ≤ 7) → (Lib.majorScale a.toInt8).isSome = false :=
    all8 (P := fun a => ¬ (-7 ≤ signed a ∧ signed a ≤ 7) → (Lib.majorScale a.toInt8).isSome = false) (by decide +kernel)
  have hmn : ∀ a : UInt8, ¬ (-7 ≤ signed a ∧ signed a ≤ 7) → (Lib.minorScale a.toInt8).isSome = false :=
    all8 (P := fun a => ¬ (-7 ≤ signed a ∧ signed a ≤ 7) → (Lib.minorScale a.toInt8).isSome = false) (by decide +kernel)
  unfold keySignatureFromData
  by_cases h0 : m = 0
  · subst h0
    constructor
    · rintro ⟨h1, h2, _⟩
      obtain ⟨sc, hsc⟩ := Option.isSome_iff_exists.1 (hM a ⟨h1, h2⟩)
      refine ⟨sc.name, ?_⟩
      simp [hsc, makeKeySignature, Lib.Major]
    · intro hn
      have := hMn a (fun h => hn ⟨h.1, h.2, by decide⟩)
      cases hs : Lib.majorScale a.toInt8 with
      | none => simp [hs]
      | some _ => rw [hs] at this; simp at this
  · by_cases h1 : m = 1
    · subst h1
      constructor
      · rintro ⟨h1, h2, _⟩
        obtain ⟨sc, hsc⟩ := Option.isSome_iff_exists.1 (hm a ⟨h1, h2⟩)
        refine ⟨sc.name, ?_⟩
        simp [hsc, makeKeySignature, Lib.Major, Lib.Minor]
      · intro hn
        have := hmn a (fun h => hn ⟨h.1, h.2, by decide⟩)
        cases hs : Lib.minorScale a.toInt8 with
        | none => simp [hs]
        | some _ => rw [hs] at this; simp at this
    · constructor
      · rintro ⟨_, _, h3⟩
        have : m.toNat ≠ 0 := fun h => h0 (u8_ext h)
        have : m.toNat ≠ 1 := fun h => h1 (u8_ext h)
        omega
      · intro _
        simp only [h0, h1, if_false]

/-- Meta events, after masking the type. -/
theorem meta_body (t : UInt8) (d : Bytes) :
    (∀ c, metaMeaning t.toNat d = some c → ∃ b, metaUnmarshal t d = .ok b ∧ b.view = asShown c) ∧
    (metaMeaning t.toNat d = none → errPanics (metaUnmarshal t d) = .panic) := by
  unfold metaUnmarshal
  by_cases h00 : t = 0x00
  · subst h00
    simp only [metaMeaning, unmarshalSequenceNumber]
    match d with
    | [a, b] => simp [beUint16, Body.view, asShown, beUint16_toNat, -UInt16.toNat_or, -UInt16.toNat_shiftLeft]
    | [] => simp [errPanics]
    | [_] => simp [errPanics]
    | _ :: _ :: _ :: _ => simp [errPanics]
  rw [if_neg h00]
  by_cases h01 : t = 0x01
  · subst h01; simp [metaMeaning, unmarshalText, Body.view, asShown, TextKind.type]
  rw [if_neg h01]
  by_cases h02 : t = 0x02
  · subst h02; simp [metaMeaning, unmarshalText, Body.view, asShown, TextKind.type]
  rw [if_neg h02]
  by_cases h03 : t = 0x03
  · subst h03; simp [metaMeaning, unmarshalText, Body.view, asShown, TextKind.type]
  rw [if_neg h03]
  by_cases h04 : t = 0x04
  · subst h04; simp [metaMeaning, unmarshalText, Body.view, asShown, TextKind.type]
  rw [if_neg h04]
  by_cases h05 : t = 0x05
  · subst h05; simp [metaMeaning, unmarshalText, Body.view, asShown, TextKind.type]
  rw [if_neg h05]
  by_cases h06 : t = 0x06
  · subst h06; simp [metaMeaning, unmarshalText, Body.view, asShown, TextKind.type]
  rw [if_neg h06]
  by_cases h07 : t = 0x07
  · subst h07; simp [metaMeaning, unmarshalText, Body.view, asShown, TextKind.type]
  rw [if_neg h07]
  by_cases h08 : t = 0x08
  · subst h08; simp [metaMeaning, unmarshalText, Body.view, asShown, TextKind.type]
  rw [if_neg h08]
  by_cases h09 : t = 0x09
  · subst h09; simp [metaMeaning, unmarshalText, Body.view, asShown, TextKind.type]
  rw [if_neg h09]
  by_cases h20 : t = 0x20
  · subst h20
    simp only [metaMeaning, unmarshalMIDIChannelPrefix]
    match d with
    | [a] =>
      have := u8_gt_toNat a 15 (by omega)
      by_cases ha : a.toNat ≤ 15
      · have h : ¬ a > 15 := fun h => this.1 h ha
        simp [h, ha, makeMIDIChannelPrefix, Body.view, asShown]
      · have h : a > 15 := this.2 ha
        simp [h, ha, errPanics]
    | [] => simp [errPanics]
    | _ :: _ :: _ => simp [errPanics]
  rw [if_neg h20]
  by_cases h21 : t = 0x21
  · subst h21
    simp only [metaMeaning, unmarshalMIDIPort]
    match d with
    | [a] =>
      have := u8_gt_toNat a 127 (by omega)
      by_cases ha : a.toNat ≤ 127
      · have h : ¬ a > 127 := fun h => this.1 h ha
        simp [h, ha, makeMIDIPort, Body.view, asShown]
      · have h : a > 127 := this.2 ha
        simp [h, ha, errPanics]
    | [] => simp [errPanics]
    | _ :: _ :: _ => simp [errPanics]
  rw [if_neg h21]
  by_cases h2f : t = 0x2f
  · subst h2f; simp [metaMeaning, unmarshalEndOfTrack, Body.view, asShown]
  rw [if_neg h2f]
  by_cases h51 : t = 0x51
  · subst h51
    simp only [metaMeaning, unmarshalTempo]
    match d with
    | [a, b, c] =>
      have := tempoFold_toNat a b c
      simp [Body.view, asShown, this]
    | [] => simp [errPanics]
    | [_] => simp [errPanics]
    | [_, _] => simp [errPanics]
    | _ :: _ :: _ :: _ :: _ => simp [errPanics]
  rw [if_neg h51]
  by_cases h54 : t = 0x54
  · subst h54
    simp only [metaMeaning, unmarshalSMPTEOffset]
    match d with
    | [h, m, s, f, ff] =>
      have hr : (UInt8.ofNat (smpteRate (h.toNat / 32 % 4))).toNat = smpteRate (h.toNat / 32 % 4) := by
        rcases smpteRate_cases (h.toNat / 32 % 4) with h | h | h | h <;> rw [h] <;> rfl
      by_cases hc : h.toNat % 32 ≤ 24 ∧ m.toNat ≤ 59 ∧ s.toNat ≤ 59 ∧ f.toNat < smpteRate (h.toNat / 32 % 4) ∧ ff.toNat ≤ 100
      · have hb := smpte_body h m s f ff
        rw [if_pos hc] at hb
        simp only [hb]
        simp [hc, Body.view, asShown, smpte_hour, hr, -UInt8.toNat_and, -UInt8.toNat_ofNat']
      · have hb := smpte_body h m s f ff
        rw [if_neg hc] at hb
        simp only [hb, errPanics]
        simp [hc]
    | [] => simp [errPanics]
    | [_] => simp [errPanics]
    | [_, _] => simp [errPanics]
    | [_, _, _] => simp [errPanics]
    | [_, _, _, _] => simp [errPanics]
    | _ :: _ :: _ :: _ :: _ :: _ :: _ => simp [errPanics]
  rw [if_neg h54]
  by_cases h59 : t = 0x59
  · subst h59
    simp only [metaMeaning, unmarshalKeySignature]
    match d with
    | [a, m] =>
      obtain ⟨hk1, hk2⟩ := keySignature_body a m
      by_cases hc : -7 ≤ signed a ∧ signed a ≤ 7 ∧ m.toNat ≤ 1
      · obtain ⟨name, hn⟩ := hk1 hc
        simp [hc, hn, Body.view, asShown, toInt8_signed]
      · have := hk2 hc
        simp only [this, errPanics]
        simp [hc]
    | [] => simp [errPanics]
    | [_] => simp [errPanics]
    | _ :: _ :: _ :: _ => simp [errPanics]
  rw [if_neg h59]
  by_cases h58 : t = 0x58
  · subst h58
    simp only [metaMeaning, unmarshalTimeSignature]
    match d with
    | [n, e, c, t] =>
      simp [makeTimeSignature, denomLoop_denomFromExp, Body.view, asShown, denomFromExp_toNat]
    | [] => simp [errPanics]
    | [_] => simp [errPanics]
    | [_, _] => simp [errPanics]
    | [_, _, _] => simp [errPanics]
    | _ :: _ :: _ :: _ :: _ :: _ => simp [errPanics]
  rw [if_neg h58]
  by_cases h7f : t = 0x7f
  · subst h7f
    simp only [metaMeaning, unmarshalSequencerSpecific]
    match d with
    | [] => simp [sequencerSplit, errPanics]
    | b :: d =>
      by_cases hb : b = 0
      · subst hb
        match d with
        | [] => simp [sequencerSplit, errPanics]
        | [_] => simp [sequencerSplit, errPanics]
        | b :: c :: d =>
          have hs : sequencerSplit (0 :: b :: c :: d) = .ok ([0, b, c], d) := by
            simp [sequencerSplit]
          simp [hs, Body.view, asShown, Lib.lookupManufacturer_id3]
      · have hne : (match b :: d with
            | 0 :: b :: c :: d => some (Content.sequencerSpecific [0, b, c] d)
            | b :: d => if b = 0 then none else some (.sequencerSpecific [b] d)
            | [] => none) = some (.sequencerSpecific [b] d) := by
          split
          · rename_i h; simp at h; exact absurd h.1 hb
          · rename_i h; simp at h; obtain ⟨rfl, rfl⟩ := h; rw [if_neg hb]
          · rename_i h; simp at h
        simp only [UInt8.reduceToNat, hne]
        simp [sequencerSplit, hb, Body.view, asShown, Lib.lookupManufacturer_id1]
  rw [if_neg h7f]
  have hnone : metaMeaning t.toNat d = none := by
    have e : ∀ k : UInt8, t ≠ k → t.toNat ≠ k.toNat := fun k h h' => h (u8_ext h')
    have := e _ h00; have := e _ h01; have := e _ h02; have := e _ h03; have := e _ h04; have := e _ h05
    have := e _ h06; have := e _ h07; have := e _ h08; have := e _ h09; have := e _ h20; have := e _ h21
    have := e _ h2f; have := e _ h51; have := e _ h54; have := e _ h59; have := e _ h58; have := e _ h7f
    simp only [UInt8.reduceToNat] at *
    unfold metaMeaning
    rw [if_neg (by assumption), if_neg (by omega), if_neg (by assumption), if_neg (by assumption), if_neg (by assumption),
      if_neg (by assumption), if_neg (by assumption), if_neg (by assumption), if_neg (by assumption), if_neg (by assumption)]
  constructor
  · intro c hc; rw [hnone] at hc; simp at hc
  · intro _; rfl

theorem sysEx_body (d : Bytes) (id : UInt8) (b : UInt8) :
    sysExFromData (id :: b :: d) =
      .ok (.sysExMessage (Lib.lookupManufacturer [id]) (unterminated (b :: d)) ((b :: d).getLast? == some 0xf7)) := by
  unfold sysExFromData
  simp only
  cases h : (b :: d).getLast? with
  | none => simp at h
  | some t =>
    simp only [unterminated, h]
    by_cases ht : t = 0xf7
    · simp [ht]
    · have : (some t == some (247 : UInt8)) = false := by simp [ht]
      simp [ht, this]

/-- The body of any framed event. -/
theorem body_meaning (mc : MiddleC) (pending : Bool) (raw : Raw) (wf : WfRaw raw) :
    (∀ c, meaning pending raw = some c → ∃ b, bodyOutcome mc pending raw = .ok b ∧ b.view = asShown c) ∧
    (meaning pending raw = none →
      (RefusedSysEx pending raw ∧ bodyOutcome mc pending raw = .err .other) ∨
      (¬ RefusedSysEx pending raw ∧ bodyOutcome mc pending raw = .panic)) := by
  cases raw with
  | chan s d =>
    obtain ⟨h1, h2⟩ := chan_body mc s d wf.1 wf.2
    refine ⟨fun c hc => ?_, fun hn => Or.inr ⟨by simp [RefusedSysEx], h2 hn⟩⟩
    obtain ⟨b, hb, hv⟩ := h1 c hc
    refine ⟨b, by simp [bodyOutcome, hb, errPanics], ?_⟩
    rw [hv, asShown_eq]
    intro hm
    simp only [meaning] at hc
    rw [← hv] at hm
    revert hc
    unfold chanMeaning
    intro hc
    rw [hv] at hm
    split at hc <;> (try split at hc) <;> simp at hc <;> subst hc <;> simp [manufacturerID] at hm
  | metaEvent t d =>
    have ht : (t &&& 0x7f).toNat = t.toNat % 128 := and7f_toNat t
    obtain ⟨h1, h2⟩ := meta_body (t &&& 0x7f) d
    rw [ht] at h1 h2
    refine ⟨fun c hc => ?_, fun hn => Or.inr ⟨by simp [RefusedSysEx], h2 hn⟩⟩
    obtain ⟨b, hb, hv⟩ := h1 c hc
    exact ⟨b, by simp [bodyOutcome, hb, errPanics], hv⟩
  | sysex s d =>
    rcases wf with rfl | rfl
    · cases pending with
      | true =>
        refine ⟨fun c hc => ?_, fun _ => Or.inl ⟨by simp [RefusedSysEx], by simp [bodyOutcome]⟩⟩
        match d with
        | [] => simp [meaning, sysexMeaning] at hc
        | [_] => simp [meaning, sysexMeaning] at hc
        | _ :: _ :: _ => simp [meaning, sysexMeaning] at hc
      | false =>
        match d with
        | [] => simp [meaning, sysexMeaning, RefusedSysEx, bodyOutcome, unmarshalSysExMessage]
        | [id] => simp [meaning, sysexMeaning, RefusedSysEx, bodyOutcome, unmarshalSysExMessage, sysExFromData]
        | id :: b :: d =>
          have := sysEx_body d id b
          simp [meaning, sysexMeaning, bodyOutcome, unmarshalSysExMessage, this, Body.view, asShown,
            Lib.lookupManufacturer_id1]
    · cases pending <;>
        simp [meaning, sysexMeaning, bodyOutcome, unmarshalSysExContinuation, unmarshalSysExEscape, Body.view, asShown,
          unterminated]

end Midiasm
