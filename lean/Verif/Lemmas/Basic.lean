import Verif.Model.Vlq
import Verif.Spec.Vlq

/-!
Machine integer facts and the arithmetic of variable length quantities.
-/

namespace Midiasm

theorem all8 {P : UInt8 → Prop} (h : ∀ n : Fin 256, P (UInt8.ofNat n)) (b : UInt8) : P b := by
  have := h ⟨b.toNat, b.toNat_lt⟩
  simpa using this

theorem u8_lt (b : UInt8) : b.toNat < 256 := b.toNat_lt

theorem u8_eq_ofNat (b : UInt8) : b = UInt8.ofNat b.toNat := by simp

theorem and80_eq_zero_iff (b : UInt8) : b &&& 0x80 = 0 ↔ b.toNat < 128 :=
  all8 (P := fun b => b &&& 0x80 = 0 ↔ b.toNat < 128) (by decide +kernel) b

theorem and7f_toNat (b : UInt8) : (b &&& 0x7f).toNat = b.toNat % 128 := by
  simp [Nat.and_two_pow_sub_one_eq_mod _ 7]

theorem u32_and7f_toNat (v : UInt32) : (v &&& 0x7f).toUInt8.toNat = v.toNat % 128 := by
  simp [Nat.and_two_pow_sub_one_eq_mod _ 7]

theorem u32_shr7_toNat (v : UInt32) : (v >>> 7).toNat = v.toNat / 128 := by
  simp [Nat.shiftRight_eq_div_pow]

theorem or80_toNat (x : UInt8) (h : x.toNat < 128) : (0x80 ||| x).toNat = 128 + x.toNat := by
  have := all8 (P := fun b => b.toNat < 128 → (0x80 ||| b).toNat = 128 + b.toNat) (by decide +kernel) x
  exact this h

theorem u32_eq_zero_iff (v : UInt32) : v = 0 ↔ v.toNat = 0 := by
  constructor
  · intro h; simp [h]
  · intro h; exact UInt32.toNat_inj.mp (by simpa using h)

theorem u8_ext {a b : UInt8} (h : a.toNat = b.toNat) : a = b := UInt8.toNat_inj.mp h
theorem u16_ext {a b : UInt16} (h : a.toNat = b.toNat) : a = b := UInt16.toNat_inj.mp h
theorem u32_ext {a b : UInt32} (h : a.toNat = b.toNat) : a = b := UInt32.toNat_inj.mp h

/-- A digit byte with bit 7 set. -/
def hi (n : Nat) : UInt8 := UInt8.ofNat (128 + n % 128)
/-- A digit byte with bit 7 clear. -/
def lo (n : Nat) : UInt8 := UInt8.ofNat (n % 128)

@[simp] theorem hi_toNat (n : Nat) : (hi n).toNat = 128 + n % 128 := by
  simp [hi]; omega
@[simp] theorem lo_toNat (n : Nat) : (lo n).toNat = n % 128 := by
  simp [lo]; omega

theorem and7f_eq_lo (v : UInt32) : (v &&& 0x7f).toUInt8 = lo v.toNat := by
  apply u8_ext
  rw [u32_and7f_toNat, lo_toNat]

theorem or80_lo (n : Nat) : ((0x80 : UInt8) ||| lo n) = hi n := by
  apply u8_ext
  rw [or80_toNat] <;> simp; omega

theorem or00_lo (n : Nat) : ((0x00 : UInt8) ||| lo n) = lo n := by simp

theorem hi_or80 (n : Nat) : (hi n ||| 0x80) = hi n := by
  have := all8 (P := fun b => 128 ≤ b.toNat → b ||| 0x80 = b) (by decide +kernel) (hi n)
  exact this (by simp)

/-- The encoder's output, by size of the value. -/
theorem vlq2bin_eq (v : UInt32) :
    vlq2bin v =
      if v.toNat < 128 then [lo v.toNat]
      else if v.toNat < 128 ^ 2 then [hi (v.toNat / 128), lo v.toNat]
      else if v.toNat < 128 ^ 3 then [hi (v.toNat / 128 ^ 2), hi (v.toNat / 128), lo v.toNat]
      else if v.toNat < 128 ^ 4 then
        [hi (v.toNat / 128 ^ 3), hi (v.toNat / 128 ^ 2), hi (v.toNat / 128), lo v.toNat]
      else [lo (v.toNat / 128 ^ 4), hi (v.toNat / 128 ^ 3), hi (v.toNat / 128 ^ 2), hi (v.toNat / 128), lo v.toNat] := by
  have e1 := u32_shr7_toNat v
  have e2 := u32_shr7_toNat (v >>> 7)
  have e3 := u32_shr7_toNat (v >>> 7 >>> 7)
  have e4 := u32_shr7_toNat (v >>> 7 >>> 7 >>> 7)
  rw [e3, e2, e1] at e4
  rw [e2, e1] at e3
  rw [e1] at e2
  have h0 : vlq2bin v =
      if v >>> 7 = 0 then [(0x00 : UInt8) ||| (v &&& 0x7f).toUInt8]
      else if v >>> 7 >>> 7 = 0 then [(0x80 : UInt8) ||| (v >>> 7 &&& 0x7f).toUInt8, (0x00 : UInt8) ||| (v &&& 0x7f).toUInt8]
      else if v >>> 7 >>> 7 >>> 7 = 0 then
        [(0x80 : UInt8) ||| (v >>> 7 >>> 7 &&& 0x7f).toUInt8, (0x80 : UInt8) ||| (v >>> 7 &&& 0x7f).toUInt8, (0x00 : UInt8) ||| (v &&& 0x7f).toUInt8]
      else if v >>> 7 >>> 7 >>> 7 >>> 7 = 0 then
        [(0x80 : UInt8) ||| (v >>> 7 >>> 7 >>> 7 &&& 0x7f).toUInt8, (0x80 : UInt8) ||| (v >>> 7 >>> 7 &&& 0x7f).toUInt8,
          (0x80 : UInt8) ||| (v >>> 7 &&& 0x7f).toUInt8, (0x00 : UInt8) ||| (v &&& 0x7f).toUInt8]
      else [(v >>> 7 >>> 7 >>> 7 >>> 7 &&& 0x7f).toUInt8, ((0x80 : UInt8) ||| (v >>> 7 >>> 7 >>> 7 &&& 0x7f).toUInt8) ||| 0x80,
          (0x80 : UInt8) ||| (v >>> 7 >>> 7 &&& 0x7f).toUInt8,
          (0x80 : UInt8) ||| (v >>> 7 &&& 0x7f).toUInt8, (0x00 : UInt8) ||| (v &&& 0x7f).toUInt8] := rfl
  rw [h0]
  simp only [and7f_eq_lo, or80_lo, or00_lo, hi_or80, e1, e2, e3, e4, u32_eq_zero_iff]
  have hv := v.toNat_lt
  generalize v.toNat = n at *
  have a1 : n / 128 / 128 = n / 128 ^ 2 := by omega
  have a2 : n / 128 ^ 2 / 128 = n / 128 ^ 3 := by omega
  have a3 : n / 128 ^ 3 / 128 = n / 128 ^ 4 := by omega
  simp only [a1, a2, a3]
  have c1 : n / 128 = 0 ↔ n < 128 := by omega
  have c2 : n / 128 ^ 2 = 0 ↔ n < 128 ^ 2 := by omega
  have c3 : n / 128 ^ 3 = 0 ↔ n < 128 ^ 3 := by omega
  have c4 : n / 128 ^ 4 = 0 ↔ n < 128 ^ 4 := by omega
  simp only [c1, c2, c3, c4]

theorem deltaMarshal_eq_vlq2bin (v : UInt32) : deltaMarshal v = vlq2bin v := rfl

open Spec in
theorem value128_cons_aux (bs : List UInt8) (n : Nat) :
    bs.foldl (fun n b => n * 128 + b.toNat % 128) n = n * 128 ^ bs.length + value128 bs := by
  induction bs generalizing n with
  | nil => simp [value128]
  | cons b bs ih =>
    simp only [List.foldl_cons, value128, List.length_cons]
    rw [ih, ih (0 * 128 + _)]
    rw [Nat.pow_succ, Nat.add_mul, Nat.zero_mul, Nat.zero_add, Nat.mul_comm (128 ^ _) 128, ← Nat.mul_assoc, Nat.add_assoc]

open Spec in
theorem value128_cons (b : UInt8) (bs : List UInt8) :
    value128 (b :: bs) = b.toNat % 128 * 128 ^ bs.length + value128 bs := by
  conv => lhs; unfold value128
  rw [List.foldl_cons, value128_cons_aux]; simp

theorem acc_step (acc : UInt32) (b : UInt8) :
    ((acc <<< 7) + (b &&& 0x7f).toUInt32).toNat = (acc.toNat * 128 + b.toNat % 128) % 2 ^ 32 := by
  simp [Nat.shiftLeft_eq, Nat.and_two_pow_sub_one_eq_mod _ 7]

open Spec in
/-- Reading a terminated digit string. -/
theorem vlqReadGo_terminated (init : List UInt8) (last : UInt8) (rest : Bytes) (acc : UInt32)
    (hi : ∀ b ∈ init, 128 ≤ b.toNat) (hl : last.toNat < 128) :
    vlqReadGo acc (init ++ [last] ++ rest) =
      .ok (UInt32.ofNat (acc.toNat * 128 ^ (init.length + 1) + value128 (init ++ [last])), rest) := by
  induction init generalizing acc with
  | nil =>
    simp only [List.nil_append, List.cons_append, vlqReadGo, (and80_eq_zero_iff last).2 hl, if_true, value128_cons]
    congr 2
    apply u32_ext
    rw [acc_step]; simp [value128]
  | cons b bs ih =>
    have hb : ¬ (b &&& 0x80 = 0) := by
      rw [and80_eq_zero_iff]; have := hi b (by simp); omega
    simp only [List.cons_append, vlqReadGo, hb, if_false]
    have := ih ((acc <<< 7) + (b &&& 0x7f).toUInt32) (fun x hx => hi x (by simp [hx]))
    simp only [List.append_assoc] at this ⊢
    rw [this, acc_step, value128_cons]
    congr 2
    apply u32_ext
    simp only [UInt32.toNat_ofNat', List.length_append, List.length_cons, List.length_nil]
    rw [Nat.add_mod, Nat.mod_mul_mod, ← Nat.add_mod, Nat.add_mul, Nat.mul_assoc, ← Nat.pow_succ', Nat.add_assoc]

/-- Reading a string without a final digit. -/
theorem vlqReadGo_unterminated (bs : Bytes) (acc : UInt32) (h : ∀ b ∈ bs, 128 ≤ b.toNat) :
    vlqReadGo acc bs = .err .eof := by
  induction bs generalizing acc with
  | nil => rfl
  | cons b bs ih =>
    have hb : ¬ (b &&& 0x80 = 0) := by
      rw [and80_eq_zero_iff]; have := h b (by simp); omega
    simp only [vlqReadGo, hb, if_false]
    exact ih _ (fun x hx => h x (by simp [hx]))

/-- The slice version differs only in the error. -/
theorem vlqSliceGo_eq (bs : Bytes) (acc : UInt32) :
    vlqSliceGo acc bs = match vlqReadGo acc bs with
      | .ok r => .ok r
      | _ => .err .other := by
  induction bs generalizing acc with
  | nil => rfl
  | cons b bs ih =>
    simp only [vlqSliceGo, vlqReadGo]
    split
    · rfl
    · exact ih _

/-- Every byte string is a terminated prefix and a rest, or has no final digit. -/
theorem split_terminated (bs : Bytes) :
    (∃ p rest, bs = p ++ rest ∧ Spec.Terminated p) ∨ (∀ b ∈ bs, 128 ≤ b.toNat) := by
  induction bs with
  | nil => right; simp
  | cons b bs ih =>
    by_cases hb : b.toNat < 128
    · left; exact ⟨[b], bs, rfl, [], b, rfl, by simp, hb⟩
    · rcases ih with ⟨p, rest, rfl, init, last, rfl, hi, hl⟩ | h
      · left
        refine ⟨b :: (init ++ [last]), rest, rfl, b :: init, last, rfl, ?_, hl⟩
        intro x hx
        rcases List.mem_cons.1 hx with rfl | hx
        · omega
        · exact hi x hx
      · right
        intro x hx
        rcases List.mem_cons.1 hx with rfl | hx
        · omega
        · exact h x hx

theorem readVLQ_terminated {p : Bytes} (h : Spec.Terminated p) (rest : Bytes) :
    readVLQ (p ++ rest) = .ok (UInt32.ofNat (Spec.value128 p), rest) := by
  obtain ⟨init, last, rfl, hi, hl⟩ := h
  have := vlqReadGo_terminated init last rest 0 hi hl
  simpa [readVLQ] using this

theorem decodeDelta_eq (bs : Bytes) : decodeDelta bs = readVLQ bs := rfl

theorem vlqSlice_terminated {p : Bytes} (h : Spec.Terminated p) (rest : Bytes) :
    vlqSlice (p ++ rest) = .ok (UInt32.ofNat (Spec.value128 p), rest) := by
  have := readVLQ_terminated h rest
  unfold vlqSlice; rw [vlqSliceGo_eq]
  unfold readVLQ at this; rw [this]

theorem readVLQ_unterminated {bs : Bytes} (h : ∀ b ∈ bs, 128 ≤ b.toNat) : readVLQ bs = .err .eof :=
  vlqReadGo_unterminated bs 0 h

theorem vlqSlice_unterminated {bs : Bytes} (h : ∀ b ∈ bs, 128 ≤ b.toNat) : vlqSlice bs = .err .other := by
  unfold vlqSlice; rw [vlqSliceGo_eq, vlqReadGo_unterminated bs 0 h]

/-- The encoder's output is a canonical quantity of the right value. -/
theorem vlq2bin_spec (v : UInt32) (hv : v.toNat < 2 ^ 28) :
    Spec.IsVLQ (vlq2bin v) v.toNat ∧ Spec.Canonical (vlq2bin v) ∧ (vlq2bin v).length ≤ 4 := by
  rw [vlq2bin_eq]
  have key : ∀ n k : Nat, n < 128 ^ (k+1) → 128 ^ k ≤ n → hi (n / 128 ^ k) ≠ 0x80 := by
    intro n k h1 h2 h
    have h3 := congrArg UInt8.toNat h
    have h4 : 0 < n / 128 ^ k := Nat.div_pos h2 (Nat.pow_pos (by omega))
    have h5 : n / 128 ^ k < 128 := by
      rw [Nat.div_lt_iff_lt_mul (Nat.pow_pos (by omega)), ← Nat.pow_succ']; exact h1
    rw [hi_toNat, Nat.mod_eq_of_lt h5] at h3
    simp at h3
    omega
  generalize v.toNat = n at *
  split
  · refine ⟨⟨⟨[], lo n, rfl, by simp, by simp; omega⟩, ?_⟩, ?_, by simp⟩
    · simp [Spec.value128]; omega
    · simp only [Spec.Canonical, List.head?_cons]
      intro h
      have := congrArg UInt8.toNat (Option.some.inj h)
      simp at this
      omega
  split
  · refine ⟨⟨⟨[hi (n / 128)], lo n, rfl, by simp, by simp; omega⟩, ?_⟩, ?_, by simp⟩
    · simp [Spec.value128]; omega
    · simp only [Spec.Canonical, List.head?_cons]
      intro h
      exact key n 1 (by omega) (by omega) (by simpa using Option.some.inj h)
  split
  · refine ⟨⟨⟨[hi (n / 128 ^ 2), hi (n / 128)], lo n, rfl, by simp, by simp; omega⟩, ?_⟩, ?_, by simp⟩
    · simp [Spec.value128]; omega
    · simp only [Spec.Canonical, List.head?_cons]
      intro h
      exact key n 2 (by omega) (by omega) (by simpa using Option.some.inj h)
  · refine ⟨⟨⟨[hi (n / 128 ^ 3), hi (n / 128 ^ 2), hi (n / 128)], lo n, rfl, by simp, by simp; omega⟩, ?_⟩, ?_, by simp⟩
    · simp [Spec.value128]; omega
    · simp only [Spec.Canonical, List.head?_cons]
      intro h
      exact key n 3 (by omega) (by omega) (by simpa using Option.some.inj h)

/-- The outcome is a value that passes a test (for concrete examples). -/
def Outcome.test {α : Type} (o : Outcome α) (p : α → Bool) : Bool :=
  match o with
  | .ok a => p a
  | _ => false

theorem Outcome.of_test {α : Type} {o : Outcome α} {p : α → Bool} (h : o.test p = true) : ∃ a, o = .ok a ∧ p a = true := by
  cases o with
  | ok a => exact ⟨a, rfl, h⟩
  | err e => cases h
  | panic => cases h
  | diverge => cases h

end Midiasm
