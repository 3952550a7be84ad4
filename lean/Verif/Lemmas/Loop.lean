import Verif.Model.Parse
import Verif.Lemmas.Basic

/-!
The two loops on time signature denominators, against unbounded iteration.
-/

namespace Midiasm

/-- `uint8` doubled `k` times. -/
def dbl : Nat → UInt8 → UInt8
  | 0, x => x
  | k + 1, x => dbl k (x * 2)

theorem dbl_add (j k : Nat) (x : UInt8) : dbl (j + k) x = dbl k (dbl j x) := by
  induction j generalizing x with
  | zero => simp [dbl]
  | succ j ih => rw [Nat.succ_add]; simp [dbl, ih]

theorem dbl_zero (k : Nat) : dbl k 0 = 0 := by
  induction k with
  | zero => rfl
  | succ k ih => simpa [dbl] using ih

theorem dbl8 (x : UInt8) : dbl 8 x = 0 := all8 (P := fun x => dbl 8 x = 0) (by decide +kernel) x

theorem denomLoop_ok (den : UInt8) (fuel : Nat) (dd : UInt8) (d r : Nat) :
    denomLoop den fuel dd d = .ok r ↔
      ∃ k, k ≤ fuel ∧ r = d + k ∧ ¬ dbl k dd < den ∧ ∀ j, j < k → dbl j dd < den := by
  induction fuel generalizing dd d with
  | zero =>
    rw [denomLoop]
    split
    · rename_i h
      simp only [reduceCtorEq, false_iff]
      rintro ⟨k, hk, _, hn, _⟩
      obtain rfl : k = 0 := by omega
      exact hn h
    · rename_i h
      simp only [Outcome.ok.injEq]
      constructor
      · rintro rfl
        exact ⟨0, by omega, by omega, h, by intros; omega⟩
      · rintro ⟨k, hk, rfl, _, _⟩
        omega
  | succ fuel ih =>
    rw [denomLoop]
    split
    · rename_i h
      rw [ih]
      constructor
      · rintro ⟨k, hk, rfl, hn, hj⟩
        refine ⟨k + 1, by omega, by omega, hn, ?_⟩
        intro j hj'
        cases j with
        | zero => exact h
        | succ j => exact hj j (by omega)
      · rintro ⟨k, hk, rfl, hn, hj⟩
        cases k with
        | zero => exact absurd h hn
        | succ k =>
          exact ⟨k, by omega, by omega, hn, fun j hj' => hj (j + 1) (by omega)⟩
    · rename_i h
      simp only [Outcome.ok.injEq]
      constructor
      · rintro rfl
        exact ⟨0, by omega, by omega, h, by intros; omega⟩
      · rintro ⟨k, hk, rfl, hn, hj⟩
        cases k with
        | zero => rfl
        | succ k => exact absurd (hj 0 (by omega)) h

theorem denomLoop_diverge (den : UInt8) (fuel : Nat) (dd : UInt8) (d : Nat) :
    denomLoop den fuel dd d = .diverge ↔ ∀ k, k ≤ fuel → dbl k dd < den := by
  induction fuel generalizing dd d with
  | zero =>
    rw [denomLoop]
    split
    · rename_i h
      simp only [true_iff]
      intro k hk
      obtain rfl : k = 0 := by omega
      exact h
    · rename_i h
      simp only [reduceCtorEq, false_iff]
      exact fun hk => h (hk 0 (by omega))
  | succ fuel ih =>
    rw [denomLoop]
    split
    · rename_i h
      rw [ih]
      constructor
      · intro hk k hk'
        cases k with
        | zero => exact h
        | succ k => exact hk k (by omega)
      · intro hk k hk'
        exact hk (k + 1) (by omega)
    · rename_i h
      simp only [reduceCtorEq, false_iff]
      exact fun hk => h (hk 0 (by omega))

/-- With fuel 8 the bounded loop returns exactly when the unbounded one stops: `denomLoop den 8 1 0 = .ok k` iff the
loop condition holds before each of the first `k` iterations and fails after them. -/
theorem denomLoop_halts_iff (den : UInt8) (k : Nat) :
    denomLoop den 8 1 0 = .ok k ↔ (¬ dbl k 1 < den ∧ ∀ j, j < k → dbl j 1 < den) := by
  rw [denomLoop_ok]
  constructor
  · rintro ⟨k', _, rfl, h1, h2⟩
    rw [Nat.zero_add]
    exact ⟨h1, h2⟩
  · rintro ⟨h1, h2⟩
    refine ⟨k, ?_, by omega, h1, h2⟩
    rcases Nat.lt_or_ge 8 k with hk | hk
    · exfalso
      have h8 := h2 8 hk
      rw [dbl8] at h8
      apply h1
      have : k = 8 + (k - 8) := by omega
      rw [this, dbl_add, dbl8, dbl_zero]
      exact h8
    · exact hk

/-- ... and reports divergence exactly when the loop condition never fails. -/
theorem denomLoop_diverges_iff (den : UInt8) :
    denomLoop den 8 1 0 = .diverge ↔ ∀ k, dbl k 1 < den := by
  rw [denomLoop_diverge]
  constructor
  · intro h k
    rcases Nat.lt_or_ge 8 k with hk | hk
    · have h8 := h 8 (by omega)
      rw [dbl8] at h8
      have : k = 8 + (k - 8) := by omega
      rw [this, dbl_add, dbl8, dbl_zero]
      exact h8
    · exact h k hk
  · exact fun h k _ => h k

/-- The loop never returns an error and never panics. -/
theorem denomLoop_cases (den : UInt8) (fuel : Nat) (dd : UInt8) (d : Nat) :
    denomLoop den fuel dd d = .diverge ∨ ∃ k, denomLoop den fuel dd d = .ok k := by
  induction fuel generalizing dd d with
  | zero => rw [denomLoop]; split <;> simp
  | succ fuel ih =>
    rw [denomLoop]; split
    · exact ih _ _
    · simp

/-- Value of the loop: the least exponent whose power of two reaches the denominator, for denominators up to 128. -/
theorem denomLoop_value (den : UInt8) :
    (den.toNat ≤ 128 → ∃ k, denomLoop den 8 1 0 = .ok k ∧ k ≤ 7 ∧ den.toNat ≤ 2 ^ k ∧ ∀ j, j < k → 2 ^ j < den.toNat) ∧
    (128 < den.toNat → denomLoop den 8 1 0 = .diverge) := by
  have h1 : ∀ b : UInt8, b.toNat ≤ 128 → ∃ k : Fin 8, denomLoop b 8 1 0 = .ok k.1 ∧ b.toNat ≤ 2 ^ k.1 ∧
      ∀ j : Fin 8, j.1 < k.1 → 2 ^ j.1 < b.toNat :=
    all8 (P := fun b => b.toNat ≤ 128 → ∃ k : Fin 8, denomLoop b 8 1 0 = .ok k.1 ∧ b.toNat ≤ 2 ^ k.1 ∧
      ∀ j : Fin 8, j.1 < k.1 → 2 ^ j.1 < b.toNat) (by decide +kernel)
  have h2 : ∀ b : UInt8, 128 < b.toNat → denomLoop b 8 1 0 = .diverge :=
    all8 (P := fun b => 128 < b.toNat → denomLoop b 8 1 0 = .diverge) (by decide +kernel)
  refine ⟨fun h => ?_, h2 den⟩
  obtain ⟨k, hk1, hk2, hk3⟩ := h1 den h
  exact ⟨k.1, hk1, by omega, hk2, fun j hj => hk3 ⟨j, by omega⟩ hj⟩

theorem repeat_dbl (n : Nat) (x : UInt8) : Nat.repeat (· * 2) n x = dbl n x := by
  have h : ∀ n (x : UInt8), dbl n x * 2 = dbl n (x * 2) := by
    intro n
    induction n with
    | zero => intro x; rfl
    | succ n ih => intro x; simp only [dbl]; rw [ih]
  induction n generalizing x with
  | zero => rfl
  | succ n ih =>
    rw [Nat.repeat, ih, h, dbl]

theorem denomFromExp_toNat (e : UInt8) : (denomFromExp e).toNat = 2 ^ e.toNat % 256 := by
  rw [denomFromExp, repeat_dbl]
  have key : ∀ n (x : UInt8), (dbl n x).toNat = x.toNat * 2 ^ n % 256 := by
    intro n
    induction n with
    | zero => intro x; simp [dbl]
    | succ n ih =>
      intro x
      rw [dbl, ih, UInt8.toNat_mul]
      have : (2 : UInt8).toNat = 2 := rfl
      rw [this, Nat.mod_mul_mod, Nat.mul_assoc, ← Nat.pow_succ']
  rw [key]; simp

/-- The denominator computed while decoding never makes the loop run forever. -/
theorem denomLoop_denomFromExp (e : UInt8) :
    denomLoop (denomFromExp e) 8 1 0 = .ok (if e.toNat < 8 then e.toNat else 0) := by
  have h1 : ∀ e : Fin 8, denomLoop (UInt8.ofNat (2 ^ e.1)) 8 1 0 = .ok e.1 := by decide +kernel
  have h2 : denomLoop 0 8 1 0 = .ok 0 := by decide +kernel
  by_cases h : e.toNat < 8
  · have : denomFromExp e = UInt8.ofNat (2 ^ e.toNat) := by
      apply u8_ext; rw [denomFromExp_toNat]; simp
    rw [this, if_pos h]
    exact h1 ⟨e.toNat, h⟩
  · have : denomFromExp e = 0 := by
      apply u8_ext; rw [denomFromExp_toNat]
      have : e.toNat = 8 + (e.toNat - 8) := by omega
      rw [this, Nat.pow_add]
      simp
    rw [this, if_neg h, h2]

end Midiasm
