import Verif.Lemmas.Floats

/-!
Times in seconds as `float64`.
-/

set_option linter.unusedSimpArgs false

namespace Midiasm

/-- The milliseconds after the second, rounded twice: first to a `float64`, then to `q` binary places. -/
def roundedTwice (q k : Nat) : Nat := roundEven ((toFloat k 1000).m * 2 ^ q) (2 ^ (toFloat k 1000).q)

theorem fraction_below (k : Nat) (h : k < 1000) : (toFloat k 1000).m < 2 ^ (toFloat k 1000).q := by
  have : ∀ k : Fin 1000, (toFloat k 1000).m < 2 ^ (toFloat k 1000).q := by decide +kernel
  exact this ⟨k, h⟩

theorem agrees_table : ∀ k : Fin 1000, ∀ q : Fin 30, roundedTwice (18 + q) k = roundEven (k * 2 ^ (18 + q.val)) 1000 := by decide +kernel

/-- From 32 seconds on rounding twice gives the same as rounding once: there are finitely many cases, since a time is below 2^34 seconds. -/
theorem agrees {q k : Nat} (h1 : 18 ≤ q) (h2 : q ≤ 47) (hk : k < 1000) : roundedTwice q k = roundEven (k * 2 ^ q) 1000 := by
  have := agrees_table ⟨k, hk⟩ ⟨q - 18, by omega⟩
  simp only [show 18 + (q - 18) = q by omega] at this
  exact this

theorem nearly_table : ∀ k : Fin 1000, ∀ q : Fin 5, roundedTwice (48 + q) k ≤ roundEven (k * 2 ^ (48 + q.val)) 1000 + 1 ∧
    roundEven (k * 2 ^ (48 + q.val)) 1000 ≤ roundedTwice (48 + q) k + 1 := by decide +kernel

/-- Below 32 seconds it may differ in the last place. -/
theorem nearly {q k : Nat} (h1 : 48 ≤ q) (h2 : q ≤ 52) (hk : k < 1000) :
    roundedTwice q k ≤ roundEven (k * 2 ^ q) 1000 + 1 ∧ roundEven (k * 2 ^ q) 1000 ≤ roundedTwice q k + 1 := by
  have := nearly_table ⟨k, hk⟩ ⟨q - 48, by omega⟩
  simp only [show 48 + (q - 48) = q by omega] at this
  exact this

theorem add_zero_left (v : Float64) (h : v = ⟨0, 0⟩ ∨ (2 ^ 52 ≤ v.m ∧ v.m < 2 ^ 53)) : Float64.add ⟨0, 0⟩ v = v := by
  unfold Float64.add
  rcases h with rfl | ⟨h1, h2⟩
  · rfl
  · simp only [Nat.zero_mul, Nat.zero_add, Nat.pow_zero, Nat.mul_one]
    exact toFloat_self h1 h2

theorem durationSeconds_ms (s k : Nat) (hk : k < 1000) : durationSeconds ((1000 * s + k) * 1000000) = (toFloat s 1).add (toFloat k 1000) := by
  unfold durationSeconds
  rw [show (1000 * s + k) * 1000000 / 1000000000 = s by omega, show (1000 * s + k) * 1000000 % 1000000000 = k * 1000000 by omega,
    show (1000000000 : Nat) = 1000 * 1000000 from rfl, toFloat_scale (by omega) (by omega) (by omega)]

/-- Below one second. -/
theorem durationSeconds_small (k : Nat) (hk : k < 1000) : durationSeconds (k * 1000000) = toFloat k 1000 := by
  have := durationSeconds_ms 0 k hk
  rw [Nat.mul_zero, Nat.zero_add] at this
  rw [this, toFloat_zero]
  apply add_zero_left
  by_cases h : k = 0
  · subst h; exact .inl (toFloat_zero _)
  · obtain ⟨h1, h2, -⟩ := toFloat_spec (Nat.pos_of_ne_zero h) (by omega : 0 < 1000) (by omega)
    exact .inr ⟨h1, h2⟩

/-- A number of seconds is exact. -/
theorem toFloat_whole {s q : Nat} (h1 : 2 ^ 52 ≤ s * 2 ^ q) (h2 : s * 2 ^ q < 2 ^ 53) : toFloat s 1 = ⟨s * 2 ^ q, q⟩ := by
  rw [toFloat_eq (q := q) (by omega) (by omega) (by omega)]
  have := roundEven_exact (s * 2 ^ q) 1 (by omega)
  rw [Nat.mul_one] at this
  rw [this, carried, if_neg (by omega)]

/-- From one second on: the sum of the two floating point numbers. -/
theorem durationSeconds_big {s k q : Nat} (hq : 0 < q) (h1 : 2 ^ 52 ≤ s * 2 ^ q) (h2 : s * 2 ^ q + 2 ^ q ≤ 2 ^ 53) (hk : k < 1000) :
    durationSeconds ((1000 * s + k) * 1000000) = carried (s * 2 ^ q + roundedTwice q k) q := by
  have hp : 0 < 2 ^ q := Nat.pow_pos (by omega)
  have hf := fraction_below k hk
  rw [durationSeconds_ms s k hk, toFloat_whole h1 (by omega)]
  unfold roundedTwice Float64.add
  have hb : 0 < 2 ^ (toFloat k 1000).q := Nat.pow_pos (by omega)
  generalize (toFloat k 1000).m = m at *
  generalize (toFloat k 1000).q = r at *
  simp only
  have e1 : s * 2 ^ q * 2 ^ r + m * 2 ^ q = (s * 2 ^ r + m) * 2 ^ q := by
    rw [Nat.add_mul, Nat.mul_right_comm]
  have hlow : 2 ^ r * 2 ^ 52 ≤ (s * 2 ^ r + m) * 2 ^ q := by
    calc 2 ^ r * 2 ^ 52 ≤ 2 ^ r * (s * 2 ^ q) := Nat.mul_le_mul_left _ h1
      _ = s * 2 ^ r * 2 ^ q := by rw [Nat.mul_left_comm, Nat.mul_assoc]
      _ ≤ (s * 2 ^ r + m) * 2 ^ q := Nat.mul_le_mul_right _ (by omega)
  have hhigh : (s * 2 ^ r + m) * 2 ^ q < 2 ^ r * 2 ^ 53 := by
    calc (s * 2 ^ r + m) * 2 ^ q < (s * 2 ^ r + 2 ^ r) * 2 ^ q := Nat.mul_lt_mul_of_pos_right (by omega) hp
      _ = 2 ^ r * (s * 2 ^ q + 2 ^ q) := by rw [Nat.add_mul, Nat.mul_add, Nat.mul_left_comm (2 ^ r) s, Nat.mul_assoc]
      _ ≤ 2 ^ r * 2 ^ 53 := Nat.mul_le_mul_left _ h2
  have hbound : s * 2 ^ r + m < 2 ^ r * 2 ^ 53 := by
    have := Nat.mul_le_mul_left (s * 2 ^ r + m) (Nat.one_le_two_pow (n := q))
    omega
  rw [e1, Nat.add_comm q r, Nat.pow_add, toFloat_scale hp hb hbound, toFloat_eq hb hlow hhigh]
  congr 1
  rw [Nat.add_mul, Nat.mul_right_comm, roundEven_add _ _ _ hb]
  obtain ⟨p, rfl⟩ := Nat.exists_eq_succ_of_ne_zero (Nat.ne_of_gt hq)
  rw [Nat.pow_succ, ← Nat.mul_assoc]
  omega

/-- From one second on: the nearest floating point number. -/
theorem toFloat_big {s k q : Nat} (hq : 0 < q) (h1 : 2 ^ 52 ≤ s * 2 ^ q) (h2 : s * 2 ^ q + 2 ^ q ≤ 2 ^ 53) (hk : k < 1000) :
    toFloat (1000 * s + k) 1000 = carried (s * 2 ^ q + roundEven (k * 2 ^ q) 1000) q := by
  have hp : 0 < 2 ^ q := Nat.pow_pos (by omega)
  have he : (1000 * s + k) * 2 ^ q = s * 2 ^ q * 1000 + k * 2 ^ q := by rw [Nat.add_mul, Nat.mul_assoc, Nat.mul_comm]
  have hl : k * 2 ^ q < 1000 * 2 ^ q := Nat.mul_lt_mul_of_pos_right hk hp
  rw [toFloat_eq (q := q) (by omega) (by omega) (by omega), he, roundEven_add _ _ _ (by omega)]
  obtain ⟨p, rfl⟩ := Nat.exists_eq_succ_of_ne_zero (Nat.ne_of_gt hq)
  rw [Nat.pow_succ, ← Nat.mul_assoc]
  omega

/-- The number of binary places of a number of seconds. -/
theorem seconds_places {s : Nat} (h : 0 < s) (h34 : s < 2 ^ 34) :
    ∃ q, 18 < q ∧ q ≤ 52 ∧ 2 ^ 52 ≤ s * 2 ^ q ∧ s * 2 ^ q + 2 ^ q ≤ 2 ^ 53 ∧ (32 ≤ s → q ≤ 47) ∧ (s < 32 → 48 ≤ q) := by
  have h1 := Nat.log2_self_le (n := s) (by omega)
  have h2 := Nat.lt_log2_self (n := s)
  generalize s.log2 = e at *
  have he : e < 34 := (Nat.pow_lt_pow_iff_right (a := 2) (by omega)).mp (Nat.lt_of_le_of_lt h1 h34)
  refine ⟨52 - e, by omega, by omega, ?_, ?_, ?_, ?_⟩
  · calc 2 ^ 52 = 2 ^ e * 2 ^ (52 - e) := by rw [← Nat.pow_add]; congr 1; omega
      _ ≤ s * 2 ^ (52 - e) := Nat.mul_le_mul_right _ h1
  · calc s * 2 ^ (52 - e) + 2 ^ (52 - e) = (s + 1) * 2 ^ (52 - e) := by rw [Nat.add_mul, Nat.one_mul]
      _ ≤ 2 ^ (e + 1) * 2 ^ (52 - e) := Nat.mul_le_mul_right _ h2
      _ = 2 ^ 53 := by rw [← Nat.pow_add]; congr 1; omega
  · intro hs
    have : 2 ^ 5 < 2 ^ (e + 1) := by omega
    have := (Nat.pow_lt_pow_iff_right (a := 2) (by omega)).mp this
    omega
  · intro hs
    have : 2 ^ e < 2 ^ 5 := by omega
    have := (Nat.pow_lt_pow_iff_right (a := 2) (by omega)).mp this
    omega

/-- Below one second and from 32 seconds on the number is the one nearest to the time. -/
theorem durationSeconds_nearest {n : Nat} (h : n < 10 ^ 13) (hn : n < 1000 ∨ 32000 ≤ n) :
    durationSeconds (n * 1000000) = toFloat n 1000 := by
  rcases hn with hn | hn
  · exact durationSeconds_small n hn
  · obtain ⟨q, h1, h2, h3, h4, h5, -⟩ := seconds_places (s := n / 1000) (by omega) (by omega)
    have hd : n = 1000 * (n / 1000) + n % 1000 := by omega
    have e1 := durationSeconds_big (s := n / 1000) (k := n % 1000) (by omega) h3 h4 (by omega)
    have e2 := toFloat_big (s := n / 1000) (k := n % 1000) (by omega) h3 h4 (by omega)
    rw [← hd] at e1 e2
    rw [e1, e2, agrees (by omega) (h5 (by omega)) (by omega)]

theorem roundedTwice_le (q k : Nat) (h : k < 1000) : roundedTwice q k ≤ 2 ^ q := by
  have hf := fraction_below k h
  unfold roundedTwice
  have hb : 0 < 2 ^ (toFloat k 1000).q := Nat.pow_pos (by omega)
  generalize (toFloat k 1000).m = m at *
  generalize 2 ^ (toFloat k 1000).q = b at *
  obtain ⟨h1, -⟩ := roundEven_bounds (m * 2 ^ q) b hb
  have h2 : m * 2 ^ q ≤ 2 ^ q * b := by rw [Nat.mul_comm]; exact Nat.mul_le_mul_left _ (by omega)
  have h3 : roundEven (m * 2 ^ q) b * b < (2 ^ q + 1) * b := by rw [Nat.add_mul, Nat.one_mul]; omega
  have := Nat.lt_of_mul_lt_mul_right h3
  omega

/-- A decimal number that has `m / p` as its nearest number is as close to the time as `m / p` and the rounding allow. -/
theorem close_decimal {n m p c b e t : Nat} (h1 : 2 * (m * b) ≤ 2 * (c * p) + b) (h2 : 2 * (c * p) ≤ 2 * (m * b) + b)
    (h3 : 1000 * m ≤ n * p + e) (h4 : n * p ≤ 1000 * m + e) (ht : (500 + e) * 10 ^ 11 < t) (hp : t ≤ p) (hb : 0 < b) :
    1000 * c * 10 ^ 11 < n * b * 10 ^ 11 + b ∧ n * b * 10 ^ 11 < 1000 * c * 10 ^ 11 + b := by
  have g1 : 1000 * m * b ≤ n * p * b + e * b := by rw [← Nat.add_mul]; exact Nat.mul_le_mul_right _ h3
  have g2 : n * p * b ≤ 1000 * m * b + e * b := by rw [← Nat.add_mul]; exact Nat.mul_le_mul_right _ h4
  have g3 : n * b * p = n * p * b := Nat.mul_right_comm _ _ _
  have g4 : 1000 * m * b = 1000 * (m * b) := Nat.mul_assoc _ _ _
  have g5 : (500 + e) * 10 ^ 11 * b < b * p := by
    rw [Nat.mul_comm b p]; exact Nat.mul_lt_mul_of_pos_right (by omega) hb
  have g6 : (500 + e) * 10 ^ 11 * b = 500 * 10 ^ 11 * b + 10 ^ 11 * (e * b) := by
    rw [Nat.add_mul, Nat.add_mul, Nat.mul_comm e, Nat.mul_assoc _ e b]
  have g7 : ∀ x : Nat, (x * 10 ^ 11) * p = 10 ^ 11 * (x * p) := fun x => by rw [Nat.mul_comm x, Nat.mul_assoc]
  have g8 : 1000 * c * p = 1000 * (c * p) := Nat.mul_assoc _ _ _
  constructor <;> apply Nat.lt_of_mul_lt_mul_right (a := p) <;> rw [Nat.add_mul, g7, g7, g3, g8]
  all_goals
    generalize c * p = x at *
    generalize n * p * b = y at *
    generalize m * b = z at *
    generalize b * p = w at *
    generalize e * b = u at *
    omega

/-- Otherwise it is off by at most one in the last place, and has a decimal number close to the time. -/
theorem durationSeconds_close {n : Nat} (h1000 : 1000 ≤ n) (h : n < 32000) :
    ∃ c j, formatFloat (durationSeconds (n * 1000000)) = decimalText c j ∧
      1000 * c * 10 ^ 11 < n * 10 ^ j * 10 ^ 11 + 10 ^ j ∧ n * 10 ^ j * 10 ^ 11 < 1000 * c * 10 ^ 11 + 10 ^ j := by
  obtain ⟨q, h1, h2, h3, h4, -, h6⟩ := seconds_places (s := n / 1000) (by omega) (by omega)
  have hq := h6 (by omega)
  have hd : n = 1000 * (n / 1000) + n % 1000 := by omega
  have e1 := durationSeconds_big (s := n / 1000) (k := n % 1000) (by omega) h3 h4 (by omega)
  rw [← hd] at e1
  obtain ⟨n1, n2⟩ := nearly (k := n % 1000) hq h2 (by omega)
  obtain ⟨b1, b2⟩ := roundEven_bounds (n % 1000 * 2 ^ q) 1000 (by omega)
  have hR := roundedTwice_le q (n % 1000) (by omega)
  have hn : n * 2 ^ q = 1000 * (n / 1000 * 2 ^ q) + n % 1000 * 2 ^ q := by
    conv => lhs; rw [hd, Nat.add_mul, Nat.mul_assoc]
  have hp : 2 ^ 48 ≤ 2 ^ q := Nat.pow_le_pow_right (by omega) hq
  generalize hM : n / 1000 * 2 ^ q + roundedTwice q (n % 1000) = M at *
  have m1 : 2 ^ 52 ≤ M := by omega
  have m2 : M ≤ 2 ^ 53 := by omega
  have k1 : 1000 * M ≤ n * 2 ^ q + 1500 := by omega
  have k2 : n * 2 ^ q ≤ 1000 * M + 1500 := by omega
  have hv : ∃ e t, 1000 * (carried M q).m ≤ n * 2 ^ (carried M q).q + e ∧ n * 2 ^ (carried M q).q ≤ 1000 * (carried M q).m + e ∧
      (500 + e) * 10 ^ 11 < t ∧ t ≤ 2 ^ (carried M q).q ∧ 2 ^ 52 ≤ (carried M q).m ∧ (carried M q).m < 2 ^ 53 ∧ (carried M q).q ≤ 52 := by
    unfold carried
    split
    · rename_i hM'
      obtain ⟨r, rfl⟩ := Nat.exists_eq_succ_of_ne_zero (show q ≠ 0 by omega)
      have hr : n * 2 ^ r.succ = 2 * (n * 2 ^ r) := by rw [Nat.pow_succ, ← Nat.mul_assoc, Nat.mul_comm]
      rw [hr] at k1 k2
      simp only [Nat.succ_sub_one]
      have : 2 ^ 47 ≤ 2 ^ r := Nat.pow_le_pow_right (by omega) (by omega)
      exact ⟨750, 2 ^ 47, by omega, by omega, by omega, this, by omega, by omega, by omega⟩
    · exact ⟨1500, 2 ^ 48, k1, k2, by omega, hp, m1, by simp only; omega, h2⟩
  rw [← e1] at hv
  generalize durationSeconds (n * 1000000) = v at *
  obtain ⟨e, t, v1, v2, v3, v4, v5, v6, v7⟩ := hv
  obtain ⟨c, i, f1, -, f2, f3⟩ := shortest_found v 20 (twenty_decimals v5 v6 v7) 1100 0 (by omega) (by omega)
  refine ⟨c, i, f1, ?_⟩
  have hb : 0 < 10 ^ i := Nat.pow_pos (by omega)
  have hc : 0 < c := by
    apply Nat.pos_of_ne_zero
    intro hc
    subst hc
    rw [toFloat_zero] at f2
    subst f2
    simp at v5
  have hc2 : c < 10 ^ i * 2 ^ 52 := by
    have hp' : 0 < 2 ^ v.q := Nat.pow_pos (by omega)
    have g1 := Nat.div_mul_le_self (v.m * 10 ^ i) (2 ^ v.q)
    have g2 : c * 2 ^ v.q ≤ (v.m * 10 ^ i / 2 ^ v.q + 1) * 2 ^ v.q := Nat.mul_le_mul_right _ f3
    rw [Nat.add_mul, Nat.one_mul] at g2
    apply Nat.lt_of_mul_lt_mul_right (a := 2 ^ v.q)
    have g3 : v.m * 10 ^ i ≤ 2 ^ 53 * 10 ^ i := Nat.mul_le_mul_right _ (by omega)
    have g4 : t * 10 ^ i ≤ 10 ^ i * 2 ^ v.q := by rw [Nat.mul_comm]; exact Nat.mul_le_mul_left _ v4
    have g5 : 500 * 10 ^ 11 * 10 ^ i ≤ t * 10 ^ i := Nat.mul_le_mul_right _ (by omega)
    have g6 : 1 * 2 ^ v.q ≤ 10 ^ i * 2 ^ v.q := Nat.mul_le_mul_right _ hb
    rw [Nat.mul_right_comm]
    generalize v.m * 10 ^ i / 2 ^ v.q * 2 ^ v.q = a at *
    generalize 10 ^ i * 2 ^ v.q = b at *
    generalize c * 2 ^ v.q = d at *
    omega
  obtain ⟨-, -, s3, s4⟩ := toFloat_spec hc hb hc2
  rw [f2] at s3 s4
  exact close_decimal s3 s4 v1 v2 v3 v4 hb

end Midiasm
