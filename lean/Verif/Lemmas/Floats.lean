import Verif.Model.NotesJson

/-!
Rounding to `float64`.
-/

set_option linter.unusedSimpArgs false

namespace Midiasm

/-! ### Rounding to integers -/

theorem roundEven_bounds (a b : Nat) (hb : 0 < b) :
    2 * (roundEven a b * b) ≤ 2 * a + b ∧ 2 * a ≤ 2 * (roundEven a b * b) + b := by
  have h := Nat.div_add_mod a b
  have hl := Nat.mod_lt a hb
  unfold roundEven
  generalize a / b = d at *
  generalize a % b = r at *
  have hm : b * d = d * b := Nat.mul_comm _ _
  have hs : (d + 1) * b = d * b + b := by rw [Nat.add_mul, Nat.one_mul]
  repeat' split
  all_goals first | (rw [hs]; omega) | omega

theorem roundEven_scale (a b k : Nat) (hk : 0 < k) : roundEven (a * k) (b * k) = roundEven a b := by
  unfold roundEven
  rw [Nat.mul_mod_mul_right, Nat.mul_div_mul_right _ _ hk]
  have h1 : ∀ x : Nat, 2 * (x * k) = (2 * x) * k := fun x => by rw [Nat.mul_assoc]
  simp only [h1, Nat.mul_lt_mul_right hk]

theorem roundEven_exact (a b : Nat) (hb : 0 < b) : roundEven (a * b) b = a := by
  unfold roundEven
  rw [Nat.mul_mod_left, Nat.mul_div_cancel _ hb, if_pos (by omega)]

theorem roundEven_add (s a b : Nat) (hb : 0 < b) (hs : s % 2 = 0) : roundEven (s * b + a) b = s + roundEven a b := by
  unfold roundEven
  have h1 : (s * b + a) % b = a % b := by rw [Nat.add_comm, Nat.add_mul_mod_self_right]
  have h2 : (s * b + a) / b = s + a / b := by rw [Nat.add_comm, Nat.add_mul_div_right _ _ hb, Nat.add_comm]
  rw [h1, h2]
  have h3 : (s + a / b) % 2 = a / b % 2 := by omega
  rw [h3]
  repeat' split
  all_goals omega

/-- Within less than a half, the nearest integer is known. -/
theorem roundEven_near {a b m : Nat} (hb : 0 < b) (h1 : 2 * (m * b) < 2 * a + b) (h2 : 2 * a < 2 * (m * b) + b) : roundEven a b = m := by
  obtain ⟨h3, h4⟩ := roundEven_bounds a b hb
  generalize roundEven a b = x at *
  have h5 : x * b < (m + 1) * b := by rw [Nat.add_mul, Nat.one_mul]; omega
  have h6 : m * b < (x + 1) * b := by rw [Nat.add_mul, Nat.one_mul]; omega
  have := Nat.lt_of_mul_lt_mul_right h5
  have := Nat.lt_of_mul_lt_mul_right h6
  omega

/-! ### The exponent -/

theorem binaryPlaces_spec {a b : Nat} (ha : 0 < a) (hb : 0 < b) (h : a < b * 2 ^ 53) :
    b * 2 ^ 52 ≤ a * 2 ^ binaryPlaces a b ∧ a * 2 ^ binaryPlaces a b < b * 2 ^ 53 := by
  have ha1 := Nat.log2_self_le (n := a) (by omega)
  have ha2 := Nat.lt_log2_self (n := a)
  have hb1 := Nat.log2_self_le (n := b) (by omega)
  have hb2 := Nat.lt_log2_self (n := b)
  unfold binaryPlaces
  generalize a.log2 = la at *
  generalize b.log2 = lb at *
  have hle : la ≤ lb + 53 := by
    have : 2 ^ la < 2 ^ (lb + 54) := by
      calc 2 ^ la ≤ a := ha1
        _ < b * 2 ^ 53 := h
        _ ≤ 2 ^ (lb + 1) * 2 ^ 53 := Nat.mul_le_mul_right _ (by omega)
        _ = 2 ^ (lb + 54) := by rw [← Nat.pow_add]
    have := (Nat.pow_lt_pow_iff_right (a := 2) (by omega)).mp this
    omega
  simp only
  split
  · rename_i hc
    refine ⟨hc, ?_⟩
    by_cases hl : la = lb + 53
    · subst hl
      rw [show 52 + lb - (lb + 53) = 0 by omega, Nat.pow_zero, Nat.mul_one]
      exact h
    · calc a * 2 ^ (52 + lb - la) < 2 ^ (la + 1) * 2 ^ (52 + lb - la) := Nat.mul_lt_mul_of_pos_right ha2 (Nat.pow_pos (by omega))
        _ = 2 ^ lb * 2 ^ 53 := by rw [← Nat.pow_add, ← Nat.pow_add]; congr 1; omega
        _ ≤ b * 2 ^ 53 := Nat.mul_le_mul_right _ hb1
  · rename_i hc
    have hl : la ≠ lb + 53 := by
      intro hl
      subst hl
      apply hc
      rw [show 52 + lb - (lb + 53) = 0 by omega, Nat.pow_zero, Nat.mul_one]
      calc b * 2 ^ 52 ≤ 2 ^ (lb + 1) * 2 ^ 52 := Nat.mul_le_mul_right _ (by omega)
        _ = 2 ^ (lb + 53) := by rw [← Nat.pow_add]
        _ ≤ a := ha1
    refine ⟨?_, ?_⟩
    · calc b * 2 ^ 52 ≤ 2 ^ (lb + 1) * 2 ^ 52 := Nat.mul_le_mul_right _ (by omega)
        _ = 2 ^ la * 2 ^ (52 + lb - la + 1) := by rw [← Nat.pow_add, ← Nat.pow_add]; congr 1; omega
        _ ≤ a * 2 ^ (52 + lb - la + 1) := Nat.mul_le_mul_right _ ha1
    · rw [Nat.pow_succ, ← Nat.mul_assoc]
      omega

theorem places_unique {a b p q : Nat} (hp1 : b * 2 ^ 52 ≤ a * 2 ^ p) (hp2 : a * 2 ^ p < b * 2 ^ 53)
    (hq1 : b * 2 ^ 52 ≤ a * 2 ^ q) (hq2 : a * 2 ^ q < b * 2 ^ 53) : p = q := by
  have key : ∀ p q, b * 2 ^ 52 ≤ a * 2 ^ p → a * 2 ^ q < b * 2 ^ 53 → q ≤ p := by
    intro p q h1 h2
    apply Nat.le_of_not_lt
    intro hlt
    have h3 : a * 2 ^ (p + 1) ≤ a * 2 ^ q := Nat.mul_le_mul_left _ (Nat.pow_le_pow_right (by omega) hlt)
    rw [Nat.pow_succ, ← Nat.mul_assoc] at h3
    omega
  exact Nat.le_antisymm (key q p hq1 hp2) (key p q hp1 hq2)

theorem binaryPlaces_eq {a b q : Nat} (hb : 0 < b) (h1 : b * 2 ^ 52 ≤ a * 2 ^ q) (h2 : a * 2 ^ q < b * 2 ^ 53) : binaryPlaces a b = q := by
  have ha : 0 < a := by
    apply Nat.pos_of_ne_zero
    intro h
    subst h
    omega
  have h : a < b * 2 ^ 53 := Nat.lt_of_le_of_lt (by have := Nat.mul_le_mul_left a (Nat.one_le_two_pow (n := q)); omega) h2
  obtain ⟨h3, h4⟩ := binaryPlaces_spec ha hb h
  exact places_unique h3 h4 h1 h2

/-! ### Rounding -/

/-- A mantissa that has grown to 54 bits. -/
def carried (m q : Nat) : Float64 := if m = 2 ^ 53 then ⟨2 ^ 52, q - 1⟩ else ⟨m, q⟩

theorem toFloat_eq {a b q : Nat} (hb : 0 < b) (h1 : b * 2 ^ 52 ≤ a * 2 ^ q) (h2 : a * 2 ^ q < b * 2 ^ 53) :
    toFloat a b = carried (roundEven (a * 2 ^ q) b) q := by
  unfold toFloat
  rw [if_neg (by intro h; subst h; omega), binaryPlaces_eq hb h1 h2]
  rfl

theorem toFloat_scale {a b k : Nat} (hk : 0 < k) (hb : 0 < b) (h : a < b * 2 ^ 53) : toFloat (a * k) (b * k) = toFloat a b := by
  by_cases ha : a = 0
  · subst ha; simp [toFloat]
  · obtain ⟨h1, h2⟩ := binaryPlaces_spec (Nat.pos_of_ne_zero ha) hb h
    generalize binaryPlaces a b = q at *
    rw [toFloat_eq hb h1 h2, toFloat_eq (q := q) (Nat.mul_pos hb hk)]
    · rw [Nat.mul_right_comm a k, roundEven_scale _ _ _ hk]
    · rw [Nat.mul_right_comm b k, Nat.mul_right_comm a k]; exact Nat.mul_le_mul_right _ h1
    · rw [Nat.mul_right_comm b k, Nat.mul_right_comm a k]; exact Nat.mul_lt_mul_of_pos_right h2 hk

/-- What rounding gives: a mantissa of 53 bits within a half of a unit in the last place. -/
theorem toFloat_spec {a b : Nat} (ha : 0 < a) (hb : 0 < b) (h : a < b * 2 ^ 52) :
    2 ^ 52 ≤ (toFloat a b).m ∧ (toFloat a b).m < 2 ^ 53 ∧
    2 * ((toFloat a b).m * b) ≤ 2 * (a * 2 ^ (toFloat a b).q) + b ∧ 2 * (a * 2 ^ (toFloat a b).q) ≤ 2 * ((toFloat a b).m * b) + b := by
  have h0 : a < b * 2 ^ 53 := Nat.lt_of_lt_of_le h (Nat.mul_le_mul_left _ (Nat.pow_le_pow_right (by omega) (by omega)))
  obtain ⟨h1, h2⟩ := binaryPlaces_spec ha hb h0
  have hq : binaryPlaces a b ≠ 0 := by
    intro h0
    rw [h0, Nat.pow_zero, Nat.mul_one] at h1
    omega
  rw [toFloat_eq hb h1 h2]
  generalize binaryPlaces a b = q at *
  obtain ⟨h3, h4⟩ := roundEven_bounds (a * 2 ^ q) b hb
  have h5 : 2 ^ 52 ≤ roundEven (a * 2 ^ q) b := by
    have : 2 ^ 52 * b < (roundEven (a * 2 ^ q) b + 1) * b := by rw [Nat.add_mul, Nat.one_mul]; omega
    have := Nat.lt_of_mul_lt_mul_right this
    omega
  have h6 : roundEven (a * 2 ^ q) b ≤ 2 ^ 53 := by
    have : roundEven (a * 2 ^ q) b * b < (2 ^ 53 + 1) * b := by rw [Nat.add_mul, Nat.one_mul]; omega
    have := Nat.lt_of_mul_lt_mul_right this
    omega
  generalize hm : roundEven (a * 2 ^ q) b = m at *
  unfold carried
  split
  · rename_i hm'
    subst hm'
    refine ⟨Nat.le_refl _, by simp, ?_⟩
    obtain ⟨p, rfl⟩ := Nat.exists_eq_succ_of_ne_zero hq
    have he : a * 2 ^ p.succ = 2 * (a * 2 ^ p) := by rw [Nat.pow_succ, ← Nat.mul_assoc, Nat.mul_comm]
    rw [he] at h1 h2 h3 h4
    simp only [Nat.succ_sub_one]
    generalize a * 2 ^ p = x at *
    omega
  · refine ⟨h5, by simp only; omega, h3, h4⟩

/-- A `float64` rounds to itself. -/
theorem toFloat_self {m q : Nat} (h1 : 2 ^ 52 ≤ m) (h2 : m < 2 ^ 53) : toFloat m (2 ^ q) = ⟨m, q⟩ := by
  have hp : 0 < 2 ^ q := Nat.pow_pos (by omega)
  rw [toFloat_eq (q := q) hp]
  · rw [roundEven_exact _ _ hp, carried, if_neg (by omega)]
  · rw [Nat.mul_comm]; exact Nat.mul_le_mul_right _ h1
  · rw [Nat.mul_comm _ (2 ^ 53)]; exact Nat.mul_lt_mul_of_pos_right h2 hp

theorem toFloat_zero (b : Nat) : toFloat 0 b = ⟨0, 0⟩ := by simp [toFloat]

/-! ### Times in milliseconds -/

/-- The number of places of the nearest number to so many milliseconds. -/
theorem places_ms {n b : Nat} (hn : 0 < n) (hb : 0 < b) (h : n < b * 2 ^ 34) : 17 < (toFloat n b).q := by
  obtain ⟨h1, -, h3, -⟩ := toFloat_spec hn hb (Nat.lt_of_lt_of_le h (Nat.mul_le_mul_left _ (Nat.pow_le_pow_right (by omega) (by omega))))
  apply Nat.lt_of_not_le
  intro hq
  have h5 : n * 2 ^ (toFloat n b).q ≤ n * 2 ^ 17 := Nat.mul_le_mul_left _ (Nat.pow_le_pow_right (by omega) hq)
  have h6 : 2 ^ 52 * b ≤ (toFloat n b).m * b := Nat.mul_le_mul_right _ h1
  generalize (toFloat n b).m * b = x at *
  generalize n * 2 ^ (toFloat n b).q = y at *
  omega

theorem toFloat_eq_zero {a b : Nat} (hb : 0 < b) (h : a < b * 2 ^ 52) (h0 : toFloat a b = toFloat 0 b) : a = 0 := by
  apply Nat.eq_zero_of_not_pos
  intro ha
  have := (toFloat_spec ha hb h).1
  rw [h0, toFloat_zero] at this
  simp at this

/-- Different numbers of milliseconds have different `float64`. -/
theorem ms_injective {x y : Nat} (hx : x < 1000 * 2 ^ 34) (hy : y < 1000 * 2 ^ 34) (h : toFloat x 1000 = toFloat y 1000) : x = y := by
  have bx : x < 1000 * 2 ^ 52 := by omega
  have by_ : y < 1000 * 2 ^ 52 := by omega
  by_cases hx0 : x = 0
  · subst hx0; exact (toFloat_eq_zero (by omega) by_ h.symm).symm
  · by_cases hy0 : y = 0
    · subst hy0; exact toFloat_eq_zero (by omega) bx h
    · have hq := places_ms (Nat.pos_of_ne_zero hx0) (by omega : 0 < 1000) hx
      obtain ⟨-, -, h1, h2⟩ := toFloat_spec (Nat.pos_of_ne_zero hx0) (by omega : 0 < 1000) bx
      obtain ⟨-, -, h3, h4⟩ := toFloat_spec (Nat.pos_of_ne_zero hy0) (by omega : 0 < 1000) by_
      rw [← h] at h3 h4
      have hp : 2 ^ 17 ≤ 2 ^ (toFloat x 1000).q := Nat.pow_le_pow_right (by omega) (by omega)
      generalize (toFloat x 1000).m = m at *
      generalize 2 ^ (toFloat x 1000).q = p at *
      have k1 : x * p < (y + 1) * p := by rw [Nat.add_mul, Nat.one_mul]; omega
      have k2 : y * p < (x + 1) * p := by rw [Nat.add_mul, Nat.one_mul]; omega
      have := Nat.lt_of_mul_lt_mul_right k1
      have := Nat.lt_of_mul_lt_mul_right k2
      omega

/-- With few decimals the numbers are multiples of a millisecond. -/
theorem toFloat_decimals {c j : Nat} (hj : j ≤ 3) (hc : c * 10 ^ (3 - j) < 1000 * 2 ^ 34) : toFloat c (10 ^ j) = toFloat (c * 10 ^ (3 - j)) 1000 := by
  have hp : (10 : Nat) ^ j * 10 ^ (3 - j) = 1000 := by rw [← Nat.pow_add, show j + (3 - j) = 3 by omega]
  have hk : 0 < 10 ^ (3 - j) := Nat.pow_pos (by omega)
  have hb : 0 < 10 ^ j := Nat.pow_pos (by omega)
  rw [← toFloat_scale hk hb, hp]
  apply Nat.lt_of_mul_lt_mul_right (a := 10 ^ (3 - j))
  rw [Nat.mul_right_comm, hp]
  omega

/-! ### The shortest decimal number -/

/-- The candidates around the number nearest to some milliseconds. -/
theorem candidates {n j : Nat} (hn : 0 < n) (h : n < 10 ^ 13) (hj : j ≤ 3) :
    (toFloat n 1000).m * 10 ^ j / 2 ^ (toFloat n 1000).q * 10 ^ (3 - j) ≤ n ∧
    n < ((toFloat n 1000).m * 10 ^ j / 2 ^ (toFloat n 1000).q + 2) * 10 ^ (3 - j) ∧
    (∀ x, x * 10 ^ (3 - j) = n → x ≤ (toFloat n 1000).m * 10 ^ j / 2 ^ (toFloat n 1000).q + 1) := by
  have hq := places_ms hn (by omega : 0 < 1000) (by omega)
  obtain ⟨-, -, h1, h2⟩ := toFloat_spec hn (by omega : 0 < 1000) (by omega)
  have hp : 2 ^ 17 ≤ 2 ^ (toFloat n 1000).q := Nat.pow_le_pow_right (by omega) (by omega)
  generalize (toFloat n 1000).m = m at *
  generalize 2 ^ (toFloat n 1000).q = p at *
  have h10 : (10 : Nat) ^ j * 10 ^ (3 - j) = 1000 := by rw [← Nat.pow_add, show j + (3 - j) = 3 by omega]
  have hk : 0 < 10 ^ (3 - j) := Nat.pow_pos (by omega)
  have hk' : 10 ^ (3 - j) ≤ 1000 := by
    rw [show (1000 : Nat) = 10 ^ 3 from rfl]; exact Nat.pow_le_pow_right (by omega) (by omega)
  have hd := Nat.div_add_mod (m * 10 ^ j) p
  have hl := Nat.mod_lt (m * 10 ^ j) (show 0 < p by omega)
  generalize m * 10 ^ j / p = c at *
  generalize hr : m * 10 ^ j % p = r at *
  have hm : m * 1000 = c * 10 ^ (3 - j) * p + r * 10 ^ (3 - j) := by
    rw [← h10, ← Nat.mul_assoc, ← hd, Nat.add_mul]
    congr 1
    rw [Nat.mul_comm p c, Nat.mul_right_comm]
  have hrl : r * 10 ^ (3 - j) < p * 10 ^ (3 - j) := Nat.mul_lt_mul_of_pos_right hl hk
  have hpk : p * 10 ^ (3 - j) = 10 ^ (3 - j) * p := Nat.mul_comm _ _
  generalize 10 ^ (3 - j) = k at *
  have g1 : c * k ≤ n := by
    have : c * k * p < (n + 1) * p := by rw [Nat.add_mul, Nat.one_mul]; omega
    have := Nat.lt_of_mul_lt_mul_right this
    omega
  have g2 : n < (c + 2) * k := by
    have : n * p < (c + 2) * k * p := by
      rw [Nat.add_mul, Nat.add_mul, Nat.mul_assoc 2]
      have : 1 * p ≤ k * p := Nat.mul_le_mul_right _ hk
      omega
    exact Nat.lt_of_mul_lt_mul_right this
  refine ⟨g1, g2, ?_⟩
  intro x hx
  rw [← hx] at g2
  have := Nat.lt_of_mul_lt_mul_right g2
  omega

theorem shortest_hit {n j x fuel : Nat} (hn : 0 < n) (h : n < 10 ^ 13) (hj : j ≤ 3) (hx : x * 10 ^ (3 - j) = n) :
    shortestLoop (toFloat n 1000) (fuel + 1) j = decimalText x j := by
  obtain ⟨h1, h2, h3⟩ := candidates hn h hj
  have h3 := h3 x hx
  have hk : 0 < 10 ^ (3 - j) := Nat.pow_pos (by omega)
  have hk' : 10 ^ (3 - j) ≤ 1000 := by
    rw [show (1000 : Nat) = 10 ^ 3 from rfl]; exact Nat.pow_le_pow_right (by omega) (by omega)
  rw [shortestLoop]
  generalize (toFloat n 1000).m * 10 ^ j / 2 ^ (toFloat n 1000).q = c at *
  have hxn : toFloat x (10 ^ j) = toFloat n 1000 := by rw [toFloat_decimals hj (by omega), hx]
  have hne : ∀ y, y ≤ x + 1 → y ≠ x → toFloat y (10 ^ j) ≠ toFloat n 1000 := by
    intro y hy hyx he
    have hb : y * 10 ^ (3 - j) < 1000 * 2 ^ 34 := by
      have : y * 10 ^ (3 - j) ≤ (x + 1) * 10 ^ (3 - j) := Nat.mul_le_mul_right _ hy
      rw [Nat.add_mul, Nat.one_mul, hx] at this
      omega
    rw [toFloat_decimals hj hb, ← hx] at he
    have := ms_injective hb (by omega) he
    exact hyx (Nat.eq_of_mul_eq_mul_right hk this)
  have hcx : c ≤ x := by
    rw [← hx] at h1
    exact Nat.le_of_mul_le_mul_right h1 hk
  by_cases hc : c = x
  · subst hc
    rw [if_pos ⟨hxn, .inl (hne _ (by omega) (by omega))⟩]
  · have : c + 1 = x := by omega
    rw [if_neg (fun hh => hne c (by omega) hc hh.1), this, if_pos hxn]

theorem shortest_miss {n j fuel : Nat} (hn : 0 < n) (h : n < 10 ^ 13) (hj : j ≤ 3) (hx : ∀ x, x * 10 ^ (3 - j) ≠ n) :
    shortestLoop (toFloat n 1000) (fuel + 1) j = shortestLoop (toFloat n 1000) fuel (j + 1) := by
  obtain ⟨h1, h2, -⟩ := candidates hn h hj
  have hk' : 10 ^ (3 - j) ≤ 1000 := by
    rw [show (1000 : Nat) = 10 ^ 3 from rfl]; exact Nat.pow_le_pow_right (by omega) (by omega)
  rw [shortestLoop]
  generalize (toFloat n 1000).m * 10 ^ j / 2 ^ (toFloat n 1000).q = c at *
  have hne : ∀ y, y * 10 ^ (3 - j) ≤ n + 1000 → toFloat y (10 ^ j) ≠ toFloat n 1000 := by
    intro y hy he
    rw [toFloat_decimals hj (by omega)] at he
    exact hx y (ms_injective (by omega) (by omega) he)
  rw [if_neg (fun hh => hne c (by omega) hh.1), if_neg (hne (c + 1) (by rw [Nat.add_mul, Nat.one_mul]; omega))]

/-- The number nearest to some milliseconds is written with at most three decimals, and no zeros at the end. -/
theorem formatFloat_ms {n : Nat} (h : n < 10 ^ 13) :
    ∃ x j, formatFloat (toFloat n 1000) = decimalText x j ∧ j ≤ 3 ∧ x * 10 ^ (3 - j) = n ∧ (j ≠ 0 → x % 10 ≠ 0) := by
  unfold formatFloat
  by_cases hn : n = 0
  · subst hn
    exact ⟨0, 0, by rw [toFloat_zero]; rfl, by omega, by omega, fun hh => absurd rfl hh⟩
  · have hn := Nat.pos_of_ne_zero hn
    by_cases h0 : n % 1000 = 0
    · exact ⟨n / 1000, 0, shortest_hit (fuel := 1099) hn h (by omega) (by simp; omega), by omega, by simp; omega, fun hh => absurd rfl hh⟩
    · rw [shortest_miss (fuel := 1099) hn h (by omega) (by intro x; simp; omega)]
      by_cases h1 : n % 100 = 0
      · exact ⟨n / 100, 1, shortest_hit (fuel := 1098) hn h (by omega) (by simp; omega), by omega, by simp; omega, by omega⟩
      · rw [shortest_miss (fuel := 1098) hn h (by omega) (by intro x; simp; omega)]
        by_cases h2 : n % 10 = 0
        · exact ⟨n / 10, 2, shortest_hit (fuel := 1097) hn h (by omega) (by simp; omega), by omega, by simp; omega, by omega⟩
        · rw [shortest_miss (fuel := 1097) hn h (by omega) (by intro x; simp; omega)]
          exact ⟨n, 3, shortest_hit (fuel := 1096) hn h (by omega) (by simp), by omega, by simp, by omega⟩

/-- If some number of decimals gives the number itself, the text found is a decimal number with it as its nearest `float64`. -/
theorem shortest_found (v : Float64) (J : Nat) (hJ : toFloat (v.m * 10 ^ J / 2 ^ v.q) (10 ^ J) = v) : ∀ fuel j, j ≤ J → J < j + fuel →
    ∃ c i, shortestLoop v fuel j = decimalText c i ∧ i ≤ J ∧ toFloat c (10 ^ i) = v ∧ c ≤ v.m * 10 ^ i / 2 ^ v.q + 1 := by
  intro fuel
  induction fuel with
  | zero => intro j h1 h2; omega
  | succ fuel ih =>
    intro j h1 h2
    rw [shortestLoop]
    split
    · rename_i hc; exact ⟨_, j, rfl, h1, hc.1, by omega⟩
    · split
      · rename_i hc; exact ⟨_, j, rfl, h1, hc, by omega⟩
      · rename_i hc1 hc2
        have : j ≠ J := by
          intro he
          subst he
          exact hc1 ⟨hJ, .inl hc2⟩
        exact ih (j + 1) (by omega) (by omega)

/-- Twenty decimals are enough. -/
theorem twenty_decimals {m q : Nat} (h1 : 2 ^ 52 ≤ m) (h2 : m < 2 ^ 53) (hq : q ≤ 52) :
    toFloat (m * 10 ^ 20 / 2 ^ q) (10 ^ 20) = ⟨m, q⟩ := by
  have hp : 0 < 2 ^ q := Nat.pow_pos (by omega)
  have hp52 : 2 ^ q ≤ 2 ^ 52 := Nat.pow_le_pow_right (by omega) hq
  by_cases hm : m = 2 ^ 52
  · have he : 2 ^ 52 * 10 ^ 20 / 2 ^ q * 2 ^ q = 2 ^ 52 * 10 ^ 20 :=
      Nat.div_mul_cancel (Nat.dvd_trans (Nat.pow_dvd_pow 2 hq) (Nat.dvd_mul_right _ _))
    subst hm
    rw [toFloat_eq (q := q) (by omega) (by rw [he]; omega) (by rw [he]; omega), he, roundEven_exact _ _ (by omega), carried, if_neg (by omega)]
  · have hd := Nat.div_add_mod (m * 10 ^ 20) (2 ^ q)
    have hl := Nat.mod_lt (m * 10 ^ 20) hp
    rw [Nat.mul_comm (2 ^ q)] at hd
    rw [toFloat_eq (q := q) (by omega)]
    all_goals generalize m * 10 ^ 20 / 2 ^ q * 2 ^ q = x at *
    · rw [roundEven_near (m := m) (by omega) (by omega) (by omega), carried, if_neg (by omega)]
    · omega
    · omega

end Midiasm
