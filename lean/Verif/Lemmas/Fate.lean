import Verif.Lemmas.Runs
import Verif.Props.Kinds
import Verif.Props.Encode
import Verif.Props.AssembleText
import Verif.Spec.Lines

/-!
What can become of assembling a text.
-/

set_option linter.unusedSimpArgs false

namespace Midiasm
open Spec

/-- Cause of a panic, cause of an endless loop, and what holds of the value. -/
def Fate {α : Type} (P Q : Prop) (R : α → Prop) : Outcome α → Prop
  | .ok a => R a
  | .err _ => True
  | .panic => P
  | .diverge => Q

theorem fate_bind {α β : Type} {P Q : Prop} {R : α → Prop} {S : β → Prop} {o : Outcome α} {f : α → Outcome β} (h : Fate P Q R o)
    (hf : ∀ a, o = .ok a → R a → Fate P Q S (f a)) : Fate P Q S (o >>= f) := by
  cases o with
  | ok a => exact hf a rfl h
  | err e => trivial
  | panic => exact h
  | diverge => exact h

theorem fate_mono {α : Type} {P P' Q Q' : Prop} {R R' : α → Prop} {o : Outcome α} (h : Fate P Q R o) (hP : P → P') (hQ : Q → Q')
    (hR : ∀ a, o = .ok a → R a → R' a) : Fate P' Q' R' o := by
  cases o with
  | ok a => exact hR a rfl h
  | err e => trivial
  | panic => exact hP h
  | diverge => exact hQ h

theorem fate_tame {α : Type} {P Q : Prop} {o : Outcome α} (h : Tame o) : Fate P Q (fun _ => True) o := by
  cases o with
  | ok a => trivial
  | err e => trivial
  | panic => exact h.elim
  | diverge => exact h.elim

/-! ### Digits -/

theorem digitTok_byte {t : Tok} (h : digitTok t = true) : ∃ b, t = [b] ∧ 48 ≤ b.toNat ∧ b.toNat ≤ 57 := by
  unfold digitTok at h
  split at h
  · rename_i b
    rw [Bool.and_eq_true, decide_eq_true_eq, decide_eq_true_eq, UInt8.le_iff_toNat_le, UInt8.le_iff_toNat_le] at h
    exact ⟨b, rfl, h⟩
  · cases h

theorem digits_flatten (ts : List Tok) (h : ∀ t ∈ ts, digitTok t = true) : ∀ b ∈ ts.flatten, 48 ≤ b.toNat ∧ b.toNat ≤ 57 := by
  intro b hb
  obtain ⟨t, ht, hbt⟩ := List.mem_flatten.mp hb
  obtain ⟨x, rfl, hx⟩ := digitTok_byte (h t ht)
  rw [List.mem_singleton] at hbt
  subst hbt
  exact hx

theorem digitsValue_fold (s : Bytes) : ∀ acc v, digitsValue s acc = some v →
    (∀ b ∈ s, 48 ≤ b.toNat ∧ b.toNat ≤ 57) ∧ s.foldl (fun a b => 10 * a + (b.toNat - 48)) acc = v := by
  induction s with
  | nil =>
    intro acc v h
    simp only [digitsValue, Option.some.injEq] at h
    exact ⟨by simp, by simpa using h⟩
  | cons b s ih =>
    intro acc v h
    simp only [digitsValue] at h
    obtain ⟨d, hd, h⟩ := Option.bind_eq_some_iff.mp h
    unfold digitValue at hd
    split at hd
    · rename_i hb
      rw [Bool.and_eq_true, decide_eq_true_eq, decide_eq_true_eq, UInt8.le_iff_toNat_le, UInt8.le_iff_toNat_le] at hb
      injection hd with hd
      obtain ⟨q1, q2⟩ := ih _ _ h
      constructor
      · intro x hx
        rcases List.mem_cons.mp hx with rfl | hx
        · exact hb
        · exact q1 x hx
      · rw [List.foldl_cons, ← q2, ← hd, Nat.mul_comm]
    · cases hd

/-- A number read is a numeral. -/
theorem parseUint_numeral {s : Bytes} {bits v : Nat} (h : parseUint s bits = .ok v) : Numeral s v ∧ v < 2 ^ bits := by
  unfold parseUint at h
  split at h
  · cases h
  · rename_i hs
    split at h
    · rename_i w hw
      split at h
      · rename_i hb
        injection h with h
        subst h
        exact ⟨⟨hs, (digitsValue_fold s 0 _ hw).1, (digitsValue_fold s 0 _ hw).2⟩, hb⟩
      · cases h
    · cases h

theorem parseByte_numeral {s : Bytes} {v : UInt8} (h : parseByte s = .ok v) : Numeral s v.toNat := by
  unfold parseByte at h
  cases hu : parseUint s 8 with
  | ok n =>
    rw [hu, Outcome.bind_ok] at h
    obtain ⟨h1, h2⟩ := parseUint_numeral hu
    injection h with h
    rw [← h, UInt8.toNat_ofNat', Nat.mod_eq_of_lt h2]
    exact h1
  | err e => rw [hu] at h; cases h
  | panic => rw [hu] at h; cases h
  | diverge => rw [hu] at h; cases h

/-- A numeral without a leading zero is the decimal notation of its value. -/
theorem numeral_dec (s : Bytes) : ∀ n, Numeral s n → s.head? ≠ some 48 → s = dec n := by
  induction s using List.reverseRecOn with
  | nil => intro n h; exact absurd rfl h.1
  | append_singleton s b ih =>
    intro n ⟨_, h2, h3⟩ h4
    have hb := h2 b (by simp)
    rw [List.foldl_append] at h3
    simp only [List.foldl_cons, List.foldl_nil] at h3
    have hbe : UInt8.ofNat (48 + (b.toNat - 48)) = b := by
      rw [show 48 + (b.toNat - 48) = b.toNat from by omega]; simp
    by_cases hs : s = []
    · subst hs
      simp only [List.foldl_nil] at h3
      rw [dec_eq, if_pos (by omega), List.nil_append, ← hbe]
      rw [show n = b.toNat - 48 from by omega]
    · have hn : Numeral s (s.foldl (fun a b => 10 * a + (b.toNat - 48)) 0) := ⟨hs, fun x hx => h2 x (by simp [hx]), rfl⟩
      have hh : s.head? ≠ some 48 := by
        cases s with
        | nil => exact absurd rfl hs
        | cons x s => simpa using h4
      have := ih _ hn hh
      generalize hm : s.foldl (fun a b => 10 * a + (b.toNat - 48)) 0 = m at *
      have hpos : 1 ≤ m := by
        rcases Nat.eq_zero_or_pos m with h0 | h0
        · subst h0
          rw [this] at hh
          exact absurd (by decide +kernel) hh
        · exact h0
      rw [dec_eq n, if_neg (by omega), show n / 10 = m from by omega, ← this, show n % 10 = b.toNat - 48 from by omega, hbe]

/-! ### Lines -/

theorem dropCR_chomp (l : Bytes) : scanAux.dropCR l.reverse = chomp l := by
  unfold scanAux.dropCR chomp
  split
  · rename_i t ht
    have : l = t.reverse ++ [13] := by rw [← List.reverse_reverse l, ht]; simp
    rw [this]
    simp
  · rename_i h
    rw [List.reverse_reverse, if_neg]
    intro h13
    obtain ⟨a, ha⟩ := List.getLast?_eq_some_iff.mp h13
    exact h a.reverse (by rw [ha]; simp)

theorem scanAux_lines (text : Bytes) : ∀ (l : Bytes) (n : Nat) (ls : List Bytes), 10 ∉ l → scanAux l.reverse n text = (ls, false) →
    Lines (l ++ text) ls := by
  induction text with
  | nil =>
    intro l n ls hl h
    simp only [scanAux] at h
    split at h
    · cases h
    · split at h
      · rename_i he
        injection h with h _
        subst h
        have : l = [] := by simpa using he
        subst this
        exact .nil
      · rename_i he
        injection h with h _
        subst h
        rw [dropCR_chomp, List.append_nil]
        exact .last l (by simpa using he) hl
  | cons c text ih =>
    intro l n ls hl h
    simp only [scanAux] at h
    split at h
    · cases h
    · split at h
      · rename_i hc
        subst hc
        generalize hs : scanAux [] 0 text = x at h
        obtain ⟨ls', e⟩ := x
        injection h with h1 h2
        subst h1 h2
        rw [dropCR_chomp]
        exact .cons l text ls' hl (ih [] 0 ls' (by simp) hs)
      · rename_i hc
        have := ih (l ++ [c]) (n + 1) ls (by simp [hl, Ne.symm hc]) (by simpa using h)
        simpa using this

/-- The scanner delivers the lines. -/
theorem scanLines_lines (text : Bytes) (h : (scanLines text).2 = false) : Lines text (scanLines text).1 := by
  have := scanAux_lines text [] 0 (scanLines text).1 (by simp) (by
    rw [← h]; rfl)
  simpa using this

/-! ### Blank lines and comments -/

theorem isComment_iff (l : Bytes) : isComment l = true ↔ Comment l := by
  unfold isComment Comment
  exact List.isPrefixOf_iff_prefix

theorem unicodeSpace_mem (r : Nat) (h : unicodeSpace r = true) : r ∈ whiteSpace := by
  simp [unicodeSpace] at h
  simp [whiteSpace]
  omega

theorem empty_of_skipped (l : Bytes) (h : (isComment l || isBlank l) = true) : Spec.Empty l := by
  rw [Bool.or_eq_true] at h
  rcases h with h | h
  · exact Or.inl ((isComment_iff l).mp h)
  · right
    intro r hr
    exact unicodeSpace_mem r (List.all_eq_true.mp h r hr)

end Midiasm
