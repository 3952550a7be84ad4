import Verif.Model.NotesPrint
import Verif.Spec.NotesPrint
import Verif.Lemmas.Text
import Verif.Lemmas.Fate
import Verif.Props.Notes

/-!
The listing of notes shows the notes (C87).
-/

set_option linter.unusedSimpArgs false

namespace Midiasm
open Spec

/-! ### Durations -/

/-- Value of digits appended to the number `n`. -/
def digitFold (n : Nat) (ds : Bytes) : Nat := ds.foldl (fun a b => 10 * a + (b.toNat - 48)) n

theorem unitsValue_digit {total n den : Nat} {frac : Bool} {c : UInt8} {rest : Bytes} (h : 48 ≤ c.toNat ∧ c.toNat ≤ 57) :
    unitsValue total n den frac (c :: rest) =
      unitsValue total (10 * n + (c.toNat - 48)) (if frac then 10 * den else den) frac rest := by
  rw [unitsValue.eq_def]
  split <;> rename_i heq <;>
    first
    | (injection heq with h1 h2; subst h1; exact absurd h (by decide))
    | (cases heq; done)
    | (injection heq with h1 h2; subst h1; subst h2; rw [if_pos h])

theorem unitsValue_digits {total : Nat} {frac : Bool} {rest : Bytes} (ds : Bytes) :
    ∀ {n den : Nat}, (∀ c ∈ ds, 48 ≤ c.toNat ∧ c.toNat ≤ 57) →
    unitsValue total n den frac (ds ++ rest) =
      unitsValue total (digitFold n ds) (if frac then 10 ^ ds.length * den else den) frac rest := by
  induction ds with
  | nil => intro n den _; simp [digitFold]
  | cons c ds ih =>
    intro n den h
    rw [List.cons_append, unitsValue_digit (h c (by simp)), ih (fun d hd => h d (by simp [hd]))]
    cases frac <;> simp [digitFold, Nat.pow_succ, Nat.mul_assoc, Nat.mul_comm, Nat.mul_left_comm]

theorem digitFold_append (n : Nat) (a b : Bytes) : digitFold n (a ++ b) = digitFold (digitFold n a) b := by
  simp [digitFold]

theorem digitFold_start (ds : Bytes) : ∀ n, digitFold n ds = n * 10 ^ ds.length + digitFold 0 ds := by
  induction ds with
  | nil => simp [digitFold]
  | cons c ds ih =>
    intro n
    have h1 := ih (10 * n + (c.toNat - 48))
    have h2 := ih (10 * 0 + (c.toNat - 48))
    simp only [digitFold, List.foldl_cons] at h1 h2 ⊢
    rw [h1, h2, List.length_cons, Nat.pow_succ]
    rw [Nat.add_mul, Nat.mul_zero, Nat.zero_add, Nat.mul_assoc 10, Nat.mul_comm 10, ← Nat.mul_assoc]
    omega

theorem digit_toNat (d : Nat) (h : d < 10) : (UInt8.ofNat (48 + d)).toNat = 48 + d := by
  rw [UInt8.toNat_ofNat']; omega

theorem digitFold_dec (n : Nat) : digitFold 0 (dec n) = n := by
  induction n using Nat.strongRecOn with
  | _ n ih =>
    rw [dec_eq]
    split
    · rename_i h
      simp only [digitFold, List.foldl_cons, List.foldl_nil, digit_toNat n h]
      omega
    · rename_i h
      rw [digitFold_append, ih (n / 10) (by omega)]
      simp only [digitFold, List.foldl_cons, List.foldl_nil, digit_toNat (n % 10) (by omega)]
      omega

theorem dec_digits_toNat (n : Nat) : ∀ c ∈ dec n, 48 ≤ c.toNat ∧ c.toNat ≤ 57 := by
  intro c hc
  have := dec_digits n c hc
  exact ⟨UInt8.le_iff_toNat_le.mp this.1, UInt8.le_iff_toNat_le.mp this.2⟩

theorem dec_numeral (n : Nat) : Numeral (dec n) n := ⟨dec_ne_nil n, dec_digits_toNat n, digitFold_dec n⟩

theorem unitsValue_dec {total : Nat} {rest : Bytes} (n : Nat) :
    unitsValue total 0 1 false (dec n ++ rest) = unitsValue total n 1 false rest := by
  rw [unitsValue_digits (dec n) (dec_digits_toNat n), digitFold_dec]
  rfl

/-- What the digits of a fraction are. -/
theorem fmtFracLoop_spec (prec : Nat) : ∀ (v : Nat) (shown : Bool) (acc : Bytes),
    ∃ shown' ds, fmtFracLoop prec v shown acc = (shown', ds ++ acc, v / 10 ^ prec) ∧
      (∀ c ∈ ds, 48 ≤ c.toNat ∧ c.toNat ≤ 57) ∧ ds.length ≤ prec ∧
      digitFold 0 ds * 10 ^ (prec - ds.length) = v % 10 ^ prec ∧ (shown = true → ds.length = prec ∧ shown' = true) ∧
      (shown' = false → ds = []) := by
  induction prec with
  | zero =>
    intro v shown acc
    exact ⟨shown, [], by simp [fmtFracLoop], by simp, by simp, by simp [digitFold, Nat.mod_one], fun h => ⟨rfl, h⟩, fun _ => rfl⟩
  | succ p ih =>
    intro v shown acc
    rw [fmtFracLoop]
    by_cases hs : (shown || v % 10 != 0) = true
    · obtain ⟨shown', ds, h1, h2, h3, h4, h5, h6⟩ := ih (v / 10) true (UInt8.ofNat (48 + v % 10) :: acc)
      obtain ⟨h5, h5'⟩ := h5 rfl
      simp only [hs, if_true, h1]
      refine ⟨shown', ds ++ [UInt8.ofNat (48 + v % 10)], ?_, ?_, by simp; omega, ?_, fun _ => ⟨by simp [h5], h5'⟩, ?_⟩
      · rw [Nat.div_div_eq_div_mul, Nat.pow_succ, Nat.mul_comm]; simp
      · intro c hc
        rcases List.mem_append.mp hc with hc | hc
        · exact h2 c hc
        · rw [List.mem_singleton.mp hc, digit_toNat _ (by omega)]; omega
      · rw [List.length_append, List.length_singleton, h5, Nat.sub_self, Nat.pow_zero, Nat.mul_one, digitFold_append]
        rw [h5, Nat.sub_self, Nat.pow_zero, Nat.mul_one] at h4
        rw [h4]
        simp only [digitFold, List.foldl_cons, List.foldl_nil, digit_toNat (v % 10) (by omega)]
        rw [Nat.pow_succ, Nat.mul_comm (10 ^ p) 10, Nat.mod_mul]
        omega
      · intro h; rw [h5'] at h; cases h
    · have hs' : shown = false ∧ v % 10 = 0 := by
        cases shown <;> simp_all
      obtain ⟨rfl, hv⟩ := hs'
      obtain ⟨shown', ds, h1, h2, h3, h4, h5, h6⟩ := ih (v / 10) false acc
      simp only [hs, if_false, Bool.not_eq_true] at *
      refine ⟨shown', ds, ?_, h2, by omega, ?_, fun h => by simp at h, h6⟩
      · simp [hv, h1, Nat.div_div_eq_div_mul, Nat.pow_succ, Nat.mul_comm]
      · rw [Nat.succ_sub h3, Nat.pow_succ, ← Nat.mul_assoc, h4, Nat.pow_succ, Nat.mul_comm (10 ^ p) 10, Nat.mod_mul]
        omega

/-- A number with its fraction has the value of the number of smaller units. -/
theorem unitsValue_frac {total : Nat} (v prec m : Nat) (rest : Bytes) :
    ∃ n den frac, (∀ u : Nat, u = 10 ^ prec → n * u / den = m * u + v % u) ∧
      unitsValue total 0 1 false (dec m ++ ((fmtFrac v prec).1 ++ rest)) = unitsValue total n den frac rest := by
  obtain ⟨shown, ds, h1, h2, h3, h4, -, h6⟩ := fmtFracLoop_spec prec v false []
  rw [unitsValue_dec]
  unfold fmtFrac
  simp only [h1, List.append_nil]
  cases shown with
  | true =>
    simp only [if_true, List.cons_append]
    refine ⟨digitFold m ds, 10 ^ ds.length * 1, true, ?_, ?_⟩
    · intro u hu
      subst hu
      rw [digitFold_start, Nat.mul_one, Nat.add_mul]
      have hp : 10 ^ prec = 10 ^ ds.length * 10 ^ (prec - ds.length) := by rw [← Nat.pow_add]; congr 1; omega
      have h5 : digitFold 0 ds * 10 ^ prec = 10 ^ ds.length * (v % 10 ^ prec) := by
        rw [← h4, hp, ← Nat.mul_assoc, Nat.mul_comm (digitFold 0 ds), Nat.mul_assoc]
      rw [h5, Nat.mul_comm m, Nat.mul_assoc, ← Nat.mul_add, Nat.mul_div_cancel_left _ (Nat.pow_pos (by omega))]
    · rw [unitsValue.eq_def]
      simp only
      rw [unitsValue_digits ds h2]
      rfl
  | false =>
    simp only [if_false, Bool.false_eq_true]
    have := h6 rfl
    subst this
    refine ⟨m, 1, false, ?_, rfl⟩
    intro u hu
    subst hu
    simp [digitFold] at h4
    simp [← h4]

theorem fmtFrac_rest (v prec : Nat) : (fmtFrac v prec).2 = v / 10 ^ prec := by
  obtain ⟨shown, ds, h1, -⟩ := fmtFracLoop_spec prec v false []
  unfold fmtFrac
  simp only [h1]

theorem unitsValue_s {total n den : Nat} {frac : Bool} :
    unitsValue total n den frac (str "s") = some (total + n * 1000000000 / den) := by
  rw [show str "s" = [115] from rfl, unitsValue.eq_def]
  simp [unitsValue]

theorem unitsValue_m {total n den : Nat} {frac : Bool} {c : UInt8} {t : Bytes} (hc : c ≠ 115) :
    unitsValue total n den frac (109 :: c :: t) = unitsValue (total + n * 60000000000 / den) 0 1 false (c :: t) := by
  rw [unitsValue]
  intro r h
  injection h with h _
  exact hc h

theorem unitsValue_formatted (u : Nat) : unitsValue 0 0 1 false (formatDuration u) = some u := by
  unfold formatDuration
  split
  · split
    · rename_i h; subst h; rfl
    · split
      · simp only [List.append_assoc]
        obtain ⟨n, den, frac, h, hv⟩ := unitsValue_frac (total := 0) u 0 (fmtFrac u 0).2 (str "ns")
        rw [hv, show str "ns" = [110, 115] from rfl, unitsValue.eq_def]
        have := h 1 rfl
        rw [fmtFrac_rest] at this
        simp only [unitsValue, Option.some.injEq]
        rw [Nat.mul_one] at this
        rw [this]; omega
      · split
        · simp only [List.append_assoc]
          obtain ⟨n, den, frac, h, hv⟩ := unitsValue_frac (total := 0) u 3 (fmtFrac u 3).2 (str "µs")
          rw [hv, show str "µs" = [194, 181, 115] from by decide +kernel, unitsValue.eq_def]
          have := h 1000 rfl
          rw [fmtFrac_rest] at this
          simp only [unitsValue, Option.some.injEq]
          rw [this]; omega
        · simp only [List.append_assoc]
          obtain ⟨n, den, frac, h, hv⟩ := unitsValue_frac (total := 0) u 6 (fmtFrac u 6).2 (str "ms")
          rw [hv, show str "ms" = [109, 115] from rfl, unitsValue.eq_def]
          have := h 1000000 rfl
          rw [fmtFrac_rest] at this
          simp only [unitsValue, Option.some.injEq]
          rw [this]; omega
  · have hsec : ∀ total m, unitsValue total 0 1 false (dec m ++ (fmtFrac u 9).1 ++ str "s") =
        some (total + m * 1000000000 + u % 1000000000) := by
      intro total m
      rw [List.append_assoc]
      obtain ⟨n, den, frac, h, hv⟩ := unitsValue_frac (total := total) u 9 m (str "s")
      rw [hv, unitsValue_s, h 1000000000 rfl, Nat.add_assoc]
    have hmin : ∀ total m k, unitsValue total 0 1 false (dec m ++ str "m" ++ (dec k ++ (fmtFrac u 9).1 ++ str "s")) =
        unitsValue (total + m * 60000000000) 0 1 false (dec k ++ (fmtFrac u 9).1 ++ str "s") := by
      intro total m k
      rw [List.append_assoc (dec m), unitsValue_dec, show str "m" = [109] from rfl]
      have hne : ∃ c t, dec k ++ (fmtFrac u 9).1 ++ str "s" = c :: t ∧ c ≠ 115 := by
        obtain ⟨c, t, hc⟩ := List.exists_cons_of_ne_nil (dec_ne_nil k)
        refine ⟨c, t ++ (fmtFrac u 9).1 ++ str "s", by simp [hc], ?_⟩
        have := dec_digits_toNat k c (by simp [hc])
        intro hh; subst hh; exact absurd this (by decide)
      obtain ⟨c, t, hc, hne⟩ := hne
      rw [hc, List.singleton_append, unitsValue_m hne, Nat.div_one]
    simp only [fmtFrac_rest, show (10 : Nat) ^ 9 = 1000000000 from rfl]
    split
    · split
      · rw [List.append_assoc (dec (u / 1000000000 / 60 / 60)), unitsValue_dec, show str "h" = [104] from rfl, List.singleton_append,
          unitsValue.eq_def]
        simp only
        rw [hmin, hsec]
        congr 1
        omega
      · rw [hmin, hsec]
        congr 1
        omega
    · rw [hsec]
      congr 1
      omega

theorem formatDuration_head (u : Nat) : ∀ t, formatDuration u ≠ 45 :: t := by
  have hd : ∀ n (x t : Bytes), dec n ++ x ≠ 45 :: t := by
    intro n x t h
    obtain ⟨c, r, hc⟩ := List.exists_cons_of_ne_nil (dec_ne_nil n)
    rw [hc, List.cons_append] at h
    injection h with h _
    have := dec_digits_toNat n c (by simp [hc])
    rw [h] at this
    exact absurd this (by decide)
  intro t
  unfold formatDuration
  split
  · split
    · exact fun h => by injection h with h _; exact absurd h (by decide)
    · split
      · simp only [List.append_assoc]; exact hd _ _ _
      · split <;> (simp only [List.append_assoc]; exact hd _ _ _)
  · simp only
    split
    · split <;> (simp only [List.append_assoc]; exact hd _ _ _)
    · simp only [List.append_assoc]; exact hd _ _ _

/-- A printed duration is the duration. -/
theorem durationValue_string (d : Int) : durationValue (durationString d) = some d := by
  unfold durationString
  split
  · rename_i h
    rw [durationValue, unitsValue_formatted]
    rw [Option.map_some]
    congr 1
    omega
  · rename_i h
    rw [durationValue, unitsValue_formatted]
    · rw [Option.map_some]
      congr 1
      omega
    · exact formatDuration_head _

theorem truncateMs_milliseconds (d : Int) : truncateMs d = 1000000 * milliseconds d := by
  unfold truncateMs milliseconds
  have h := Int.mul_tdiv_add_tmod d 1000000
  split
  · rename_i h0
    rw [Int.tdiv_eq_ediv_of_nonneg h0] at h
    omega
  · rename_i h0
    have h1 : (-d).tdiv 1000000 = -d / 1000000 := Int.tdiv_eq_ediv_of_nonneg (by omega)
    rw [Int.neg_tdiv] at h1
    rw [← h1]
    omega

theorem padRight_padded (w : Nat) (s : Bytes) : PaddedTo w s (padRight w s) := by
  refine ⟨w - (runes s).length, rfl, ?_⟩
  omega

theorem printNote_shows (n : Note) : ∃ line, printNote n = line ++ str "\n" ∧ ShowsNote n line := by
  refine ⟨_, rfl, ?_⟩
  refine ⟨padRight 4 (str n.formattedNote), padRight 2 (dec n.channel.toNat), padRight 3 (dec n.velocity.toNat),
    padRight 9 (durationString (truncateMs n.start)), padRight 9 (durationString (truncateMs n.end_)), durationString (truncateMs n.duration),
    dec n.channel.toNat, dec n.velocity.toNat, durationString (truncateMs n.start),
    durationString (truncateMs n.end_), ?_, padRight_padded _ _, padRight_padded _ _, dec_numeral _, padRight_padded _ _, dec_numeral _,
    padRight_padded _ _, ?_, padRight_padded _ _, ?_, ?_⟩
  · rw [hex2_spec]
  all_goals rw [durationValue_string, truncateMs_milliseconds]

/-- C87: the listing of notes has one line per note, in order, which shows channel, number, velocity and, to the millisecond, the times. -/
theorem C87_notes_listing (notes : List Note) :
    ∃ lines, printNotes notes = lines.flatMap (fun l => l ++ str "\n") ∧ List.Forall₂ ShowsNote notes lines := by
  induction notes with
  | nil => exact ⟨[], rfl, .nil⟩
  | cons n ns ih =>
    obtain ⟨lines, h1, h2⟩ := ih
    obtain ⟨line, h3, h4⟩ := printNote_shows n
    refine ⟨line :: lines, ?_, .cons h4 h2⟩
    rw [List.flatMap_cons, ← h1, ← h3]
    rfl

/-- Some durations and a note, as printed. -/
example : durationString 3723004000000 = str "1h2m3.004s" ∧ durationString (-1500000000) = str "-1.5s" ∧
    durationString 20000000 = str "20ms" ∧ durationString 0 = str "0s" ∧
    printNotes [⟨3, 60, "C3", 90, 0, 480, 0, 500000000, 500000000⟩] =
      str "C3   channel:3   note:3C  velocity:90   start:0s         end:500ms      duration:500ms\n" := by
  decide +kernel

end Midiasm
