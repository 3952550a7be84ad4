import Verif.Spec.CommandLine
import Verif.Lemmas.Basic

/-!
Reading option values and command lines.
-/

set_option linter.unusedSimpArgs false

namespace Midiasm
open Spec

/-! ### Integers -/

theorem digitOf_char {c : UInt8} {d : Nat} : digitOf c = some d ↔ DigitChar c d := by
  constructor
  · have key : ∀ c : UInt8, ((digitOf c).all fun d => decide ((d < 10 ∧ c = UInt8.ofNat (48 + d)) ∨
            (10 ≤ d ∧ d < 36 ∧ (c = UInt8.ofNat (87 + d) ∨ c = UInt8.ofNat (55 + d))))) = true := by
      apply all8; decide +kernel
    intro h
    have := key c
    rw [h, Option.all_some, decide_eq_true_eq] at this
    rcases this with ⟨h1, rfl⟩ | ⟨h1, h2, rfl | rfl⟩
    · exact .digit d h1
    · exact .lower d h1 h2
    · exact .upper d h1 h2
  · have k1 : ∀ d, d < 10 → digitOf (UInt8.ofNat (48 + d)) = some d := by decide +kernel
    have k2 : ∀ d, d < 36 → 10 ≤ d → digitOf (UInt8.ofNat (87 + d)) = some d := by decide +kernel
    have k3 : ∀ d, d < 36 → 10 ≤ d → digitOf (UInt8.ofNat (55 + d)) = some d := by decide +kernel
    rintro (⟨_, h⟩ | ⟨_, h1, h2⟩ | ⟨_, h1, h2⟩)
    · exact k1 _ h
    · exact k2 _ h2 h1
    · exact k3 _ h2 h1

theorem digitOf_underscore : digitOf 95 = none := by decide

/-- What counts as a digit for the placement of underscores. -/
def placeDigit (hex : Bool) (c : UInt8) : Bool := (48 ≤ c && c ≤ 57) || (hex && 97 ≤ lowerBit c && lowerBit c ≤ 102)

theorem placeDigit_of {hex : Bool} {base : Nat} (hb : base ≤ 10 ∨ (base = 16 ∧ hex = true)) {c : UInt8} {d : Nat}
    (h : digitOf c = some d) (hd : d < base) : placeDigit hex c = true := by
  have k1 : ∀ c : UInt8, ((digitOf c).all fun d => decide (d < 10 → placeDigit false c = true)) = true := by
    apply all8; decide +kernel
  have k2 : ∀ c : UInt8, ((digitOf c).all fun d => decide (d < 16 → placeDigit true c = true)) = true := by
    apply all8; decide +kernel
  have h1 := k1 c
  have h2 := k2 c
  rw [h, Option.all_some, decide_eq_true_eq] at h1 h2
  cases hex
  · rcases hb with hb | ⟨_, hb⟩
    · exact h1 (by omega)
    · cases hb
  · exact h2 (by omega)

theorem underscoreLoop_digit (hex : Bool) (prev c : UInt8) (rest : Bytes) (h : placeDigit hex c = true) :
    underscoreLoop hex prev (c :: rest) = underscoreLoop hex 48 rest := by
  rw [underscoreLoop]
  rw [placeDigit] at h
  simp only [h, if_true]

theorem placeDigit_underscore (hex : Bool) : placeDigit hex 95 = false := by cases hex <;> decide

theorem underscoreLoop_underscore (hex : Bool) (prev : UInt8) (rest : Bytes) :
    underscoreLoop hex prev (95 :: rest) = (if prev != 48 then false else underscoreLoop hex 95 rest) := by
  have h := placeDigit_underscore hex
  rw [placeDigit] at h
  rw [underscoreLoop]
  simp only [h, Bool.false_eq_true, if_false, if_true]

/-- The value of digits after a number. -/
def digitsFrom (base n : Nat) (ds : List Nat) : Nat := ds.foldl (fun n d => n * base + d) n

theorem digitsFrom_ge (base : Nat) (hb : 1 ≤ base) : ∀ (ds : List Nat) (n : Nat), n ≤ digitsFrom base n ds
  | [], n => Nat.le_refl n
  | d :: ds, n => by
      have := digitsFrom_ge base hb ds (n * base + d)
      have h2 : n ≤ n * base := Nat.le_mul_of_pos_right n hb
      rw [digitsFrom, List.foldl_cons]
      rw [digitsFrom] at this
      omega

/-- A text of digits is read. -/
theorem digitsLoop_text {base : Nat} (hb : 1 ≤ base) {s : Bytes} {ds : List Nat} (h : DigitText base s ds) :
    ∀ n, digitsFrom base n ds < 2 ^ 64 → digitsLoop base n s = some (digitsFrom base n ds) := by
  have step : ∀ c d n s ds, DigitChar c d → d < base → digitsFrom base (n * base + d) ds < 2 ^ 64 →
      digitsLoop base n (c :: s) = digitsLoop base (n * base + d) s := by
    intro c d n s ds hc hd hv
    have hge := digitsFrom_ge base hb ds (n * base + d)
    have hdig := digitOf_char.mpr hc
    have hne : c ≠ 95 := by rintro rfl; rw [digitOf_underscore] at hdig; cases hdig
    rw [digitsLoop]
    rw [if_neg hne, hdig]
    simp only
    rw [if_neg (by omega), if_neg (by omega)]
  induction h with
  | one c d hc hd =>
    intro n hv
    rw [step c d n [] [] hc hd hv]
    rfl
  | more c d s ds hc hd _ ih =>
    intro n hv
    rw [step c d n s ds hc hd hv, ih _ hv]
    rfl
  | group c d s ds hc hd _ ih =>
    intro n hv
    rw [step c d n (95 :: s) ds hc hd hv, digitsLoop, if_pos rfl, ih _ hv]
    rfl

/-- Underscores between digits are accepted. -/
theorem underscoreLoop_text {hex : Bool} {base : Nat} (hb : base ≤ 10 ∨ (base = 16 ∧ hex = true)) {s : Bytes} {ds : List Nat}
    (h : DigitText base s ds) : ∀ prev, underscoreLoop hex prev s = true := by
  induction h with
  | one c d hc hd =>
    intro prev
    rw [underscoreLoop_digit _ _ _ _ (placeDigit_of hb (digitOf_char.mpr hc) hd)]; rfl
  | more c d s ds hc hd _ ih =>
    intro prev
    rw [underscoreLoop_digit _ _ _ _ (placeDigit_of hb (digitOf_char.mpr hc) hd)]
    exact ih _
  | group c d s ds hc hd _ ih =>
    intro prev
    rw [underscoreLoop_digit _ _ _ _ (placeDigit_of hb (digitOf_char.mpr hc) hd), underscoreLoop_underscore]
    exact ih _

/-- What was read is a text of digits. -/
theorem digitsLoop_sound {hex : Bool} {base : Nat} (hb : base ≤ 10 ∨ (base = 16 ∧ hex = true)) :
    ∀ (s : Bytes) (n v : Nat) (prev : UInt8), digitsLoop base n s = some v → n < 2 ^ 64 → underscoreLoop hex prev s = true →
      (prev = 95 → ∃ ds, DigitText base s ds ∧ v = digitsFrom base n ds) ∧
      (prev = 94 → (s = [] ∧ v = n) ∨ ∃ ds, DigitText base s ds ∧ v = digitsFrom base n ds) ∧
      (prev = 48 → (s = [] ∧ v = n) ∨ (∃ ds, DigitText base s ds ∧ v = digitsFrom base n ds) ∨
        ∃ t ds, s = 95 :: t ∧ DigitText base t ds ∧ v = digitsFrom base n ds) ∧ v < 2 ^ 64
  | [], n, v, prev, h, hn, hu => by
      rw [digitsLoop] at h
      cases h
      refine ⟨?_, fun _ => Or.inl ⟨rfl, rfl⟩, fun _ => Or.inl ⟨rfl, rfl⟩, hn⟩
      rintro rfl
      simp [underscoreLoop] at hu
  | c :: s, n, v, prev, h, hn, hu => by
      by_cases hc : c = 95
      · subst hc
        rw [underscoreLoop_underscore] at hu
        rw [digitsLoop, if_pos rfl] at h
        by_cases hp : prev = 48
        · subst hp
          have ih := digitsLoop_sound hb s n v 95 h hn (by simpa using hu)
          refine ⟨fun h => absurd h (by decide), fun h => absurd h (by decide), fun _ => ?_, ih.2.2.2⟩
          obtain ⟨ds, h1, h2⟩ := ih.1 rfl
          exact Or.inr (Or.inr ⟨s, ds, rfl, h1, h2⟩)
        · simp [hp] at hu
      · rw [digitsLoop, if_neg hc] at h
        cases hd : digitOf c with
        | none => simp [hd] at h
        | some d =>
          simp only [hd] at h
          split at h
          · cases h
          · rename_i hlt
            split at h
            · cases h
            · rename_i hle
              have hlt : d < base := by omega
              rw [underscoreLoop_digit _ _ _ _ (placeDigit_of hb hd hlt)] at hu
              have ih := digitsLoop_sound hb s (n * base + d) v 48 h (by omega) hu
              have hch := digitOf_char.mp hd
              have main : ∃ ds, DigitText base (c :: s) ds ∧ v = digitsFrom base n ds := by
                rcases ih.2.2.1 rfl with ⟨rfl, h2⟩ | ⟨ds, h1, h2⟩ | ⟨t, ds, rfl, h1, h2⟩
                · exact ⟨[d], .one c d hch hlt, h2⟩
                · exact ⟨d :: ds, .more c d s ds hch hlt h1, h2⟩
                · exact ⟨d :: ds, .group c d t ds hch hlt h1, h2⟩
              exact ⟨fun _ => main, fun _ => Or.inr main, fun _ => Or.inr (Or.inl main), ih.2.2.2⟩

/-- Without underscores their placement is right. -/
theorem underscoreLoop_none {hex : Bool} {base : Nat} (hb : base ≤ 10 ∨ (base = 16 ∧ hex = true)) :
    ∀ (s : Bytes) (n v : Nat) (prev : UInt8), digitsLoop base n s = some v → prev ≠ 95 → 95 ∉ s → underscoreLoop hex prev s = true
  | [], _, _, prev, _, hp, _ => by simp [underscoreLoop, hp]
  | c :: s, n, v, prev, h, hp, hs => by
      have hc : c ≠ 95 := fun h => hs (by simp [h])
      rw [digitsLoop, if_neg hc] at h
      cases hd : digitOf c with
      | none => simp [hd] at h
      | some d =>
        simp only [hd] at h
        split at h
        · cases h
        · split at h
          · cases h
          · rename_i hlt _
            rw [underscoreLoop_digit _ _ _ _ (placeDigit_of hb hd (by omega))]
            exact underscoreLoop_none hb s _ v 48 h (by decide) (fun h => hs (by simp [h]))

theorem lowerBit_letter {c : UInt8} {base : Nat} : BaseLetter c base ↔
    (lowerBit c = 98 ∧ base = 2) ∨ (lowerBit c = 111 ∧ base = 8) ∨ (lowerBit c = 120 ∧ base = 16) := by
  have key : ∀ c : UInt8, (lowerBit c = 98 → c = 98 ∨ c = 66) ∧ (lowerBit c = 111 → c = 111 ∨ c = 79) ∧
      (lowerBit c = 120 → c = 120 ∨ c = 88) := by apply all8; decide +kernel
  constructor
  · rintro (_ | _ | _ | _ | _ | _) <;> decide
  · rintro (⟨h, rfl⟩ | ⟨h, rfl⟩ | ⟨h, rfl⟩)
    · rcases (key c).1 h with rfl | rfl
      · exact .b
      · exact .B
    · rcases (key c).2.1 h with rfl | rfl
      · exact .o
      · exact .O
    · rcases (key c).2.2 h with rfl | rfl
      · exact .x
      · exact .X

theorem digitText_ne_nil {base : Nat} {s : Bytes} {ds : List Nat} (h : DigitText base s ds) : s ≠ [] := by cases h <;> simp

theorem digitText_head {base : Nat} (hb : base ≤ 10) {s : Bytes} {ds : List Nat} (h : DigitText base s ds) :
    ∃ c t, s = c :: t ∧ 48 ≤ c ∧ c ≤ 57 := by
  have key : ∀ d, d < 10 → 48 ≤ UInt8.ofNat (48 + d) ∧ UInt8.ofNat (48 + d) ≤ 57 := by decide
  have dig : ∀ c d, DigitChar c d → d < base → 48 ≤ c ∧ c ≤ 57 := by
    intro c d h hd
    cases h with
    | digit d h => exact key d h
    | lower d h _ => omega
    | upper d h _ => omega
  cases h with
  | one c d hc hd => exact ⟨c, [], rfl, dig c d hc hd⟩
  | more c d s ds hc hd _ => exact ⟨c, s, rfl, dig c d hc hd⟩
  | group c d s ds hc hd _ => exact ⟨c, _, rfl, dig c d hc hd⟩

/-- Not a base prefix. -/
theorem digit_not_letter {c : UInt8} (h : (48 ≤ c ∧ c ≤ 57) ∨ c = 95) : lowerBit c ≠ 98 ∧ lowerBit c ≠ 111 ∧ lowerBit c ≠ 120 := by
  have key : ∀ c : UInt8, ((48 ≤ c ∧ c ≤ 57) ∨ c = 95) → lowerBit c ≠ 98 ∧ lowerBit c ≠ 111 ∧ lowerBit c ≠ 120 := by
    apply all8; decide +kernel
  exact key c h

theorem underscoreOK_plain {s : Bytes} (h : s.head? ≠ some 48) : underscoreOK s = underscoreLoop false 94 s := by
  rw [underscoreOK.eq_def]
  split
  · simp at h
  · rfl

theorem underscoreOK_octal {t : Bytes} (h : ∀ c u, t = c :: u → lowerBit c ≠ 98 ∧ lowerBit c ≠ 111 ∧ lowerBit c ≠ 120) :
    underscoreOK (48 :: t) = underscoreLoop false 94 (48 :: t) := by
  cases t with
  | nil => rfl
  | cons c u =>
    obtain ⟨h1, h2, h3⟩ := h c u rfl
    simp [underscoreOK, h1, h2, h3]

theorem underscoreOK_based {c : UInt8} {base : Nat} {t : Bytes} (h : BaseLetter c base) :
    underscoreOK (48 :: c :: t) = underscoreLoop (base = 16) 48 t := by
  rcases lowerBit_letter.mp h with ⟨h1, rfl⟩ | ⟨h1, rfl⟩ | ⟨h1, rfl⟩ <;> simp [underscoreOK, h1]

/-- The digits after a base prefix. -/
theorem parseUint_based {c : UInt8} {base : Nat} {t : Bytes} (h : BaseLetter c base) (ht : t ≠ []) :
    parseUintPrefixed (48 :: c :: t) =
      if t.contains 95 && !underscoreLoop (base = 16) 48 t then none else digitsLoop base 0 t := by
  have hc : c ≠ 95 := by cases h <;> decide
  have e : (48 :: c :: t).contains 95 = t.contains 95 := by
    have : (95 : UInt8) ≠ c := fun h => hc h.symm
    simp [List.contains_cons, this]
  rw [parseUintPrefixed.eq_def]
  simp only [underscoreOK_based h, e]
  cases t with
  | nil => cases ht rfl
  | cons d ds => rcases lowerBit_letter.mp h with ⟨h1, rfl⟩ | ⟨h1, rfl⟩ | ⟨h1, rfl⟩ <;> simp [h1]

theorem parseUint_decimal {s : Bytes} (hs : s ≠ []) (h : s.head? ≠ some 48) :
    parseUintPrefixed s = if s.contains 95 && !underscoreLoop false 94 s then none else digitsLoop 10 0 s := by
  rw [parseUintPrefixed.eq_def]
  simp only [underscoreOK_plain h]
  cases s with
  | nil => cases hs rfl
  | cons c t =>
    have hc : c ≠ 48 := by simpa using h
    split
    · rfl
    · split
      · rename_i heq; cases heq
      · rename_i heq; cases heq; cases hc rfl
      · rfl

theorem parseUint_octal {t : Bytes} (h : ∀ c u, t = c :: u → u ≠ [] → lowerBit c ≠ 98 ∧ lowerBit c ≠ 111 ∧ lowerBit c ≠ 120) :
    parseUintPrefixed (48 :: t) = if (48 :: t).contains 95 && !underscoreOK (48 :: t) then none else digitsLoop 8 0 t := by
  rw [parseUintPrefixed.eq_def]
  simp only
  split
  · rfl
  · cases t with
    | nil => rfl
    | cons c u =>
      cases u with
      | nil => rfl
      | cons d ds =>
        obtain ⟨h1, h2, h3⟩ := h c _ rfl (by simp)
        simp [h1, h2, h3]

theorem digitsLoop_zero (s : Bytes) : digitsLoop 8 0 (48 :: s) = digitsLoop 8 0 s := by
  rw [digitsLoop]
  simp [digitOf]

/-- Accepted underscores or none at all. -/
theorem underscores_placed {hex : Bool} {base : Nat} (hb : base ≤ 10 ∨ (base = 16 ∧ hex = true)) {s : Bytes} {v : Nat} {prev : UInt8}
    (hp : prev ≠ 95) (h : (if s.contains 95 && !underscoreLoop hex prev s then none else digitsLoop base 0 s) = some v) :
    digitsLoop base 0 s = some v ∧ underscoreLoop hex prev s = true := by
  by_cases hc : (s.contains 95 && !underscoreLoop hex prev s) = true
  · rw [if_pos hc] at h; cases h
  · rw [if_neg hc] at h
    refine ⟨h, ?_⟩
    by_cases h95 : s.contains 95 = true
    · simpa only [h95, Bool.true_and, Bool.not_eq_true', Bool.not_eq_false] using hc
    · exact underscoreLoop_none hb s 0 v prev h hp (by simpa using h95)

/-- Unsigned integers are read exactly. -/
theorem parseUint_iff (s : Bytes) (v : Nat) : parseUintPrefixed s = some v ↔ UnsignedText s v ∧ v < 2 ^ 64 := by
  constructor
  · intro h
    cases s with
    | nil => simp [parseUintPrefixed] at h
    | cons c t =>
      by_cases hc : c = 48
      · subst hc
        by_cases hb : ∃ d u base, t = d :: u ∧ u ≠ [] ∧ BaseLetter d base
        · obtain ⟨d, u, base, rfl, hu, hl⟩ := hb
          rw [parseUint_based hl hu] at h
          have hbase : base ≤ 10 ∨ (base = 16 ∧ (decide (base = 16)) = true) := by cases hl <;> simp
          obtain ⟨h1, h2⟩ := underscores_placed hbase (by decide) h
          obtain ⟨-, -, h3, h4⟩ := digitsLoop_sound hbase u 0 v 48 h1 (by decide) h2
          refine ⟨?_, h4⟩
          rcases h3 rfl with ⟨rfl, -⟩ | ⟨ds, h5, rfl⟩ | ⟨w, ds, rfl, h5, rfl⟩
          · cases hu rfl
          · exact .based d base u ds hl h5
          · exact .basedGroup d base w ds hl h5
        · have hn : ∀ c u, t = c :: u → u ≠ [] → lowerBit c ≠ 98 ∧ lowerBit c ≠ 111 ∧ lowerBit c ≠ 120 := by
            intro c u ht hu
            refine ⟨fun h => hb ⟨c, u, 2, ht, hu, ?_⟩, fun h => hb ⟨c, u, 8, ht, hu, ?_⟩, fun h => hb ⟨c, u, 16, ht, hu, ?_⟩⟩ <;>
              simp [lowerBit_letter, h]
          rw [parseUint_octal hn] at h
          have hn' : ∀ c u, t = c :: u → lowerBit c ≠ 98 ∧ lowerBit c ≠ 111 ∧ lowerBit c ≠ 120 := by
            rintro c u rfl
            by_cases hu : u = []
            · subst hu
              have hd : digitsLoop 8 0 [c] = some v := by
                split at h
                · cases h
                · exact h
              rw [digitsLoop] at hd
              apply digit_not_letter
              by_cases h95 : c = 95
              · exact Or.inr h95
              · rw [if_neg h95] at hd
                cases hdig : digitOf c with
                | none => simp [hdig] at hd
                | some d =>
                  simp only [hdig] at hd
                  by_cases hd8 : 8 ≤ d
                  · simp [hd8] at hd
                  · have := digitText_head (base := 8) (by omega) (.one c d (digitOf_char.mp hdig) (by omega))
                    obtain ⟨c', t', e, hcc⟩ := this
                    cases e
                    exact Or.inl hcc
            · exact hn c u rfl hu
          rw [underscoreOK_octal hn', ← digitsLoop_zero] at h
          obtain ⟨h1, h2⟩ := underscores_placed (base := 8) (hex := false) (by decide) (by decide) h
          obtain ⟨-, h3, -, h4⟩ := digitsLoop_sound (base := 8) (hex := false) (by decide) (48 :: t) 0 v 94 h1 (by decide) h2
          refine ⟨?_, h4⟩
          rcases h3 rfl with ⟨h5, -⟩ | ⟨ds, h5, rfl⟩
          · cases h5
          · exact .octal _ ds rfl h5
      · have hh : (c :: t).head? ≠ some 48 := by simpa using hc
        rw [parseUint_decimal (by simp) hh] at h
        obtain ⟨h1, h2⟩ := underscores_placed (base := 10) (hex := false) (by decide) (by decide) h
        obtain ⟨-, h3, -, h4⟩ := digitsLoop_sound (base := 10) (hex := false) (by decide) (c :: t) 0 v 94 h1 (by decide) h2
        refine ⟨?_, h4⟩
        rcases h3 rfl with ⟨h5, -⟩ | ⟨ds, h5, rfl⟩
        · cases h5
        · exact .decimal _ ds hh h5
  · rintro ⟨h, hv⟩
    cases h with
    | decimal s ds hh hd =>
      rw [parseUint_decimal (digitText_ne_nil hd) hh, underscoreLoop_text (hex := false) (base := 10) (by decide) hd]
      simpa [digitsFrom, Spec.digitsValue] using digitsLoop_text (by decide) hd 0 hv
    | octal s ds hh hd =>
      obtain ⟨t, rfl⟩ : ∃ t, s = 48 :: t := by
        cases s with
        | nil => simp at hh
        | cons c t => simp only [List.head?_cons, Option.some.injEq] at hh; exact ⟨t, by rw [hh]⟩
      have hn : ∀ c u, t = c :: u → lowerBit c ≠ 98 ∧ lowerBit c ≠ 111 ∧ lowerBit c ≠ 120 := by
        rintro c u rfl
        apply digit_not_letter
        cases hd with
        | more c d s ds hc hlt h =>
          obtain ⟨c', t', e, hcc⟩ := digitText_head (base := 8) (by omega) h
          cases e
          exact Or.inl hcc
        | group c d s ds hc hlt h => exact Or.inr rfl
      rw [parseUint_octal (fun c u h _ => hn c u h), underscoreOK_octal hn,
        underscoreLoop_text (hex := false) (base := 8) (by decide) hd, ← digitsLoop_zero]
      simpa [digitsFrom, Spec.digitsValue] using digitsLoop_text (by decide) hd 0 hv
    | based c base s ds hl hd =>
      have hbase : base ≤ 10 ∨ (base = 16 ∧ (decide (base = 16)) = true) := by cases hl <;> simp
      have h1 : 1 ≤ base := by cases hl <;> decide
      rw [parseUint_based hl (digitText_ne_nil hd), underscoreLoop_text hbase hd]
      simpa [digitsFrom, Spec.digitsValue] using digitsLoop_text h1 hd 0 hv
    | basedGroup c base s ds hl hd =>
      have hbase : base ≤ 10 ∨ (base = 16 ∧ (decide (base = 16)) = true) := by cases hl <;> simp
      have h1 : 1 ≤ base := by cases hl <;> decide
      rw [parseUint_based hl (by simp), underscoreLoop_underscore, underscoreLoop_text hbase hd, digitsLoop, if_pos rfl]
      simpa [digitsFrom, Spec.digitsValue] using digitsLoop_text h1 hd 0 hv

/-- Integers are read exactly. -/
theorem parseInt_iff (s : Bytes) (v : Int) :
    parseIntFlag s = some v ↔ IntegerText s v ∧ -9223372036854775808 ≤ v ∧ v < 9223372036854775808 := by
  have nosign : ∀ n, UnsignedText s n → s.head? ≠ some 43 ∧ s.head? ≠ some 45 := by
    have digitHead : ∀ base u ds, base ≤ 10 → DigitText base u ds → u.head? ≠ some 43 ∧ u.head? ≠ some 45 := by
      intro base u ds hb h
      obtain ⟨c, t, rfl, h1, h2⟩ := digitText_head hb h
      constructor <;> intro hh <;> simp only [List.head?_cons, Option.some.injEq] at hh <;> subst hh <;> revert h1 <;> decide
    intro n h
    cases h with
    | decimal s ds _ h => exact digitHead 10 _ ds (by decide) h
    | octal s ds _ h => exact digitHead 8 _ ds (by decide) h
    | based => simp
    | basedGroup => simp
  have pos : ∀ t, parseSigned false t = some v ↔ ∃ n : Nat, UnsignedText t n ∧ v = n ∧ n < 9223372036854775808 := by
    intro t
    rw [parseSigned]
    cases hp : parseUintPrefixed t with
    | none =>
      simp only [reduceCtorEq, false_iff, not_exists]
      rintro n ⟨h1, -, h2⟩
      have := (parseUint_iff t n).mpr ⟨h1, by omega⟩
      rw [hp] at this
      cases this
    | some n =>
      obtain ⟨hu, hlt⟩ := (parseUint_iff t n).mp hp
      simp only [Bool.not_false, Bool.true_and, Bool.false_and, Bool.false_eq_true, if_false, decide_eq_true_eq]
      constructor
      · intro h
        split at h
        · cases h
        · cases h
          exact ⟨n, hu, rfl, by omega⟩
      · rintro ⟨m, h1, rfl, h2⟩
        have := (parseUint_iff t m).mpr ⟨h1, by omega⟩
        rw [hp] at this
        cases this
        rw [if_neg (by omega)]
  have neg : ∀ t, parseSigned true t = some v ↔ ∃ n : Nat, UnsignedText t n ∧ v = -(n : Int) ∧ n ≤ 9223372036854775808 := by
    intro t
    rw [parseSigned]
    cases hp : parseUintPrefixed t with
    | none =>
      simp only [reduceCtorEq, false_iff, not_exists]
      rintro n ⟨h1, -, h2⟩
      have := (parseUint_iff t n).mpr ⟨h1, by omega⟩
      rw [hp] at this
      cases this
    | some n =>
      obtain ⟨hu, hlt⟩ := (parseUint_iff t n).mp hp
      simp only [Bool.not_true, Bool.true_and, Bool.false_and, Bool.false_eq_true, if_false, if_true, decide_eq_true_eq]
      constructor
      · intro h
        split at h
        · cases h
        · cases h
          exact ⟨n, hu, rfl, by omega⟩
      · rintro ⟨m, h1, rfl, h2⟩
        have := (parseUint_iff t m).mpr ⟨h1, by omega⟩
        rw [hp] at this
        cases this
        rw [if_neg (by omega)]
  rw [parseIntFlag.eq_def]
  split
  · rename_i rest
    rw [pos]
    constructor
    · rintro ⟨n, h1, rfl, h2⟩
      exact ⟨.plus _ n h1, by omega, by omega⟩
    · rintro ⟨h, h1, h2⟩
      cases h with
      | plain _ n h => exact absurd rfl (nosign n h).1
      | plus _ n h => exact ⟨n, h, rfl, by omega⟩
  · rename_i rest
    rw [neg]
    constructor
    · rintro ⟨n, h1, rfl, h2⟩
      exact ⟨.minus _ n h1, by omega, by omega⟩
    · rintro ⟨h, h1, h2⟩
      cases h with
      | plain _ n h => exact absurd rfl (nosign n h).2
      | minus _ n h => exact ⟨n, h, rfl, by omega⟩
  · rename_i n1 n2
    rw [pos]
    constructor
    · rintro ⟨n, h1, rfl, h2⟩
      exact ⟨.plain _ n h1, by omega, by omega⟩
    · rintro ⟨h, h1, h2⟩
      cases h with
      | plain _ n h => exact ⟨n, h, rfl, by omega⟩
      | plus _ n h => exact absurd rfl (n1 _)
      | minus _ n h => exact absurd rfl (n2 _)

/-- The value of an option is read exactly. -/
theorem setFlag_iff (kind : FlagKind) (s : Bytes) (x : FlagValue) : setFlag kind s = some x ↔ OptionText kind s x := by
  constructor
  · intro h
    cases kind with
    | string => cases h; exact .string s
    | int =>
      simp only [setFlag, Option.map_eq_some_iff] at h
      obtain ⟨n, h, rfl⟩ := h
      obtain ⟨h1, h2, h3⟩ := (parseInt_iff s n).mp h
      exact .int s n h1 h2 h3
    | bool =>
      simp only [setFlag, Option.map_eq_some_iff] at h
      obtain ⟨b, h, rfl⟩ := h
      rw [parseBool] at h
      split at h
      · rename_i hm
        cases h
        simp only [List.mem_cons, List.not_mem_nil, or_false] at hm
        rcases hm with rfl | rfl | rfl | rfl | rfl | rfl <;> exact .yes _ (by decide)
      · split at h
        · rename_i hm
          cases h
          simp only [List.mem_cons, List.not_mem_nil, or_false] at hm
          rcases hm with rfl | rfl | rfl | rfl | rfl | rfl <;> exact .no _ (by decide)
        · cases h
  · intro h
    cases h with
    | string => rfl
    | int _ n h1 h2 h3 => simp [setFlag, (parseInt_iff s n).mpr ⟨h1, h2, h3⟩]
    | yes s hm =>
      simp only [List.mem_cons, List.not_mem_nil, or_false] at hm
      rcases hm with rfl | rfl | rfl | rfl | rfl | rfl <;> decide +kernel
    | no s hm =>
      simp only [List.mem_cons, List.not_mem_nil, or_false] at hm
      rcases hm with rfl | rfl | rfl | rfl | rfl | rfl <;> decide +kernel

end Midiasm
