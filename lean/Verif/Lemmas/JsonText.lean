import Verif.Model.JsonText
import Verif.Spec.JsonText
import Verif.Lemmas.Text

/-!
The reader of JSON texts reads what the grammar describes.
-/

set_option linter.unusedSimpArgs false

namespace Midiasm
open Spec

/-! ### White space -/

theorem jsonSpace_iff (c : UInt8) : jsonSpace c = true ↔ c ∈ ([32, 9, 10, 13] : Bytes) := by
  simp [jsonSpace, or_assoc]

theorem skipSpace_append {w : Bytes} (h : Space w) (s : Bytes) : skipSpace (w ++ s) = skipSpace s := by
  unfold skipSpace
  rw [List.dropWhile_append_of_pos]
  intro c hc
  exact (jsonSpace_iff c).mpr (h c hc)

theorem skipSpace_cons {c : UInt8} (h : jsonSpace c = false) (s : Bytes) : skipSpace (c :: s) = c :: s := by
  unfold skipSpace
  rw [List.dropWhile_cons_of_neg (by simp [h])]

/-! ### Strings -/

theorem hexNat_digit {c : UInt8} {v : Nat} (h : HexDigit c v) : hexNat c = some v := by
  obtain ⟨x, h1, h2, -⟩ := (hexValue_spec c v).mp h
  simp [hexNat, h1, h2]

theorem readHex4_text {n : Nat} {h : Bytes} (hh : Hex4 n h) (rest : Bytes) : readHex4 (h ++ rest) = some (n, rest) := by
  obtain ⟨a, b, c, d, rfl, hn, ha, hb, hc, hd⟩ := hh
  simp only [List.cons_append, List.nil_append, readHex4, hexNat_digit ha, hexNat_digit hb, hexNat_digit hc, hexNat_digit hd, Option.bind_eq_bind,
    Option.bind_some]
  congr 2
  omega

theorem readUnicode_plain {r : Nat} {h : Bytes} (hr : Scalar r) (hh : Hex4 r h) (rest : Bytes) : readUnicode (h ++ rest) = some (r, rest) := by
  unfold readUnicode
  rw [readHex4_text hh]
  simp only [Option.bind_eq_bind, Option.bind_some]
  rw [if_neg]
  unfold Scalar at hr
  omega

theorem readUnicode_two {u v : Nat} {h l : Bytes} (a1 : 0xd800 ≤ u ∧ u < 0xe000) (a2 : u < 0xdc00 ∧ 0xdc00 ≤ v ∧ v < 0xe000) (hh : Hex4 u h)
    (hl : Hex4 v l) (rest : Bytes) :
    readUnicode (h ++ str "\\u" ++ l ++ rest) = some ((u - 0xd800) * 1024 + (v - 0xdc00) + 0x10000, rest) := by
  unfold readUnicode
  rw [List.append_assoc, List.append_assoc, readHex4_text hh]
  simp only [Option.bind_eq_bind, Option.bind_some, show str "\\u" = [92, 117] from rfl, List.cons_append, List.nil_append]
  rw [if_pos a1, readHex4_text hl]
  simp only
  rw [if_pos a2]

theorem readUnicode_pair {r : Nat} {h l : Bytes} (h0 : 0x10000 ≤ r) (h1 : r < 0x110000) (hh : Hex4 (0xd800 + (r - 0x10000) / 1024) h)
    (hl : Hex4 (0xdc00 + (r - 0x10000) % 1024) l) (rest : Bytes) : readUnicode (h ++ str "\\u" ++ l ++ rest) = some (r, rest) := by
  generalize hu : 0xd800 + (r - 0x10000) / 1024 = u at hh
  generalize hv : 0xdc00 + (r - 0x10000) % 1024 = v at hl
  rw [readUnicode_two (by omega) (by omega) hh hl]
  have : (u - 0xd800) * 1024 + (v - 0xdc00) + 0x10000 = r := by omega
  rw [this]

theorem utf8_head {c : Char} (h1 : 32 ≤ c.val.toNat) (h2 : c.val.toNat ≠ 34) (h3 : c.val.toNat ≠ 92) :
    ∃ b t, String.utf8EncodeChar c = b :: t ∧ b ≠ 34 ∧ b ≠ 92 ∧ ¬ b < 32 := by
  rw [← encodeRune_char]
  generalize c.val.toNat = r at *
  unfold encodeRune
  have hof : ∀ n, n < 256 → (UInt8.ofNat n).toNat = n := by intro n h; simp; omega
  split
  · refine ⟨_, _, rfl, ?_, ?_, ?_⟩
    all_goals simp only [ne_eq, ← UInt8.toNat_inj, UInt8.lt_iff_toNat_lt, hof r (by omega)]
    all_goals simp
    all_goals omega
  split
  · refine ⟨_, _, rfl, ?_, ?_, ?_⟩
    all_goals simp only [ne_eq, ← UInt8.toNat_inj, UInt8.lt_iff_toNat_lt, hof (r / 64 % 32 + 192) (by omega)]
    all_goals simp
  split
  · refine ⟨_, _, rfl, ?_, ?_, ?_⟩
    all_goals simp only [ne_eq, ← UInt8.toNat_inj, UInt8.lt_iff_toNat_lt, hof (r / 4096 % 16 + 224) (by omega)]
    all_goals simp
  · refine ⟨_, _, rfl, ?_, ?_, ?_⟩
    all_goals simp only [ne_eq, ← UInt8.toNat_inj, UInt8.lt_iff_toNat_lt, hof (r / 262144 % 8 + 240) (by omega)]
    all_goals simp

/-- One character is read. -/
theorem readChar_text {r : Nat} {a : Bytes} (h : CharText r a) (rest : Bytes) :
    readChar (a ++ rest) = some (r, rest) ∧ ∃ b t, a = b :: t ∧ b ≠ 34 := by
  rcases h with ⟨c, rfl, rfl, h1, h2, h3⟩ | h | ⟨hr, h, rfl, hh⟩ | ⟨h0, h1, h, l, rfl, hh, hl⟩
  · obtain ⟨b, t, hb, b1, b2, b3⟩ := utf8_head h1 h2 h3
    refine ⟨?_, b, t, hb, b1⟩
    obtain ⟨b', t', hb', hd⟩ := decode_encode c.val.toNat (char_scalar c) rest
    rw [encodeRune_char, hb] at hb'
    injection hb' with e1 e2
    subst e1; subst e2
    rw [hb, List.cons_append]
    unfold readChar
    simp only [if_neg b2, if_neg b3, hd]
    simp
  · simp only [List.mem_cons, Prod.mk.injEq, List.not_mem_nil, or_false] at h
    rcases h with ⟨rfl, rfl⟩ | ⟨rfl, rfl⟩ | ⟨rfl, rfl⟩ | ⟨rfl, rfl⟩ | ⟨rfl, rfl⟩ | ⟨rfl, rfl⟩ | ⟨rfl, rfl⟩ | ⟨rfl, rfl⟩ <;>
      exact ⟨rfl, 92, _, rfl, by decide⟩
  · refine ⟨?_, 92, _, rfl, by decide⟩
    rw [List.append_assoc]
    show readUnicode (h ++ rest) = _
    exact readUnicode_plain hr hh rest
  · refine ⟨?_, 92, _, rfl, by decide⟩
    simp only [List.append_assoc]
    show readUnicode (h ++ (str "\\u" ++ (l ++ rest))) = _
    have := readUnicode_pair h0 h1 hh hl rest
    simp only [List.append_assoc] at this
    exact this

theorem readStringLoop_text (rs : List Nat) : ∀ (t : Bytes) (fuel : Nat) (rest : Bytes), Chars rs t → t.length < fuel →
    readStringLoop fuel (t ++ 34 :: rest) = some (rs, rest) := by
  induction rs with
  | nil =>
    intro t fuel rest h hf
    obtain rfl : t = [] := h
    obtain ⟨f, rfl⟩ : ∃ f, fuel = f + 1 := ⟨fuel - 1, by omega⟩
    rfl
  | cons r rs ih =>
    intro t fuel rest h hf
    obtain ⟨a, t, rfl, ha, ht⟩ := h
    obtain ⟨f, rfl⟩ : ∃ f, fuel = f + 1 := ⟨fuel - 1, by omega⟩
    obtain ⟨h1, b, u, rfl, hb⟩ := readChar_text ha (t ++ 34 :: rest)
    simp only [List.length_append, List.length_cons] at hf
    rw [List.append_assoc, readStringLoop]
    · rw [h1]
      simp only [Option.bind_eq_bind, Option.bind_some]
      rw [ih t f rest ht (by omega)]
      rfl
    · intro x h
      injection h with h2 _
      exact hb h2

/-- Strings of `C` are read, whatever follows. -/
def Readable (C : List Nat → Bytes → Prop) : Prop :=
  ∀ (rs : List Nat) (s rest : Bytes), StringText C rs s → readString (s ++ rest) = some (rs, rest)

theorem chars_readable : Readable Chars := by
  rintro rs s rest ⟨t, rfl, ht⟩
  simp only [List.cons_append, List.nil_append, List.append_assoc, readString]
  exact readStringLoop_text rs t _ rest ht (by simp)

/-! ### Numbers -/

/-- Characters that would continue a number. -/
def Continues (c : UInt8) : Prop := isDigit c = true ∨ c = 46 ∨ c = 69 ∨ c = 101

theorem isDigit_iff (c : UInt8) : isDigit c = true ↔ 48 ≤ c.toNat ∧ c.toNat ≤ 57 := by
  simp [isDigit, UInt8.le_iff_toNat_le]

theorem readDigits_text {ds rest : Bytes} (h : Digits ds) (hr : ∀ c ∈ rest.head?, isDigit c = false) :
    readDigits (ds ++ rest) = some (ds, rest) := by
  have hd : ∀ c ∈ ds, isDigit c = true := fun c hc => (isDigit_iff c).mpr (h.2 c hc)
  have h1 : (ds ++ rest).takeWhile isDigit = ds := by
    rw [List.takeWhile_append_of_pos hd]
    cases rest with
    | nil => simp
    | cons c t => rw [List.takeWhile_cons_of_neg (by simp [hr c (by simp)])]; simp
  have h2 : (ds ++ rest).dropWhile isDigit = rest := by
    rw [List.dropWhile_append_of_pos hd]
    cases rest with
    | nil => simp
    | cons c t => rw [List.dropWhile_cons_of_neg (by simp [hr c (by simp)])]
  unfold readDigits
  rw [h1, h2]
  cases ds with
  | nil => exact absurd rfl h.1
  | cons => rfl

theorem readExponent_text {exp rest : Bytes}
    (h : exp = [] ∨ ∃ e g ds, exp = e ++ g ++ ds ∧ (e = str "e" ∨ e = str "E") ∧ (g = [] ∨ g = str "+" ∨ g = str "-") ∧ Digits ds)
    (hr : ∀ c ∈ rest.head?, ¬ Continues c) : readExponent (exp ++ rest) = some (exp, rest) := by
  have hd : ∀ c ∈ rest.head?, isDigit c = false := by
    intro c hc
    cases hx : isDigit c with
    | false => rfl
    | true => exact absurd (Or.inl hx) (hr c hc)
  rcases h with rfl | ⟨e, g, ds, rfl, he, hg, hds⟩
  · cases rest with
    | nil => rfl
    | cons c t =>
      have := hr c (by simp)
      unfold Continues at this
      rw [List.nil_append]
      unfold readExponent
      simp only
      rw [if_neg]
      intro h
      exact this (Or.inr (Or.inr h))
  · have h2 : ∃ c t, ds = c :: t ∧ c ≠ 43 ∧ c ≠ 45 := by
      obtain ⟨c, t, rfl⟩ := List.exists_cons_of_ne_nil hds.1
      have := hds.2 c (by simp)
      refine ⟨c, t, rfl, ?_, ?_⟩ <;> (intro h; subst h; exact absurd this (by decide))
    have h3 := readDigits_text hds hd
    obtain ⟨c, t, rfl, hc1, hc2⟩ := h2
    have hstep : ∀ x : UInt8, x = 101 ∨ x = 69 → readExponent ([x] ++ g ++ (c :: t) ++ rest) = some ([x] ++ g ++ (c :: t), rest) := by
      intro x hx
      have hx' : x = 69 ∨ x = 101 := hx.symm
      rcases hg with rfl | rfl | rfl
      · simp only [List.append_nil, List.cons_append, List.nil_append, readExponent] at h3 ⊢
        rw [if_pos hx', if_neg (by simp [hc1, hc2]), h3]
        rfl
      · simp only [show str "+" = [43] from rfl, List.cons_append, List.nil_append, readExponent] at h3 ⊢
        rw [if_pos hx', if_pos (by simp), h3]
        rfl
      · simp only [show str "-" = [45] from rfl, List.cons_append, List.nil_append, readExponent] at h3 ⊢
        rw [if_pos hx', if_pos (by simp), h3]
        rfl
    rcases he with rfl | rfl
    · exact hstep 101 (Or.inl rfl)
    · exact hstep 69 (Or.inr rfl)

theorem exponent_head {exp : Bytes}
    (h : exp = [] ∨ ∃ e g ds, exp = e ++ g ++ ds ∧ (e = str "e" ∨ e = str "E") ∧ (g = [] ∨ g = str "+" ∨ g = str "-") ∧ Digits ds)
    {rest : Bytes} (hr : ∀ c ∈ rest.head?, ¬ Continues c) : ∀ c ∈ (exp ++ rest).head?, isDigit c = false ∧ c ≠ 46 := by
  rcases h with rfl | ⟨e, g, ds, rfl, he, -, -⟩
  · intro c hc
    have := hr c hc
    unfold Continues at this
    constructor
    · cases hx : isDigit c with
      | false => rfl
      | true => exact absurd (Or.inl hx) this
    · intro h; exact this (Or.inr (Or.inl h))
  · rcases he with rfl | rfl
    · intro c hc
      simp [show str "e" = [101] from rfl] at hc
      subst hc; exact ⟨by decide, by decide⟩
    · intro c hc
      simp [show str "E" = [69] from rfl] at hc
      subst hc; exact ⟨by decide, by decide⟩

theorem readFraction_text {frac rest : Bytes} (h : frac = [] ∨ ∃ ds, frac = str "." ++ ds ∧ Digits ds)
    (hr : ∀ c ∈ rest.head?, isDigit c = false ∧ c ≠ 46) : readFraction (frac ++ rest) = some (frac, rest) := by
  rcases h with rfl | ⟨ds, rfl, hds⟩
  · cases rest with
    | nil => rfl
    | cons c t =>
      have := (hr c (by simp)).2
      rw [List.nil_append]
      unfold readFraction
      split
      · rename_i heq; injection heq with h _; exact absurd h this
      · rfl
  · simp only [show str "." = [46] from rfl, List.cons_append, List.nil_append, readFraction]
    rw [readDigits_text hds (fun c hc => (hr c hc).1)]
    rfl

theorem fraction_head {frac rest : Bytes} (h : frac = [] ∨ ∃ ds, frac = str "." ++ ds ∧ Digits ds)
    (hr : ∀ c ∈ rest.head?, isDigit c = false ∧ c ≠ 46) : ∀ c ∈ (frac ++ rest).head?, isDigit c = false := by
  rcases h with rfl | ⟨ds, rfl, -⟩
  · exact fun c hc => (hr c hc).1
  · intro c hc
    simp [show str "." = [46] from rfl] at hc
    subst hc; decide

theorem readInteger_text {int rest : Bytes} (h : int = str "0" ∨ (Digits int ∧ int.head? ≠ some 48))
    (hr : ∀ c ∈ rest.head?, isDigit c = false) : readInteger (int ++ rest) = some (int, rest) := by
  rcases h with rfl | ⟨hds, h0⟩
  · rfl
  · have h3 := readDigits_text hds hr
    obtain ⟨c, t, rfl⟩ := List.exists_cons_of_ne_nil hds.1
    rw [List.cons_append] at h3 ⊢
    unfold readInteger
    split
    · rename_i heq; injection heq with h _; subst h; simp at h0
    · exact h3

theorem integer_head {int : Bytes} (h : int = str "0" ∨ (Digits int ∧ int.head? ≠ some 48)) : ∃ c t, int = c :: t ∧ isDigit c = true := by
  rcases h with rfl | ⟨hds, -⟩
  · exact ⟨48, [], rfl, by decide⟩
  · obtain ⟨c, t, rfl⟩ := List.exists_cons_of_ne_nil hds.1
    exact ⟨c, t, rfl, (isDigit_iff c).mpr (hds.2 c (by simp))⟩

theorem readNumber_text {s : Bytes} (h : NumberText s) {rest : Bytes} (hr : ∀ c ∈ rest.head?, ¬ Continues c) :
    readNumber (s ++ rest) = some (s, rest) := by
  obtain ⟨sign, int, frac, exp, rfl, hs, hi, hf, he⟩ := h
  have h1 := readExponent_text he hr
  have h2 := readFraction_text hf (exponent_head he hr)
  have h3 := readInteger_text hi (fraction_head hf (exponent_head he hr))
  obtain ⟨c, t, hc, hd⟩ := integer_head hi
  have hne : c ≠ 45 := by intro h; subst h; exact absurd hd (by decide)
  have key : ∀ g : Bytes, (readInteger (int ++ (frac ++ (exp ++ rest)))).bind (fun x => (readFraction x.2).bind fun y => (readExponent y.2).bind
      fun z => some (g ++ x.1 ++ y.1 ++ z.1, z.2)) = some (g ++ int ++ frac ++ exp, rest) := by
    intro g
    rw [h3, Option.bind_some, h2, Option.bind_some, h1, Option.bind_some]
  rcases hs with rfl | rfl
  · have := key []
    unfold readNumber
    simp only [List.nil_append, List.append_assoc] at this ⊢
    rw [hc, List.cons_append] at this ⊢
    split
    · rename_i heq; injection heq with h _; exact absurd h hne
    · simpa using this
  · have := key [45]
    unfold readNumber
    simp only [List.append_assoc, show str "-" = [45] from rfl, List.cons_append, List.nil_append] at this ⊢
    simpa using this

theorem number_head {s : Bytes} (h : NumberText s) : ∃ c t, s = c :: t ∧ (c = 45 ∨ isDigit c = true) := by
  obtain ⟨sign, int, frac, exp, rfl, hs, hi, hf, he⟩ := h
  obtain ⟨c, t, rfl, hd⟩ := integer_head hi
  rcases hs with rfl | rfl
  · exact ⟨c, _, by simp; rfl, Or.inr hd⟩
  · exact ⟨45, _, rfl, Or.inl rfl⟩

/-! ### Values -/

/-- What a value starts with. -/
theorem json_head {C : List Nat → Bytes → Prop} {j : Json} {s : Bytes} (h : JsonText C j s) : ∃ c t, s = c :: t ∧ jsonSpace c = false ∧ c ≠ 93 := by
  cases j with
  | null => obtain rfl : s = str "null" := by simpa [JsonText] using h
            exact ⟨_, _, rfl, by decide, by decide⟩
  | bool b =>
    cases b
    · obtain rfl : s = str "false" := by simpa [JsonText] using h
      exact ⟨_, _, rfl, by decide, by decide⟩
    · obtain rfl : s = str "true" := by simpa [JsonText] using h
      exact ⟨_, _, rfl, by decide, by decide⟩
  | num lit =>
    rw [JsonText] at h
    obtain ⟨rfl, h⟩ := h
    obtain ⟨c, t, rfl, hc⟩ := number_head h
    refine ⟨c, t, rfl, ?_⟩
    rcases hc with rfl | hc
    · exact ⟨by decide, by decide⟩
    · rw [isDigit_iff] at hc
      constructor
      · cases hx : jsonSpace c with
        | false => rfl
        | true =>
          rw [jsonSpace_iff] at hx
          simp only [List.mem_cons, List.not_mem_nil, or_false] at hx
          rcases hx with rfl | rfl | rfl | rfl <;> exact absurd hc (by decide)
      · intro h; subst h; exact absurd hc (by decide)
  | str rs =>
    rw [JsonText] at h
    obtain ⟨t, rfl, -⟩ := h
    exact ⟨_, _, rfl, by decide, by decide⟩
  | arr l =>
    rw [JsonText] at h
    obtain ⟨t, rfl, -⟩ := h
    exact ⟨_, _, rfl, by decide, by decide⟩
  | obj ms =>
    rw [JsonText] at h
    obtain ⟨t, rfl, -⟩ := h
    exact ⟨_, _, rfl, by decide, by decide⟩

theorem skipSpace_json {C : List Nat → Bytes → Prop} {j : Json} {s : Bytes} (h : JsonText C j s) (rest : Bytes) : skipSpace (s ++ rest) = s ++ rest := by
  obtain ⟨c, t, rfl, hc, -⟩ := json_head h
  rw [List.cons_append, skipSpace_cons hc]

theorem space_head {b : Bytes} (hb : Space b) {c : UInt8} (hc : ¬ Continues c) (x : Bytes) : ∀ d ∈ (b ++ c :: x).head?, ¬ Continues d := by
  cases b with
  | nil => intro d hd; simp at hd; subst hd; exact hc
  | cons y b =>
    intro d hd
    simp at hd
    subst hd
    have := hb y (by simp)
    simp only [List.mem_cons, List.not_mem_nil, or_false] at this
    rcases this with rfl | rfl | rfl | rfl <;> (unfold Continues; decide)

theorem string_head {C : List Nat → Bytes → Prop} {rs : List Nat} {s : Bytes} (h : StringText C rs s) : ∃ t, s = 34 :: t := by
  obtain ⟨t, rfl, -⟩ := h
  exact ⟨_, rfl⟩

theorem continues_44 : ¬ Continues 44 := by unfold Continues; decide
theorem continues_93 : ¬ Continues 93 := by unfold Continues; decide
theorem continues_125 : ¬ Continues 125 := by unfold Continues; decide

theorem elements_head {C : List Nat → Bytes → Prop} {l : List Json} {t : Bytes} (hl : l ≠ []) (h : ElementsText C l t) (rest : Bytes) :
    ∃ c u, skipSpace (t ++ rest) = c :: u ∧ c ≠ 93 := by
  cases l with
  | nil => exact absurd rfl hl
  | cons j js =>
    rw [ElementsText] at h
    obtain ⟨a, s, b, ha, hb, hj, h⟩ := h
    obtain ⟨c, u, rfl, hc, hne⟩ := json_head hj
    rcases h with ⟨-, rfl⟩ | ⟨-, t', -, rfl⟩
    all_goals
      simp only [List.append_assoc, List.cons_append]
      rw [skipSpace_append ha, skipSpace_cons hc]
      exact ⟨_, _, rfl, hne⟩

theorem members_head {C : List Nat → Bytes → Prop} {ms : List (List Nat × Json)} {t : Bytes} (hl : ms ≠ []) (h : MembersText C ms t) (rest : Bytes) :
    ∃ u, skipSpace (t ++ rest) = 34 :: u := by
  cases ms with
  | nil => exact absurd rfl hl
  | cons m ms =>
    obtain ⟨k, j⟩ := m
    rw [MembersText] at h
    obtain ⟨a, n, b, c, s, d, ha, hb, hc, hd, hn, hj, h⟩ := h
    obtain ⟨u, rfl⟩ := string_head hn
    rcases h with ⟨-, rfl⟩ | ⟨-, t', -, rfl⟩
    all_goals
      simp only [List.append_assoc, List.cons_append]
      rw [skipSpace_append ha, skipSpace_cons (by decide)]
      exact ⟨_, rfl⟩

mutual
/-- The reader reads a value from its text. -/
theorem readValue_text {C : List Nat → Bytes → Prop} (hC : Readable C) (j : Json) (s : Bytes) (fuel depth : Nat) (rest : Bytes) (h : JsonText C j s) (hd : nesting j ≤ depth)
    (hf : s.length ≤ fuel) (hr : ∀ lit, j = .num lit → ∀ c ∈ rest.head?, ¬ Continues c) : readValue fuel depth (s ++ rest) = some (j, rest) := by
  have hpos : 0 < s.length := by
    obtain ⟨c, t, rfl, -⟩ := json_head h
    simp
  obtain ⟨f, rfl⟩ : ∃ f, fuel = f + 1 := ⟨fuel - 1, by omega⟩
  match j with
  | .null =>
    obtain rfl : s = str "null" := by simpa [JsonText] using h
    rfl
  | .bool b =>
    cases b
    · obtain rfl : s = str "false" := by simpa [JsonText] using h
      rfl
    · obtain rfl : s = str "true" := by simpa [JsonText] using h
      rfl
  | .num lit =>
    rw [JsonText] at h
    obtain ⟨rfl, h⟩ := h
    have h1 := readNumber_text h (hr _ rfl)
    obtain ⟨c, t, rfl, hc⟩ := number_head h
    have hne : c ≠ 110 ∧ c ≠ 116 ∧ c ≠ 102 ∧ c ≠ 34 ∧ c ≠ 91 ∧ c ≠ 123 := by
      refine ⟨?_, ?_, ?_, ?_, ?_, ?_⟩ <;> (intro h; subst h; exact absurd hc (by decide))
    obtain ⟨n1, n2, n3, n4, n5, n6⟩ := hne
    rw [List.cons_append] at h1 ⊢
    rw [readValue.eq_def]
    simp only
    rw [if_neg n1, if_neg n2, if_neg n3, if_neg n4, if_neg n5, if_neg n6, h1]
    rfl
  | .str rs =>
    rw [JsonText] at h
    have h1 := hC _ _ rest h
    obtain ⟨t, rfl⟩ := string_head h
    rw [List.cons_append] at h1 ⊢
    rw [readValue.eq_def]
    simp only
    rw [if_neg (by decide), if_neg (by decide), if_neg (by decide), if_pos trivial, h1]
    rfl
  | .arr l =>
    rw [JsonText] at h
    obtain ⟨t, rfl, ht⟩ := h
    rw [nesting] at hd
    obtain ⟨d, rfl⟩ : ∃ d, depth = d + 1 := ⟨depth - 1, by omega⟩
    simp only [List.cons_append, List.nil_append, List.append_assoc]
    rw [readValue, if_neg (by decide), if_neg (by decide), if_neg (by decide), if_neg (by decide), if_pos rfl]
    simp only
    by_cases hl : l = []
    · subst hl
      rw [ElementsText] at ht
      rw [skipSpace_append ht, skipSpace_cons (by decide)]
      rfl
    · obtain ⟨c, u, hc, hne⟩ := elements_head hl ht ([93] ++ rest)
      have := readElements_text hC l t f d rest hl ht (by omega) (by simp at hf; omega)
      simp only [List.cons_append, List.nil_append] at hc
      rw [hc] at this ⊢
      split
      · rename_i heq; injection heq with h _; exact absurd h hne
      · rw [this]; rfl
  | .obj ms =>
    rw [JsonText] at h
    obtain ⟨t, rfl, ht⟩ := h
    rw [nesting] at hd
    obtain ⟨d, rfl⟩ : ∃ d, depth = d + 1 := ⟨depth - 1, by omega⟩
    simp only [List.cons_append, List.nil_append, List.append_assoc]
    rw [readValue, if_neg (by decide), if_neg (by decide), if_neg (by decide), if_neg (by decide), if_neg (by decide), if_pos rfl]
    simp only
    by_cases hl : ms = []
    · subst hl
      rw [MembersText] at ht
      rw [skipSpace_append ht, skipSpace_cons (by decide)]
      rfl
    · obtain ⟨u, hc⟩ := members_head hl ht ([125] ++ rest)
      have := readMembers_text hC ms t f d rest hl ht (by omega) (by simp at hf; omega)
      simp only [List.cons_append, List.nil_append] at hc
      rw [hc] at this ⊢
      split
      · rename_i heq; injection heq with h _; exact absurd h (by decide)
      · rw [this]; rfl

/-- The reader reads the elements of an array. -/
theorem readElements_text {C : List Nat → Bytes → Prop} (hC : Readable C) (l : List Json) (t : Bytes) (fuel depth : Nat) (rest : Bytes) (hl : l ≠ []) (h : ElementsText C l t)
    (hd : nestingElements l ≤ depth) (hf : t.length < fuel) :
    readElements fuel depth (skipSpace (t ++ 93 :: rest)) = some (l, rest) := by
  match l with
  | [] => exact absurd rfl hl
  | j :: js =>
    obtain ⟨f, rfl⟩ : ∃ f, fuel = f + 1 := ⟨fuel - 1, by omega⟩
    rw [ElementsText] at h
    obtain ⟨a, s, b, ha, hb, hj, h⟩ := h
    rw [nestingElements] at hd
    rcases h with ⟨rfl, rfl⟩ | ⟨hjs, t', ht', rfl⟩
    · simp only [List.append_assoc, List.length_append] at hf ⊢
      rw [skipSpace_append ha, skipSpace_json hj, readElements,
        readValue_text hC j s f depth _ hj (by omega) (by omega) (fun _ _ => space_head hb continues_93 rest)]
      simp only [Option.bind_eq_bind, Option.bind_some]
      rw [skipSpace_append hb, skipSpace_cons (by decide)]
      rfl
    · simp only [List.append_assoc, List.cons_append, List.nil_append, List.length_append, List.length_cons, List.length_nil] at hf ⊢
      rw [skipSpace_append ha, skipSpace_json hj, readElements,
        readValue_text hC j s f depth _ hj (by omega) (by omega) (fun _ _ => space_head hb continues_44 _)]
      simp only [Option.bind_eq_bind, Option.bind_some]
      rw [skipSpace_append hb, skipSpace_cons (by decide)]
      simp only
      rw [readElements_text hC js t' f depth rest hjs ht' (by omega) (by omega)]
      rfl

/-- The reader reads the members of an object. -/
theorem readMembers_text {C : List Nat → Bytes → Prop} (hC : Readable C) (ms : List (List Nat × Json)) (t : Bytes) (fuel depth : Nat) (rest : Bytes) (hl : ms ≠ []) (h : MembersText C ms t)
    (hd : nestingMembers ms ≤ depth) (hf : t.length < fuel) :
    readMembers fuel depth (skipSpace (t ++ 125 :: rest)) = some (ms, rest) := by
  match ms with
  | [] => exact absurd rfl hl
  | (k, j) :: ms =>
    obtain ⟨f, rfl⟩ : ∃ f, fuel = f + 1 := ⟨fuel - 1, by omega⟩
    rw [MembersText] at h
    obtain ⟨a, n, b, c, s, d, ha, hb, hc, hdd, hn, hj, h⟩ := h
    rw [nestingMembers] at hd
    have hns : ∀ x, skipSpace (n ++ x) = n ++ x := by
      intro x
      obtain ⟨u, rfl⟩ := string_head hn
      rw [List.cons_append, skipSpace_cons (by decide)]
    rcases h with ⟨rfl, rfl⟩ | ⟨hjs, t', ht', rfl⟩
    · simp only [List.append_assoc, List.cons_append, List.nil_append, List.length_append, List.length_cons, List.length_nil] at hf ⊢
      rw [skipSpace_append ha, hns, readMembers, hC _ _ _ hn]
      simp only [Option.bind_eq_bind, Option.bind_some]
      rw [skipSpace_append hb, skipSpace_cons (by decide)]
      simp only
      rw [skipSpace_append hc, skipSpace_json hj,
        readValue_text hC j s f depth _ hj (by omega) (by omega) (fun _ _ => space_head hdd continues_125 rest)]
      simp only [Option.bind_some]
      rw [skipSpace_append hdd, skipSpace_cons (by decide)]
      rfl
    · simp only [List.append_assoc, List.cons_append, List.nil_append, List.length_append, List.length_cons, List.length_nil] at hf ⊢
      rw [skipSpace_append ha, hns, readMembers, hC _ _ _ hn]
      simp only [Option.bind_eq_bind, Option.bind_some]
      rw [skipSpace_append hb, skipSpace_cons (by decide)]
      simp only
      rw [skipSpace_append hc, skipSpace_json hj,
        readValue_text hC j s f depth _ hj (by omega) (by omega) (fun _ _ => space_head hdd continues_44 _)]
      simp only [Option.bind_some]
      rw [skipSpace_append hdd, skipSpace_cons (by decide)]
      simp only
      rw [readMembers_text hC ms t' f depth rest hjs ht' (by omega) (by omega)]
      rfl
end

/-- A whole text, with white space in front and anything behind a document that is an array or an object. -/
theorem readJson_text {C : List Nat → Bytes → Prop} (hC : Readable C) {j : Json} {a s rest : Bytes} (ha : Space a) (h : JsonText C j s) (hd : nesting j ≤ 10000)
    (hr : ∀ lit, j = .num lit → ∀ c ∈ rest.head?, ¬ Continues c) : readJson (a ++ s ++ rest) = some j := by
  unfold readJson
  rw [List.append_assoc, skipSpace_append ha, skipSpace_json h, readValue_text hC j s _ _ rest h hd (by simp; omega) hr]
  rfl

end Midiasm
