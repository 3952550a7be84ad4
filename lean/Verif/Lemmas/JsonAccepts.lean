import Verif.Lemmas.JsonText
import Verif.Props.Text

/-!
What the reader of JSON texts accepts is a text of the grammar.
-/

set_option linter.unusedSimpArgs false

namespace Midiasm
open Spec

theorem ofNat_self (b : UInt8) (n : Nat) (h : b.toNat = n) : b = UInt8.ofNat n := by subst h; simp

/-- A decoded character is either a lone byte or the encoding of the character. -/
theorem decodeRune_valid (b : UInt8) (rest : Bytes) :
    (decodeRune b rest = (runeError, 0) ∧ 128 ≤ b.toNat) ∨
      ∃ t, rest = t ++ rest.drop (decodeRune b rest).2 ∧ b :: t = encodeRune (decodeRune b rest).1 := by
  have hb := b.toNat_lt
  unfold decodeRune
  split
  · rename_i h
    rw [UInt8.lt_iff_toNat_lt] at h
    refine Or.inr ⟨[], by simp, ?_⟩
    unfold encodeRune
    rw [if_pos (by simpa using Nat.le_of_lt_succ h)]
    simp
  split
  · rename_i h _
    rw [UInt8.lt_iff_toNat_lt] at h
    exact Or.inl ⟨rfl, by simpa using h⟩
  rename_i h1 h2
  rw [UInt8.lt_iff_toNat_lt] at h1 h2
  have h128 : 128 ≤ b.toNat := by simpa using h1
  have h2' : 194 ≤ b.toNat := by simpa using h2
  split
  · rename_i h3
    rw [UInt8.lt_iff_toNat_lt] at h3
    have h3' : b.toNat < 224 := by simpa using h3
    split
    · rename_i b1 _
      split
      · rename_i hc
        rw [isCont_toNat] at hc
        refine Or.inr ⟨[b1], by simp, ?_⟩
        unfold encodeRune
        simp only
        rw [if_neg (by omega), if_pos (by omega)]
        congr 1
        · exact ofNat_self _ _ (by omega)
        · congr 1
          exact ofNat_self _ _ (by omega)
      · exact Or.inl ⟨rfl, h128⟩
    · exact Or.inl ⟨rfl, h128⟩
  rename_i h3
  rw [UInt8.lt_iff_toNat_lt] at h3
  have h3' : 224 ≤ b.toNat := by simpa using h3
  split
  · rename_i h4
    rw [UInt8.lt_iff_toNat_lt] at h4
    have h4' : b.toNat < 240 := by simpa using h4
    split
    · rename_i b1 b2 _
      generalize hq : (if b = 0xe0 then decide (0xa0 ≤ b1) && decide (b1 ≤ 0xbf)
        else if b = 0xed then decide (0x80 ≤ b1) && decide (b1 ≤ 0x9f) else isCont b1) = q
      split
      · rename_i hc
        rw [Bool.and_eq_true, isCont_toNat b2] at hc
        obtain ⟨hc1, hc2⟩ := hc
        rw [← hq] at hc1
        have hb1 : 128 ≤ b1.toNat ∧ b1.toNat ≤ 191 ∧ (b.toNat = 224 → 160 ≤ b1.toNat) := by
          split at hc1
          · simp only [Bool.and_eq_true, decide_eq_true_eq, UInt8.le_iff_toNat_le] at hc1
            simp at hc1
            omega
          · rename_i hne
            have : b.toNat ≠ 224 := fun h => hne (by rw [← UInt8.toNat_inj]; exact h)
            split at hc1
            · simp only [Bool.and_eq_true, decide_eq_true_eq, UInt8.le_iff_toNat_le] at hc1
              simp at hc1
              omega
            · rw [isCont_toNat] at hc1
              omega
        refine Or.inr ⟨[b1, b2], by simp, ?_⟩
        unfold encodeRune
        simp only
        rw [if_neg (by omega), if_neg (by omega), if_pos (by omega)]
        congr 1
        · exact ofNat_self _ _ (by omega)
        · congr 1
          · exact ofNat_self _ _ (by omega)
          · congr 1
            exact ofNat_self _ _ (by omega)
      · exact Or.inl ⟨rfl, h128⟩
    · exact Or.inl ⟨rfl, h128⟩
  rename_i h4
  rw [UInt8.lt_iff_toNat_lt] at h4
  have h4' : 240 ≤ b.toNat := by simpa using h4
  split
  · rename_i h5
    rw [UInt8.lt_iff_toNat_lt] at h5
    have h5' : b.toNat < 245 := by simpa using h5
    split
    · rename_i b1 b2 b3 _
      generalize hq : (if b = 0xf0 then decide (0x90 ≤ b1) && decide (b1 ≤ 0xbf)
        else if b = 0xf4 then decide (0x80 ≤ b1) && decide (b1 ≤ 0x8f) else isCont b1) = q
      split
      · rename_i hc
        rw [Bool.and_eq_true, Bool.and_eq_true, isCont_toNat b2, isCont_toNat b3] at hc
        obtain ⟨⟨hc1, hc2⟩, hc3⟩ := hc
        rw [← hq] at hc1
        have hb1 : 128 ≤ b1.toNat ∧ b1.toNat ≤ 191 ∧ (b.toNat = 240 → 144 ≤ b1.toNat) ∧ (b.toNat = 244 → b1.toNat ≤ 143) := by
          split at hc1
          · simp only [Bool.and_eq_true, decide_eq_true_eq, UInt8.le_iff_toNat_le] at hc1
            simp at hc1
            rename_i he
            rw [← UInt8.toNat_inj] at he
            have : b.toNat = 240 := he
            omega
          · rename_i hne
            have : b.toNat ≠ 240 := fun h => hne (by rw [← UInt8.toNat_inj]; exact h)
            split at hc1
            · simp only [Bool.and_eq_true, decide_eq_true_eq, UInt8.le_iff_toNat_le] at hc1
              simp at hc1
              omega
            · rename_i hne'
              have : b.toNat ≠ 244 := fun h => hne' (by rw [← UInt8.toNat_inj]; exact h)
              rw [isCont_toNat] at hc1
              omega
        refine Or.inr ⟨[b1, b2, b3], by simp, ?_⟩
        unfold encodeRune
        simp only
        rw [if_neg (by omega), if_neg (by omega), if_neg (by omega)]
        congr 1
        · exact ofNat_self _ _ (by omega)
        · congr 1
          · exact ofNat_self _ _ (by omega)
          · congr 1
            · exact ofNat_self _ _ (by omega)
            · congr 1
              exact ofNat_self _ _ (by omega)
      · exact Or.inl ⟨rfl, h128⟩
    · exact Or.inl ⟨rfl, h128⟩
  · exact Or.inl ⟨rfl, h128⟩

theorem space_nil : Space [] := by intro c hc; cases hc

theorem space_dropped (s : Bytes) : ∃ w, Space w ∧ s = w ++ skipSpace s := by
  refine ⟨s.takeWhile jsonSpace, ?_, ?_⟩
  · intro c hc
    apply (jsonSpace_iff c).mp
    have := List.all_takeWhile (p := jsonSpace) (l := s)
    exact List.all_eq_true.mp this c hc
  · unfold skipSpace; rw [List.takeWhile_append_dropWhile]

theorem hexNat_sound {c : UInt8} {v : Nat} (h : hexNat c = some v) : HexDigit c v ∧ v < 16 := by
  unfold hexNat at h
  cases hx : hexValue c with
  | none => simp [hx] at h
  | some x =>
    simp [hx] at h
    have := hexValue_lt c x hx
    exact ⟨(hexValue_spec c v).mpr ⟨x, hx, h, by omega⟩, by omega⟩

theorem readHex4_sound {s rest : Bytes} {n : Nat} (h : readHex4 s = some (n, rest)) : ∃ t, s = t ++ rest ∧ Hex4 n t := by
  unfold readHex4 at h
  split at h
  · rename_i a b c d r
    simp only [Option.bind_eq_bind, Option.bind_eq_some_iff] at h
    obtain ⟨va, ha, vb, hb, vc, hc, vd, hd, h⟩ := h
    injection h with h
    injection h with h1 h2
    subst h2
    obtain ⟨ha, _⟩ := hexNat_sound ha
    obtain ⟨hb, _⟩ := hexNat_sound hb
    obtain ⟨hc, _⟩ := hexNat_sound hc
    obtain ⟨hd, _⟩ := hexNat_sound hd
    refine ⟨[a, b, c, d], rfl, a, b, c, d, rfl, by omega, ?_, ?_, ?_, ?_⟩
    · rwa [show n / 4096 = va by omega]
    · rwa [show n / 256 % 16 = vb by omega]
    · rwa [show n / 16 % 16 = vc by omega]
    · rwa [show n % 16 = vd by omega]
  · cases h

/-- A character or what is replaced. -/
def LooseCharText (r : Nat) (s : Bytes) : Prop := CharText r s ∨ Replaced r s

theorem readUnicode_sound {s rest : Bytes} {r : Nat} (h : readUnicode s = some (r, rest)) :
    ∃ t, s = t ++ rest ∧ LooseCharText r (str "\\u" ++ t) := by
  unfold readUnicode at h
  simp only [Option.bind_eq_bind, Option.bind_eq_some_iff] at h
  obtain ⟨⟨u, rest1⟩, hu, h⟩ := h
  obtain ⟨t, rfl, ht⟩ := readHex4_sound hu
  have hlt : u < 65536 := by obtain ⟨_, _, _, _, _, h, _⟩ := ht; exact h
  simp only at h
  split at h
  · rename_i hsur
    have hloose : ∀ x : Nat × Bytes, some (runeError, rest1) = some x → x = (r, rest) → ∃ t', t ++ rest1 = t' ++ rest ∧ LooseCharText r (str "\\u" ++ t') := by
      intro x hx he
      injection hx with hx
      subst he
      injection hx with h1 h2
      subst h1; subst h2
      exact ⟨t, rfl, Or.inr ⟨rfl, Or.inr ⟨u, t, rfl, ht, hsur.1, hsur.2⟩⟩⟩
    split at h
    · rename_i rest'
      split at h
      · rename_i v rest'' hv
        split at h
        · rename_i hpair
          injection h with h
          injection h with h1 h2
          subst h2
          obtain ⟨t', rfl, ht'⟩ := readHex4_sound hv
          refine ⟨t ++ str "\\u" ++ t', by simp [show str "\\u" = [92, 117] from rfl], Or.inl (Or.inr (Or.inr (Or.inr ?_)))⟩
          refine ⟨by omega, by omega, t, t', by simp, ?_, ?_⟩
          · have : 0xd800 + (r - 0x10000) / 1024 = u := by omega
            rw [this]; exact ht
          · have : 0xdc00 + (r - 0x10000) % 1024 = v := by omega
            rw [this]; exact ht'
        · exact hloose _ h rfl
      · exact hloose _ h rfl
    · exact hloose _ h rfl
  · rename_i hsur
    injection h with h
    injection h with h1 h2
    subst h1; subst h2
    refine ⟨t, rfl, Or.inl (Or.inr (Or.inr (Or.inl ⟨?_, t, rfl, ht⟩)))⟩
    unfold Scalar
    omega

theorem readChar_sound {s rest : Bytes} {r : Nat} (h : readChar s = some (r, rest)) (hq : s.head? ≠ some 34) :
    ∃ a, s = a ++ rest ∧ LooseCharText r a := by
  unfold readChar at h
  split at h
  · cases h
  · rename_i c tl
    split at h
    · rename_i hc
      subst hc
      split at h
      · rename_i e rest'
        have hsimple : ∀ n : Nat, (n, [92, e]) ∈ ([(34, str "\\\""), (92, str "\\\\"), (47, str "\\/"), (8, str "\\b"), (12, str "\\f"),
            (10, str "\\n"), (13, str "\\r"), (9, str "\\t")] : List (Nat × Bytes)) → some (n, rest') = some (r, rest) →
            ∃ a, 92 :: e :: rest' = a ++ rest ∧ LooseCharText r a := by
          intro n hn he
          injection he with he
          injection he with h1 h2
          subst h1; subst h2
          exact ⟨[92, e], rfl, Or.inl (Or.inr (Or.inl hn))⟩
        split at h
        · rename_i he
          refine hsimple _ ?_ h
          rcases he with rfl | rfl | rfl <;> decide
        split at h
        · rename_i he; subst he; exact hsimple _ (by decide) h
        split at h
        · rename_i he; subst he; exact hsimple _ (by decide) h
        split at h
        · rename_i he; subst he; exact hsimple _ (by decide) h
        split at h
        · rename_i he; subst he; exact hsimple _ (by decide) h
        split at h
        · rename_i he; subst he; exact hsimple _ (by decide) h
        split at h
        · rename_i he
          subst he
          obtain ⟨t, rfl, ht⟩ := readUnicode_sound h
          exact ⟨_, by simp [show str "\\u" = [92, 117] from rfl], ht⟩
        · cases h
      · cases h
    · rename_i hc
      split at h
      · cases h
      · rename_i hlt
        injection h with h
        injection h with h1 h2
        rcases decodeRune_valid c tl with ⟨hd, hge⟩ | ⟨t, ht, he⟩
        · rw [hd] at h1 h2
          simp only [List.drop_zero] at h2
          subst h2
          exact ⟨[c], rfl, Or.inr ⟨h1.symm, Or.inl ⟨c, rfl, hge⟩⟩⟩
        · rw [h1] at he
          rw [h2] at ht
          have hs : Scalar r := h1 ▸ decodeRune_scalar c tl
          have hsmall : r < 128 → c.toNat = r := by
            intro hr
            unfold encodeRune at he
            rw [if_pos (by omega)] at he
            injection he with he _
            rw [he]
            simp
            omega
          have hr : 32 ≤ r ∧ r ≠ 34 ∧ r ≠ 92 := by
            by_cases h128 : r < 128
            · have hcr := hsmall h128
              have c1 : ¬ c.toNat < 32 := fun h => hlt (UInt8.lt_iff_toNat_lt.mpr h)
              have c2 : c.toNat ≠ 34 := fun h => hq (by simp [← UInt8.toNat_inj, h])
              have c3 : c.toNat ≠ 92 := fun h => hc (by rw [← UInt8.toNat_inj]; exact h)
              omega
            · omega
          obtain ⟨ch, hch⟩ := exists_char hs
          refine ⟨c :: t, by rw [List.cons_append, ← ht], Or.inl (Or.inl ⟨ch, hch, ?_, hr.1, hr.2.1, hr.2.2⟩)⟩
          rw [he, ← encodeRune_char, hch]

theorem prefix_before {a x s rest : Bytes} (h : s ++ 34 :: rest = a ++ x) (ha : (34 : UInt8) ∉ a) : ∃ y, s = a ++ y := by
  rcases List.append_eq_append_iff.1 h with ⟨c, h1, h2⟩ | ⟨c, h1, h2⟩
  · cases c with
    | nil => exact ⟨[], by simpa using h1.symm⟩
    | cons d c =>
      injection h2 with h2 _
      subst h2
      exact absurd (by rw [h1]; simp) ha
  · exact ⟨c, h1⟩

theorem hex4_quote {n : Nat} {h : Bytes} (hh : Hex4 n h) : (34 : UInt8) ∉ h := by
  obtain ⟨a, b, c, d, rfl, -, h1, h2, h3, h4⟩ := hh
  have : ∀ v, ¬ HexDigit 34 v := by
    intro v hv
    rw [hexValue_spec] at hv
    obtain ⟨x, hx, -⟩ := hv
    exact absurd hx (by decide +revert)
  simp only [List.mem_cons, List.not_mem_nil, or_false]
  rintro (rfl | rfl | rfl | rfl)
  · exact this _ h1
  · exact this _ h2
  · exact this _ h3
  · exact this _ h4

theorem hex4_length {n : Nat} {h : Bytes} (hh : Hex4 n h) : h.length = 4 := by
  obtain ⟨a, b, c, d, rfl, -⟩ := hh
  rfl

theorem encode_high {r : Nat} {b : UInt8} {t : Bytes} (h : encodeRune r = b :: t) (hb : 128 ≤ b.toNat) : (34 : UInt8) ∉ b :: t := by
  rw [← h]
  have hof : ∀ n, n < 256 → 128 ≤ n → (34 : UInt8) ≠ UInt8.ofNat n := by
    intro n h1 h2 e
    have := congrArg UInt8.toNat e
    simp at this
    omega
  unfold encodeRune at h ⊢
  split
  · rename_i h1
    rw [if_pos h1] at h
    injection h with h _
    subst h
    simp at hb
    omega
  all_goals repeat' split
  all_goals
    simp only [List.mem_cons, List.not_mem_nil, or_false, not_or]
    try refine ⟨?_, ?_, ?_, ?_⟩
    try refine ⟨?_, ?_, ?_⟩
    try refine ⟨?_, ?_⟩
    all_goals exact hof _ (by omega) (by omega)

/-- Where no character begins, something is replaced. -/
theorem readChar_replaced {r : Nat} {a t : Bytes} (hn : ∀ r' a' t', a ++ t = a' ++ t' → ¬ CharText r' a') (h : Replaced r a) (rest : Bytes) :
    readChar (a ++ (t ++ 34 :: rest)) = some (r, t ++ 34 :: rest) ∧ ∃ b u, a = b :: u ∧ b ≠ 34 := by
  obtain ⟨rfl, ha⟩ := h
  have hsome : ∃ x, readChar (a ++ (t ++ 34 :: rest)) = some x := by
    rcases ha with ⟨b, rfl, hb⟩ | ⟨n, h, rfl, hh, h1, h2⟩
    · have b1 : b ≠ 92 := by rintro rfl; exact absurd hb (by decide)
      have b2 : ¬ b < 32 := by
        intro h
        have : b.toNat < 32 := UInt8.lt_iff_toNat_lt.1 h
        omega
      unfold readChar
      simp only [List.cons_append, List.nil_append, if_neg b1, if_neg b2]
      exact ⟨_, rfl⟩
    · rw [List.append_assoc]
      show ∃ x, readUnicode (h ++ (t ++ 34 :: rest)) = some x
      unfold readUnicode
      rw [readHex4_text hh]
      simp only [Option.bind_eq_bind, Option.bind_some]
      repeat' split
      all_goals exact ⟨_, rfl⟩
  obtain ⟨⟨r', rest'⟩, hx⟩ := hsome
  have hhead : ∃ b u, a = b :: u ∧ b ≠ 34 ∧ (128 ≤ b.toNat ∨ b = 92 ∧ u.head? = some 117) := by
    rcases ha with ⟨b, rfl, hb⟩ | ⟨n, h, rfl, -⟩
    · exact ⟨b, [], rfl, by rintro rfl; exact absurd hb (by decide), Or.inl hb⟩
    · exact ⟨92, 117 :: h, rfl, by decide, Or.inr ⟨rfl, rfl⟩⟩
  obtain ⟨b, u, hab, hb34, hbu⟩ := hhead
  refine ⟨?_, b, u, hab, hb34⟩
  obtain ⟨a', e, hl⟩ := readChar_sound hx (by rw [hab]; simpa using hb34)
  rcases hl with hc | ⟨rfl, hr⟩
  · exfalso
    have hq : (34 : UInt8) ∉ a' := by
      rcases hc with ⟨c, rfl, rfl, h1, h2, h3⟩ | hc | ⟨-, h, rfl, hh⟩ | ⟨-, -, h, l, rfl, hh, hl⟩
      · obtain ⟨b', t', hb', b1, b2, b3⟩ := utf8_head h1 h2 h3
        have hbb : b = b' := by
          rw [hab, hb'] at e
          injection e
        subst hbb
        rcases hbu with hbu | ⟨rfl, -⟩
        · rw [hb']
          exact encode_high (by rw [encodeRune_char, hb']) hbu
        · exact absurd rfl b2
      · exfalso
        rw [hab] at e
        simp only [List.mem_cons, Prod.mk.injEq, List.not_mem_nil, or_false] at hc
        rcases hbu with hbu | ⟨rfl, hu⟩
        · rcases hc with ⟨-, rfl⟩ | ⟨-, rfl⟩ | ⟨-, rfl⟩ | ⟨-, rfl⟩ | ⟨-, rfl⟩ | ⟨-, rfl⟩ | ⟨-, rfl⟩ | ⟨-, rfl⟩ <;>
            (injection e with e _; rw [e] at hbu; exact absurd hbu (by decide))
        · obtain ⟨u', rfl⟩ : ∃ u', u = 117 :: u' := by
            cases u with
            | nil => cases hu
            | cons c u' => simp at hu; exact ⟨u', by rw [hu]⟩
          rcases hc with ⟨-, rfl⟩ | ⟨-, rfl⟩ | ⟨-, rfl⟩ | ⟨-, rfl⟩ | ⟨-, rfl⟩ | ⟨-, rfl⟩ | ⟨-, rfl⟩ | ⟨-, rfl⟩ <;>
            (injection e with _ e; injection e with e _; exact absurd e (by decide))
      · intro h34
        rcases List.mem_append.1 h34 with h34 | h34
        · exact absurd h34 (by decide)
        · exact hex4_quote hh h34
      · intro h34
        simp only [List.mem_append] at h34
        rcases h34 with ((h34 | h34) | h34) | h34
        · exact absurd h34 (by decide)
        · exact hex4_quote hh h34
        · exact absurd h34 (by decide)
        · exact hex4_quote hl h34
    rw [← List.append_assoc] at e
    obtain ⟨y, hy⟩ := prefix_before e hq
    exact hn _ _ _ hy hc
  · rw [hx]
    have hlen : a.length = a'.length := by
      rcases ha with ⟨b1, rfl, hb1⟩ | ⟨n, h, rfl, hh, -⟩ <;> rcases hr with ⟨b2, rfl, hb2⟩ | ⟨n', h', rfl, hh', -⟩
      · rfl
      · injection e with e _
        rw [e] at hb1
        exact absurd hb1 (by decide)
      · injection e with e _
        rw [← e] at hb2
        exact absurd hb2 (by decide)
      · simp [hex4_length hh, hex4_length hh']
    rw [(List.append_inj e hlen).2]

theorem readStringLoop_read (rs : List Nat) : ∀ (t : Bytes) (fuel : Nat) (rest : Bytes), CharsRead rs t → t.length < fuel →
    readStringLoop fuel (t ++ 34 :: rest) = some (rs, rest) := by
  induction rs with
  | nil =>
    intro t fuel rest h hf
    obtain rfl : t = [] := h
    obtain ⟨f, rfl⟩ : ∃ f, fuel = f + 1 := ⟨fuel - 1, by omega⟩
    rfl
  | cons r rs ih =>
    intro t fuel rest h hf
    obtain ⟨a, t, rfl, ha, ht⟩ := h
    obtain ⟨f, rfl⟩ : ∃ f, fuel = f + 1 := ⟨fuel - 1, by omega⟩
    have hx : readChar (a ++ (t ++ 34 :: rest)) = some (r, t ++ 34 :: rest) ∧ ∃ b u, a = b :: u ∧ b ≠ 34 := by
      rcases ha with ha | ⟨hn, ha⟩
      · exact readChar_text ha (t ++ 34 :: rest)
      · exact readChar_replaced hn ha rest
    obtain ⟨h1, b, u, rfl, hb⟩ := hx
    simp only [List.length_append, List.length_cons] at hf
    rw [List.append_assoc, readStringLoop]
    · rw [h1]
      simp only [Option.bind_eq_bind, Option.bind_some]
      rw [ih t f rest ht (by omega)]
      rfl
    · intro x h
      injection h with h2 _
      exact hb h2

theorem read_readable : Readable CharsRead := by
  rintro rs s rest ⟨t, rfl, ht⟩
  simp only [List.cons_append, List.nil_append, List.append_assoc, readString]
  exact readStringLoop_read rs t _ rest ht (by simp)

theorem readStringLoop_sound (fuel : Nat) : ∀ (s : Bytes) (rs : List Nat) (rest : Bytes), readStringLoop fuel s = some (rs, rest) →
    ∃ t, s = t ++ 34 :: rest ∧ CharsRead rs t := by
  induction fuel with
  | zero => intro s rs rest h; cases h
  | succ f ih =>
    intro s rs rest h
    rw [readStringLoop.eq_def] at h
    simp only at h
    split at h
    · injection h with h
      injection h with h1 h2
      subst h1; subst h2
      exact ⟨[], rfl, rfl⟩
    · rename_i hne
      simp only [Option.bind_eq_bind, Option.bind_eq_some_iff] at h
      obtain ⟨⟨r, rest1⟩, hr, ⟨rs', rest2⟩, hrs, h⟩ := h
      injection h with h
      injection h with h1 h2
      simp only at h1 h2 hrs
      subst h1; subst h2
      have hq : s.head? ≠ some 34 := by
        intro hh
        cases s with
        | nil => cases hh
        | cons c tl => simp at hh; subst hh; exact hne tl rfl
      obtain ⟨a, rfl, ha⟩ := readChar_sound hr hq
      obtain ⟨t, rfl, ht⟩ := ih _ _ _ hrs
      refine ⟨a ++ t, by simp, a, t, rfl, ?_, ht⟩
      rcases ha with ha | ha
      · exact Or.inl ha
      by_cases hn : ∀ r' a' t', a ++ t = a' ++ t' → ¬ CharText r' a'
      · exact Or.inr ⟨hn, ha⟩
      · refine Or.inl ?_
        have : ∃ r' a' t', a ++ t = a' ++ t' ∧ CharText r' a' := by
          refine Classical.byContradiction fun hx => hn fun r' a' t' e hc => hx ⟨r', a', t', e, hc⟩
        obtain ⟨r', a', t', e, hc⟩ := this
        have h1 := (readChar_text hc (t' ++ 34 :: rest2)).1
        rw [← List.append_assoc, ← e, List.append_assoc, hr] at h1
        injection h1 with h1
        injection h1 with h1 h2
        subst h1
        have h3 : t = t' := List.append_cancel_right h2
        subst h3
        rw [List.append_cancel_right e]
        exact hc

theorem readString_sound {s rest : Bytes} {rs : List Nat} (h : readString s = some (rs, rest)) :
    ∃ t, s = t ++ rest ∧ StringText CharsRead rs t := by
  unfold readString at h
  split at h
  · obtain ⟨t, rfl, ht⟩ := readStringLoop_sound _ _ _ _ h
    exact ⟨[34] ++ t ++ [34], by simp, t, rfl, ht⟩
  · cases h

/-! ### Numbers -/

theorem readDigits_sound {s ds rest : Bytes} (h : readDigits s = some (ds, rest)) : s = ds ++ rest ∧ Digits ds := by
  unfold readDigits at h
  split at h
  · cases h
  · rename_i hne
    injection h with h
    injection h with h1 h2
    subst h1; subst h2
    refine ⟨(List.takeWhile_append_dropWhile).symm, hne, fun c hc => (isDigit_iff c).mp ?_⟩
    exact List.all_eq_true.mp (List.all_takeWhile (p := isDigit) (l := s)) c hc

theorem readInteger_sound {s i rest : Bytes} (h : readInteger s = some (i, rest)) :
    s = i ++ rest ∧ (i = str "0" ∨ (Digits i ∧ i.head? ≠ some 48)) := by
  unfold readInteger at h
  split at h
  · injection h with h
    injection h with h1 h2
    subst h1; subst h2
    exact ⟨rfl, Or.inl rfl⟩
  · rename_i hne
    obtain ⟨rfl, hd⟩ := readDigits_sound h
    refine ⟨rfl, Or.inr ⟨hd, ?_⟩⟩
    intro hh
    cases i with
    | nil => cases hh
    | cons c t => simp at hh; subst hh; exact hne _ rfl

theorem readFraction_sound {s f rest : Bytes} (h : readFraction s = some (f, rest)) :
    s = f ++ rest ∧ (f = [] ∨ ∃ ds, f = str "." ++ ds ∧ Digits ds) := by
  unfold readFraction at h
  split at h
  · simp only [Option.map_eq_some_iff] at h
    obtain ⟨⟨ds, r⟩, hd, h⟩ := h
    injection h with h1 h2
    subst h1; subst h2
    obtain ⟨h3, hd'⟩ := readDigits_sound hd
    exact ⟨by rw [h3]; rfl, Or.inr ⟨ds, rfl, hd'⟩⟩
  · injection h with h
    injection h with h1 h2
    subst h1; subst h2
    exact ⟨rfl, Or.inl rfl⟩

theorem readExponent_sound {s e rest : Bytes} (h : readExponent s = some (e, rest)) :
    s = e ++ rest ∧ (e = [] ∨ ∃ x g ds, e = x ++ g ++ ds ∧ (x = str "e" ∨ x = str "E") ∧ (g = [] ∨ g = str "+" ∨ g = str "-") ∧ Digits ds) := by
  unfold readExponent at h
  split at h
  · rename_i c tl
    split at h
    · rename_i hc
      have hx : [c] = str "e" ∨ [c] = str "E" := by
        rcases hc with rfl | rfl
        · exact Or.inr rfl
        · exact Or.inl rfl
      split at h
      · rename_i g rest'
        split at h
        · rename_i hg
          simp only [Option.map_eq_some_iff] at h
          obtain ⟨⟨ds, r⟩, hd, h⟩ := h
          injection h with h1 h2
          subst h1; subst h2
          obtain ⟨h3, hd'⟩ := readDigits_sound hd
          refine ⟨by rw [h3]; rfl, Or.inr ⟨[c], [g], ds, rfl, hx, Or.inr ?_, hd'⟩⟩
          rcases hg with rfl | rfl
          · exact Or.inl rfl
          · exact Or.inr rfl
        · simp only [Option.map_eq_some_iff] at h
          obtain ⟨⟨ds, r⟩, hd, h⟩ := h
          injection h with h1 h2
          subst h1; subst h2
          obtain ⟨h3, hd⟩ := readDigits_sound hd
          exact ⟨by rw [h3]; rfl, Or.inr ⟨[c], [], ds, rfl, hx, Or.inl rfl, hd⟩⟩
      · cases h
    · injection h with h
      injection h with h1 h2
      subst h1; subst h2
      exact ⟨rfl, Or.inl rfl⟩
  · injection h with h
    injection h with h1 h2
    subst h1; subst h2
    exact ⟨rfl, Or.inl rfl⟩

theorem readNumber_sound {s lit rest : Bytes} (h : readNumber s = some (lit, rest)) : s = lit ++ rest ∧ NumberText lit := by
  unfold readNumber at h
  have key : ∀ (g tl : Bytes), s = g ++ tl → (g = [] ∨ g = str "-") → ((readInteger tl).bind fun x => (readFraction x.2).bind fun y =>
      (readExponent y.2).bind fun z => some (g ++ x.1 ++ y.1 ++ z.1, z.2)) = some (lit, rest) → s = lit ++ rest ∧ NumberText lit := by
    intro g tl hs hg h
    simp only [Option.bind_eq_some_iff] at h
    obtain ⟨⟨i, r1⟩, h1, ⟨f, r2⟩, h2, ⟨e, r3⟩, h3, h⟩ := h
    obtain ⟨rfl, hi⟩ := readInteger_sound h1
    obtain ⟨h2', hf⟩ := readFraction_sound h2
    obtain ⟨h3', he⟩ := readExponent_sound h3
    simp only at h2' h3'
    subst h2'; subst h3'
    injection h with h
    injection h with e1 e2
    subst e1; subst e2
    exact ⟨by rw [hs]; simp, g, i, f, e, rfl, hg, hi, hf, he⟩
  split at h
  rename_i sign tl heq
  split at heq
  · injection heq with e1 e2
    subst e1; subst e2
    exact key [45] _ rfl (Or.inr rfl) (by simpa using h)
  · injection heq with e1 e2
    subst e1; subst e2
    exact key [] _ rfl (Or.inl rfl) (by simpa using h)

/-! ### Values -/

theorem isPrefix_drop {p s : Bytes} (h : p.isPrefixOf s = true) : s = p ++ s.drop p.length := by
  obtain ⟨t, rfl⟩ := List.isPrefixOf_iff_prefix.1 h
  simp

theorem space_append {a b : Bytes} (ha : Space a) (hb : Space b) : Space (a ++ b) := by
  intro c hc
  rcases List.mem_append.1 hc with h | h
  · exact ha c h
  · exact hb c h

theorem elements_space {C : List Nat → Bytes → Prop} {l : List Json} {t w : Bytes} (hw : Space w) (h : ElementsText C l t) : ElementsText C l (w ++ t) := by
  cases l with
  | nil => rw [ElementsText] at h ⊢; exact space_append hw h
  | cons j js =>
    rw [ElementsText] at h ⊢
    obtain ⟨a, s, b, ha, hb, hj, h⟩ := h
    refine ⟨w ++ a, s, b, space_append hw ha, hb, hj, ?_⟩
    rcases h with ⟨h1, rfl⟩ | ⟨h1, t', h2, rfl⟩
    · exact Or.inl ⟨h1, by simp⟩
    · exact Or.inr ⟨h1, t', h2, by simp⟩

theorem members_space {C : List Nat → Bytes → Prop} {l : List (List Nat × Json)} {t w : Bytes} (hw : Space w) (h : MembersText C l t) :
    MembersText C l (w ++ t) := by
  cases l with
  | nil => rw [MembersText] at h ⊢; exact space_append hw h
  | cons m js =>
    obtain ⟨k, j⟩ := m
    rw [MembersText] at h ⊢
    obtain ⟨a, n, b, c, s, d, ha, hb, hc, hd, hn, hj, h⟩ := h
    refine ⟨w ++ a, n, b, c, s, d, space_append hw ha, hb, hc, hd, hn, hj, ?_⟩
    rcases h with ⟨h1, rfl⟩ | ⟨h1, t', h2, rfl⟩
    · exact Or.inl ⟨h1, by simp⟩
    · exact Or.inr ⟨h1, t', h2, by simp⟩

/-- What the reader accepts, at every fuel. -/
theorem read_sound (fuel : Nat) :
    (∀ depth s j rest, readValue fuel depth s = some (j, rest) → ∃ t, s = t ++ rest ∧ JsonText CharsRead j t ∧ nesting j ≤ depth) ∧
    (∀ depth s l rest, readElements fuel depth s = some (l, rest) →
      l ≠ [] ∧ ∃ t, s = t ++ 93 :: rest ∧ ElementsText CharsRead l t ∧ nestingElements l ≤ depth) ∧
    (∀ depth s ms rest, readMembers fuel depth s = some (ms, rest) →
      ms ≠ [] ∧ ∃ t, s = t ++ 125 :: rest ∧ MembersText CharsRead ms t ∧ nestingMembers ms ≤ depth) := by
  induction fuel with
  | zero =>
    refine ⟨?_, ?_, ?_⟩
    · intro d s j rest h; rw [readValue] at h; cases h
    · intro d s j rest h; rw [readElements] at h; cases h
    · intro d s j rest h; rw [readMembers] at h; cases h
  | succ f ih =>
    obtain ⟨ihv, ihe, ihm⟩ := ih
    refine ⟨?_, ?_, ?_⟩
    · intro depth s j rest h
      rw [readValue.eq_def] at h
      simp only at h
      split at h
      · cases h
      · rename_i c tl
        have hword : ∀ (w : Bytes) (v : Json) (c' : UInt8), c = c' → (if w.isPrefixOf tl then some (v, tl.drop w.length) else none) = some (j, rest) →
            JsonText CharsRead v (c' :: w) → nesting v = 0 → ∃ t, c :: tl = t ++ rest ∧ JsonText CharsRead j t ∧ nesting j ≤ depth := by
          intro w v c' hc h hv hn
          subst hc
          split at h
          · rename_i hp
            injection h with h
            injection h with h1 h2
            subst h1; subst h2
            exact ⟨c :: w, by rw [List.cons_append, ← isPrefix_drop hp], hv, by omega⟩
          · cases h
        split at h
        · rename_i hc
          exact hword (str "ull") .null 110 hc h (by rw [JsonText]; rfl) (by rw [nesting] <;> simp)
        split at h
        · rename_i hc
          exact hword (str "rue") (.bool true) 116 hc h (by rw [JsonText]; rfl) (by rw [nesting] <;> simp)
        split at h
        · rename_i hc
          exact hword (str "alse") (.bool false) 102 hc h (by rw [JsonText]; rfl) (by rw [nesting] <;> simp)
        split at h
        · simp only [Option.map_eq_some_iff] at h
          obtain ⟨⟨rs, r⟩, hs, h⟩ := h
          injection h with h1 h2
          subst h1; subst h2
          obtain ⟨t, ht, hst⟩ := readString_sound hs
          exact ⟨t, ht, by rw [JsonText]; exact hst, by rw [nesting] <;> simp⟩
        split at h
        · rename_i hc
          subst hc
          split at h
          · cases h
          · rename_i d
            obtain ⟨w, hw, hsp⟩ := space_dropped tl
            split at h
            · rename_i r hr
              injection h with h
              injection h with h1 h2
              subst h1; subst h2
              rw [hr] at hsp
              refine ⟨[91] ++ w ++ [93], by rw [hsp]; simp, by rw [JsonText]; exact ⟨w, rfl, by rw [ElementsText]; exact hw⟩, ?_⟩
              rw [nesting, nestingElements]; omega
            · simp only [Option.map_eq_some_iff] at h
              obtain ⟨⟨l, r⟩, hl, h⟩ := h
              injection h with h1 h2
              subst h1; subst h2
              obtain ⟨hne, t, ht, het, hn⟩ := ihe _ _ _ _ hl
              refine ⟨[91] ++ (w ++ t) ++ [93], by rw [hsp, ht]; simp, ?_, by rw [nesting]; simp only; omega⟩
              rw [JsonText]
              exact ⟨w ++ t, rfl, elements_space hw het⟩
        split at h
        · rename_i hc
          subst hc
          split at h
          · cases h
          · rename_i d
            obtain ⟨w, hw, hsp⟩ := space_dropped tl
            split at h
            · rename_i r hr
              injection h with h
              injection h with h1 h2
              subst h1; subst h2
              rw [hr] at hsp
              refine ⟨[123] ++ w ++ [125], by rw [hsp]; simp, by rw [JsonText]; exact ⟨w, rfl, by rw [MembersText]; exact hw⟩, ?_⟩
              rw [nesting, nestingMembers]; omega
            · simp only [Option.map_eq_some_iff] at h
              obtain ⟨⟨l, r⟩, hl, h⟩ := h
              injection h with h1 h2
              subst h1; subst h2
              obtain ⟨hne, t, ht, het, hn⟩ := ihm _ _ _ _ hl
              refine ⟨[123] ++ (w ++ t) ++ [125], by rw [hsp, ht]; simp, ?_, by rw [nesting]; simp only; omega⟩
              rw [JsonText]
              exact ⟨w ++ t, rfl, members_space hw het⟩
        · simp only [Option.map_eq_some_iff] at h
          obtain ⟨⟨rs, r⟩, hs, h⟩ := h
          injection h with h1 h2
          subst h1; subst h2
          obtain ⟨ht, hst⟩ := readNumber_sound hs
          exact ⟨_, ht, by rw [JsonText]; exact ⟨rfl, hst⟩, by rw [nesting] <;> simp⟩
    · intro depth s l rest h
      rw [readElements] at h
      simp only [Option.bind_eq_bind, Option.bind_eq_some_iff] at h
      obtain ⟨⟨j, r1⟩, hj, h⟩ := h
      obtain ⟨t, rfl, hjt, hjn⟩ := ihv _ _ _ _ hj
      obtain ⟨w, hw, hsp⟩ := space_dropped r1
      simp only at h
      split at h
      · rename_i r2 hr2
        simp only [Option.bind_eq_some_iff] at h
        obtain ⟨⟨js, r3⟩, hjs, h⟩ := h
        injection h with h
        injection h with h1 h2
        simp only at h1 h2
        subst h1; subst h2
        obtain ⟨w', hw', hsp'⟩ := space_dropped r2
        obtain ⟨hne, t', ht', het', hn'⟩ := ihe _ _ _ _ hjs
        refine ⟨by simp, t ++ w ++ [44] ++ (w' ++ t'), ?_, ?_, by rw [nestingElements]; omega⟩
        · rw [hsp, hr2, hsp', ht']; simp
        · rw [ElementsText]
          exact ⟨[], t, w, space_nil, hw, hjt, Or.inr ⟨hne, w' ++ t', elements_space hw' het', by simp⟩⟩
      · rename_i r2 hr2
        injection h with h
        injection h with h1 h2
        subst h1; subst h2
        refine ⟨by simp, t ++ w, ?_, ?_, by rw [nestingElements, nestingElements]; omega⟩
        · rw [hsp, hr2]; simp
        · rw [ElementsText]
          exact ⟨[], t, w, space_nil, hw, hjt, Or.inl ⟨rfl, by simp⟩⟩
      · cases h
    · intro depth s ms rest h
      rw [readMembers] at h
      simp only [Option.bind_eq_bind, Option.bind_eq_some_iff] at h
      obtain ⟨⟨k, r0⟩, hk, h⟩ := h
      obtain ⟨n, rfl, hkn⟩ := readString_sound hk
      obtain ⟨w0, hw0, hsp0⟩ := space_dropped r0
      simp only at h
      split at h
      · rename_i r1 hr1
        simp only [Option.bind_eq_some_iff] at h
        obtain ⟨⟨j, r2⟩, hj, h⟩ := h
        obtain ⟨w1, hw1, hsp1⟩ := space_dropped r1
        obtain ⟨t, ht, hjt, hjn⟩ := ihv _ _ _ _ hj
        obtain ⟨w, hw, hsp⟩ := space_dropped r2
        simp only at h
        split at h
        · rename_i r3 hr3
          simp only [Option.bind_eq_some_iff] at h
          obtain ⟨⟨js, r4⟩, hjs, h⟩ := h
          injection h with h
          injection h with h1 h2
          simp only at h1 h2
          subst h1; subst h2
          obtain ⟨w', hw', hsp'⟩ := space_dropped r3
          obtain ⟨hne, t', ht', het', hn'⟩ := ihm _ _ _ _ hjs
          refine ⟨by simp, n ++ w0 ++ [58] ++ w1 ++ t ++ w ++ [44] ++ (w' ++ t'), ?_, ?_, by rw [nestingMembers]; omega⟩
          · rw [hsp0, hr1, hsp1, ht, hsp, hr3, hsp', ht']; simp
          · rw [MembersText]
            exact ⟨[], n, w0, w1, t, w, space_nil, hw0, hw1, hw, hkn, hjt, Or.inr ⟨hne, w' ++ t', members_space hw' het', by simp⟩⟩
        · rename_i r3 hr3
          injection h with h
          injection h with h1 h2
          subst h1; subst h2
          refine ⟨by simp, n ++ w0 ++ [58] ++ w1 ++ t ++ w, ?_, ?_, by rw [nestingMembers, nestingMembers]; omega⟩
          · rw [hsp0, hr1, hsp1, ht, hsp, hr3]; simp
          · rw [MembersText]
            exact ⟨[], n, w0, w1, t, w, space_nil, hw0, hw1, hw, hkn, hjt, Or.inl ⟨rfl, by simp⟩⟩
        · cases h
      · cases h

/-- What the reader accepts starts with a JSON text of the value it returns. -/
theorem readJson_sound {text : Bytes} {j : Json} (h : readJson text = some j) :
    ∃ a s rest, text = a ++ s ++ rest ∧ Space a ∧ JsonText CharsRead j s ∧ nesting j ≤ 10000 := by
  unfold readJson at h
  simp only [Option.map_eq_some_iff] at h
  obtain ⟨⟨j', rest⟩, h, rfl⟩ := h
  obtain ⟨t, ht, hj, hn⟩ := (read_sound _).1 _ _ _ _ h
  obtain ⟨w, hw, hsp⟩ := space_dropped text
  exact ⟨w, t, rest, by rw [hsp, ht]; simp, hw, hj, hn⟩

end Midiasm
