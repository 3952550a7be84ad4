import Verif.Model.Text
import Verif.Spec.Text
import Verif.Lemmas.Basic

/-!
Numbers, hexadecimal strings and UTF-8.
-/

set_option linter.unusedSimpArgs false
set_option linter.unusedTactic false
set_option linter.unreachableTactic false
set_option linter.unnecessarySeqFocus false

namespace Midiasm
open Spec

/-! ### Numbers -/

theorem decAux_stable (f : Nat) : ∀ (g n : Nat), n < f → n < g → decAux f n = decAux g n := by
  induction f with
  | zero => intro g n h; omega
  | succ f ih =>
    intro g n h hg
    cases g with
    | zero => omega
    | succ g =>
      simp only [decAux]
      split
      · rfl
      · rw [ih g (n / 10) (by omega) (by omega)]

theorem dec_eq (n : Nat) : dec n = if n < 10 then [UInt8.ofNat (48 + n)] else dec (n / 10) ++ [UInt8.ofNat (48 + n % 10)] := by
  unfold dec
  rw [decAux]
  split
  · rfl
  · rw [decAux_stable n (n / 10 + 1) (n / 10) (by omega) (by omega)]

theorem utf8_digitChar (d : Nat) (h : d < 10) : String.utf8EncodeChar d.digitChar = [UInt8.ofNat (48 + d)] := by
  have : ∀ d : Fin 10, String.utf8EncodeChar (d.val).digitChar = [UInt8.ofNat (48 + d.val)] := by decide +kernel
  exact this ⟨d, h⟩

/-- Numbers are printed in decimal. -/
theorem dec_eq_repr (n : Nat) : dec n = str (toString n) := by
  have key : ∀ n, dec n = (Nat.toDigits 10 n).flatMap String.utf8EncodeChar := by
    intro n
    induction n using Nat.strongRecOn with
    | _ n ih =>
      rw [dec_eq]
      split
      · rename_i h
        rw [Nat.toDigits_of_lt_base h]
        simp [utf8_digitChar n h]
      · rename_i h
        rw [Nat.toDigits_of_base_le (by omega) (by omega), ih (n / 10) (by omega)]
        simp [utf8_digitChar (n % 10) (by omega)]
  rw [key]
  show _ = (String.ofList (Nat.toDigits 10 n)).toList.flatMap _
  rw [String.toList_ofList]

theorem dec_ne_nil (n : Nat) : dec n ≠ [] := by
  rw [dec_eq]; split <;> simp

/-- Decimal digits only. -/
theorem dec_digits (n : Nat) : ∀ c ∈ dec n, 48 ≤ c ∧ c ≤ 57 := by
  induction n using Nat.strongRecOn with
  | _ n ih =>
    have hd : ∀ d, d < 10 → (48 : UInt8) ≤ UInt8.ofNat (48 + d) ∧ UInt8.ofNat (48 + d) ≤ 57 := by
      intro d h
      have : ∀ d : Fin 10, (48 : UInt8) ≤ UInt8.ofNat (48 + d.val) ∧ UInt8.ofNat (48 + d.val) ≤ 57 := by decide +kernel
      exact this ⟨d, h⟩
    rw [dec_eq]
    split
    · rename_i h
      intro c hc
      simp only [List.mem_singleton] at hc
      subst hc; exact hd n h
    · rename_i h
      intro c hc
      rw [List.mem_append, List.mem_singleton] at hc
      rcases hc with hc | hc
      · exact ih (n / 10) (by omega) c hc
      · subst hc; exact hd _ (by omega)

/-! ### Hexadecimal -/

theorem hex2_spec (b : UInt8) : hex2 b = [upperDigit (b.toNat / 16), upperDigit (b.toNat % 16)] :=
  all8 (P := fun b => hex2 b = [upperDigit (b.toNat / 16), upperDigit (b.toNat % 16)]) (by decide +kernel) b

theorem hex2_nospace (b : UInt8) : ∀ c ∈ hex2 b, isSpace c = false ∧ reSpace c = false :=
  all8 (P := fun b => ∀ c ∈ hex2 b, isSpace c = false ∧ reSpace c = false) (by decide +kernel) b

theorem hex2_ne (b : UInt8) : ∃ x y, hex2 b = [x, y] := ⟨_, _, rfl⟩

theorem trimSpace_hex (bs : Bytes) : hexString bs = hexDisplay bs := by
  unfold hexString hexDisplay trimSpace
  have hstart : ∀ bs : Bytes, (bs.flatMap (fun b => hex2 b ++ [32])).dropWhile isSpace = bs.flatMap (fun b => hex2 b ++ [32]) := by
    intro bs
    cases bs with
    | nil => rfl
    | cons b t =>
      obtain ⟨x, y, h⟩ := hex2_ne b
      have hx := (hex2_nospace b x (by simp [h])).1
      simp [h, List.dropWhile, hx]
  rw [hstart]
  cases hbs : bs with
  | nil => rfl
  | cons b0 t0 =>
    rw [← hbs]
    have hne : bs ≠ [] := by simp [hbs]
    have hform : ∀ bs : Bytes, bs ≠ [] →
        bs.flatMap (fun b => hex2 b ++ [32]) = List.intercalate [32] (bs.map hex2) ++ [32] := by
      intro bs
      induction bs with
      | nil => simp
      | cons b t ih =>
        intro _
        cases t with
        | nil => simp [List.intercalate]
        | cons c t =>
          have := ih (by simp)
          simp only [List.flatMap_cons, List.map_cons] at this ⊢
          rw [this]
          simp [List.intercalate, List.intersperse]
    have hlast : ∀ bs : Bytes, bs ≠ [] → ∃ l y, List.intercalate [32] (bs.map hex2) = l ++ [y] ∧ isSpace y = false := by
      intro bs
      induction bs with
      | nil => simp
      | cons b t ih =>
        intro _
        cases t with
        | nil =>
          obtain ⟨x, y, h⟩ := hex2_ne b
          exact ⟨[x], y, by simp [List.intercalate, h], (hex2_nospace b y (by simp [h])).1⟩
        | cons c t =>
          obtain ⟨l, y, h1, h2⟩ := ih (by simp)
          refine ⟨hex2 b ++ [32] ++ l, y, ?_, h2⟩
          simp only [List.map_cons] at h1 ⊢
          simp only [List.intercalate, List.intersperse] at h1 ⊢
          simp [h1]
    rw [hform bs hne]
    obtain ⟨l, y, h1, h2⟩ := hlast bs hne
    rw [h1]
    have h32 : isSpace 32 = true := by decide
    simp only [List.reverse_append, List.reverse_cons, List.reverse_nil, List.nil_append, List.singleton_append,
      List.dropWhile_cons, h32, h2]
    simp only [if_true, Bool.false_eq_true, if_false, List.reverse_cons, List.reverse_reverse]
    rw [← h1]
    congr 1
    apply List.map_congr_left
    intro b _
    exact hex2_spec b

theorem hexValue_spec (c : UInt8) (v : Nat) : HexDigit c v ↔ ∃ x, hexValue c = some x ∧ x.toNat = v ∧ v < 16 := by
  by_cases hv : v < 16
  · have : ∀ v : Fin 16, ∀ n : Fin 256, HexDigit (UInt8.ofNat n) v.val ↔ ∃ x, hexValue (UInt8.ofNat n) = some x ∧ x.toNat = v.val := by
      have h : ∀ v : Fin 16, ∀ n : Fin 256, HexDigit (UInt8.ofNat n) v.val ↔
          (hexValue (UInt8.ofNat n)).map (fun x => x.toNat) = some v.val := by
        unfold HexDigit; decide +kernel
      intro v n
      rw [h v n, Option.map_eq_some_iff]
    have h2 := all8 (P := fun c => HexDigit c v ↔ ∃ x, hexValue c = some x ∧ x.toNat = v) (this ⟨v, hv⟩) c
    rw [h2]
    simp [hv]
  · constructor
    · intro h
      exfalso
      have hl : ∀ s : Bytes, s.length = 16 → s[v]? = none := by
        intro s hs; apply List.getElem?_eq_none; omega
      rcases h with h | h <;> rw [hl _ (by decide +kernel)] at h <;> simp at h
    · rintro ⟨x, _, _, h⟩; exact absurd h hv

theorem reSpace_eq (b : UInt8) : (!reSpace b) = decide (b ∉ blanks) :=
  all8 (P := fun b => (!reSpace b) = decide (b ∉ blanks)) (by decide +kernel) b

theorem hexValue_lt (c x : UInt8) (h : hexValue c = some x) : x.toNat < 16 := by
  have : ∀ c, ∀ y ∈ hexValue c, y.toNat < 16 := fun c =>
    all8 (P := fun c => ∀ y ∈ hexValue c, y.toNat < 16) (by
      have : ∀ n : Fin 256, (hexValue (UInt8.ofNat n)).all (fun y => decide (y.toNat < 16)) = true := by decide +kernel
      intro n y hy
      have := this n
      rw [Option.mem_def] at hy
      rw [hy] at this
      simpa using this) c
  exact this c x h

theorem nibbles (x y : UInt8) (hx : x.toNat < 16) (hy : y.toNat < 16) : (x <<< 4 ||| y).toNat = 16 * x.toNat + y.toNat := by
  have : ∀ x y : Fin 16, (UInt8.ofNat x.val <<< 4 ||| UInt8.ofNat y.val).toNat = 16 * x.val + y.val := by decide +kernel
  have h := this ⟨x.toNat, hx⟩ ⟨y.toNat, hy⟩
  simpa using h

theorem hexDecode_iff (s : Bytes) : ∀ bs : Bytes,
    hexDecode s = .ok bs ↔ List.Forall₂ HexDigit s (bs.flatMap (fun b => [b.toNat / 16, b.toNat % 16])) := by
  induction s using hexDecode.induct with
  | case1 =>
    intro bs
    cases bs <;> simp [hexDecode]
  | case2 c =>
    intro bs
    cases bs <;> simp [hexDecode]
  | case3 a b rest x y hy hx ih =>
    intro bs
    have e : hexDecode (a :: b :: rest) = (hexDecode rest >>= fun bs => .ok ((x <<< 4 ||| y) :: bs)) := by
      simp only [hexDecode, hx, hy]
    rw [e]
    have hx16 := hexValue_lt a x hx
    have hy16 := hexValue_lt b y hy
    have hn := nibbles x y hx16 hy16
    cases bs with
    | nil => cases hexDecode rest <;> simp
    | cons v bs =>
      simp only [List.flatMap_cons, List.cons_append, List.nil_append, List.forall₂_cons]
      rw [hexValue_spec, hexValue_spec, ← ih bs, hx, hy]
      simp only [Option.some.injEq, exists_eq_left']
      constructor
      · intro h
        cases hr : hexDecode rest with
        | ok r =>
          rw [hr] at h
          simp only [Outcome.bind_ok, Outcome.ok.injEq, List.cons.injEq] at h
          obtain ⟨h1, h2⟩ := h
          subst h1 h2
          rw [hn]
          exact ⟨⟨by omega, by omega⟩, ⟨by omega, by omega⟩, rfl⟩
        | err e => rw [hr] at h; simp at h
        | panic => rw [hr] at h; simp at h
        | diverge => rw [hr] at h; simp at h
      · rintro ⟨⟨h1, _⟩, ⟨h2, _⟩, h3⟩
        rw [h3]
        simp only [Outcome.bind_ok, Outcome.ok.injEq, List.cons.injEq, and_true]
        apply u8_ext
        rw [hn]; omega
  | case4 a b rest hno =>
    intro bs
    have e : hexDecode (a :: b :: rest) = .err .other := by
      cases ha : hexValue a <;> cases hb : hexValue b <;> simp only [hexDecode, ha, hb]
      exact absurd hb (hno _ _ ha)
    rw [e]
    cases bs with
    | nil => simp
    | cons v bs =>
      simp only [List.flatMap_cons, List.cons_append, List.nil_append, List.forall₂_cons]
      rw [hexValue_spec, hexValue_spec]
      constructor
      · intro h; simp at h
      · rintro ⟨⟨x, h1, _⟩, ⟨y, h2, _⟩, _⟩
        exact absurd h2 (hno _ _ h1)

theorem hexDecode_returns (s : Bytes) : (∃ bs, hexDecode s = .ok bs) ∨ ∃ e, hexDecode s = .err e := by
  induction s using hexDecode.induct with
  | case1 => exact Or.inl ⟨_, rfl⟩
  | case2 c => exact Or.inr ⟨_, rfl⟩
  | case3 a b rest x y hy hx ih =>
    simp only [hexDecode, hx, hy]
    rcases ih with ⟨bs, h⟩ | ⟨e, h⟩
    · exact Or.inl ⟨_, by rw [h]; rfl⟩
    · exact Or.inr ⟨e, by rw [h]; rfl⟩
  | case4 a b rest hno =>
    refine Or.inr ⟨.other, ?_⟩
    cases ha : hexValue a <;> cases hb : hexValue b <;> simp only [hexDecode, ha, hb]
    exact absurd hb (hno _ _ ha)

/-! ### UTF-8 -/

theorem drop_decode_length (b : UInt8) (rest : Bytes) : (rest.drop (decodeRune b rest).2).length ≤ rest.length := by
  simp

theorem runesAux_stable (f : Nat) : ∀ (g : Nat) (s : Bytes), s.length ≤ f → s.length ≤ g → runesAux f s = runesAux g s := by
  induction f with
  | zero =>
    intro g s h _
    have : s = [] := List.length_eq_zero_iff.mp (by omega)
    subst this
    cases g <;> rfl
  | succ f ih =>
    intro g s h hg
    cases s with
    | nil => cases g <;> rfl
    | cons b rest =>
      cases g with
      | zero => simp at hg
      | succ g =>
        simp only [runesAux]
        simp only [List.length_cons] at h hg
        rw [ih g _ (by simp; omega) (by simp; omega)]

theorem runes_nil : runes [] = [] := rfl

theorem runes_cons (b : UInt8) (rest : Bytes) :
    runes (b :: rest) = (decodeRune b rest).1 :: runes (rest.drop (decodeRune b rest).2) := by
  unfold runes
  simp only [List.length_cons, runesAux]
  rw [runesAux_stable rest.length _ _ (by simp) (Nat.le_refl _)]

theorem isCont_toNat (b : UInt8) : isCont b = true ↔ 0x80 ≤ b.toNat ∧ b.toNat ≤ 0xbf := by
  simp [isCont, UInt8.le_iff_toNat_le]

theorem ite_scalar {c : Prop} [Decidable c] {x : Nat × Nat} (h : c → Scalar x.1) :
    Scalar (if c then x else (runeError, 0)).1 := by
  split
  · rename_i hc; exact h hc
  · simp [Scalar, runeError]

theorem ite_width {c : Prop} [Decidable c] {x : Nat × Nat} {n : Nat} (h : x.2 ≤ n) : (if c then x else (runeError, 0)).2 ≤ n := by
  split
  · exact h
  · simp

/-- Every decoded rune is a Unicode scalar value. -/
theorem decodeRune_scalar (b : UInt8) (rest : Bytes) : Scalar (decodeRune b rest).1 := by
  have hb := b.toNat_lt
  unfold decodeRune
  simp only [UInt8.lt_iff_toNat_lt, UInt8.le_iff_toNat_le, ← UInt8.toNat_inj, Bool.and_eq_true, decide_eq_true_eq]
  split
  · simp only [Scalar]; simp at *; omega
  split
  · simp [Scalar, runeError]
  split
  · split
    · rename_i b1 _
      refine ite_scalar fun h => ?_
      simp only [Scalar]; rw [isCont_toNat] at h; simp at *; omega
    · simp [Scalar, runeError]
  split
  · split
    · rename_i b1 b2 _
      refine ite_scalar fun h => ?_
      obtain ⟨h, h2⟩ := h
      rw [isCont_toNat] at h2
      simp only [Scalar]
      split at h
      · simp [UInt8.le_iff_toNat_le] at *; omega
      · split at h
        · simp [UInt8.le_iff_toNat_le] at *; omega
        · rw [isCont_toNat] at h; simp at *; omega
    · simp [Scalar, runeError]
  split
  · split
    · rename_i b1 b2 b3 _
      refine ite_scalar fun h => ?_
      obtain ⟨⟨h, h2⟩, h3⟩ := h
      rw [isCont_toNat] at h2 h3
      simp only [Scalar]
      split at h
      · simp [UInt8.le_iff_toNat_le] at *; omega
      · split at h
        · simp [UInt8.le_iff_toNat_le] at *; omega
        · rw [isCont_toNat] at h; simp at *; omega
    · simp [Scalar, runeError]
  · simp [Scalar, runeError]

theorem runes_scalar (s : Bytes) : ∀ v ∈ runes s, Scalar v := by
  generalize hn : s.length = n
  induction n using Nat.strongRecOn generalizing s with
  | _ n ih =>
    cases s with
    | nil => simp [runes_nil]
    | cons b rest =>
      rw [runes_cons]
      intro v hv
      rw [List.mem_cons] at hv
      rcases hv with hv | hv
      · subst hv; exact decodeRune_scalar b rest
      · exact ih _ (by simp at hn; simp; omega) _ rfl v hv

/-- Decoding what was encoded. -/
theorem decode_encode (v : Nat) (hv : Scalar v) (t : Bytes) :
    ∃ b rest, encodeRune v = b :: rest ∧ decodeRune b (rest ++ t) = (v, rest.length) := by
  unfold encodeRune
  unfold Scalar at hv
  have hof : ∀ n, n < 256 → (UInt8.ofNat n).toNat = n := by intro n h; simp; omega
  split
  · refine ⟨_, _, rfl, ?_⟩
    have h1 := hof v (by omega)
    simp only [decodeRune, UInt8.lt_iff_toNat_lt, h1]
    rw [if_pos (by simp <;> omega)]
    rfl
  split
  · refine ⟨_, _, rfl, ?_⟩
    have h1 := hof (v / 64 % 32 + 192) (by omega)
    have h2 := hof (v % 64 + 128) (by omega)
    have c2 : isCont (UInt8.ofNat (v % 64 + 128)) = true := by rw [isCont_toNat, h2]; omega
    simp only [decodeRune, UInt8.lt_iff_toNat_lt, h1, h2, c2, List.cons_append, List.nil_append]
    rw [if_neg (by simp <;> omega), if_neg (by simp <;> omega), if_pos (by simp <;> omega)]
    simp; omega
  split
  · refine ⟨_, _, rfl, ?_⟩
    have h1 := hof (v / 4096 % 16 + 224) (by omega)
    have h2 := hof (v / 64 % 64 + 128) (by omega)
    have h3 := hof (v % 64 + 128) (by omega)
    have c2 : isCont (UInt8.ofNat (v / 64 % 64 + 128)) = true := by rw [isCont_toNat, h2]; omega
    have c3 : isCont (UInt8.ofNat (v % 64 + 128)) = true := by rw [isCont_toNat, h3]; omega
    simp only [decodeRune, UInt8.lt_iff_toNat_lt, UInt8.le_iff_toNat_le, ← UInt8.toNat_inj, h1, h2, h3, c2, c3,
      List.cons_append, List.nil_append]
    rw [if_neg (by simp <;> omega), if_neg (by simp <;> omega), if_neg (by simp <;> omega), if_pos (by simp <;> omega), if_pos]
    · simp; omega
    · simp only [Bool.and_true]
      split
      · simp at *; omega
      · split
        · simp at *; omega
        · rfl
  · refine ⟨_, _, rfl, ?_⟩
    have h1 := hof (v / 262144 % 8 + 240) (by omega)
    have h2 := hof (v / 4096 % 64 + 128) (by omega)
    have h3 := hof (v / 64 % 64 + 128) (by omega)
    have h4 := hof (v % 64 + 128) (by omega)
    have c2 : isCont (UInt8.ofNat (v / 4096 % 64 + 128)) = true := by rw [isCont_toNat, h2]; omega
    have c3 : isCont (UInt8.ofNat (v / 64 % 64 + 128)) = true := by rw [isCont_toNat, h3]; omega
    have c4 : isCont (UInt8.ofNat (v % 64 + 128)) = true := by rw [isCont_toNat, h4]; omega
    simp only [decodeRune, UInt8.lt_iff_toNat_lt, UInt8.le_iff_toNat_le, ← UInt8.toNat_inj, h1, h2, h3, h4, c2, c3, c4,
      List.cons_append, List.nil_append]
    rw [if_neg (by simp <;> omega), if_neg (by simp <;> omega), if_neg (by simp <;> omega), if_neg (by simp <;> omega),
      if_pos (by simp <;> omega), if_pos]
    · simp; omega
    · simp only [Bool.and_true]
      split
      · simp at *; omega
      · split
        · simp at *; omega
        · rfl

theorem runes_encode_append (v : Nat) (hv : Scalar v) (t : Bytes) : runes (encodeRune v ++ t) = v :: runes t := by
  obtain ⟨b, rest, h1, h2⟩ := decode_encode v hv t
  rw [h1, List.cons_append, runes_cons, h2]
  simp

theorem runes_ofRunes_append (rs : List Nat) (h : ∀ v ∈ rs, Scalar v) (t : Bytes) : runes (ofRunes rs ++ t) = rs ++ runes t := by
  induction rs with
  | nil => rfl
  | cons v rs ih =>
    simp only [ofRunes, List.flatMap_cons, List.append_assoc, List.cons_append]
    rw [runes_encode_append v (h v (by simp))]
    have := ih (fun w hw => h w (by simp [hw]))
    unfold ofRunes at this
    rw [this]

theorem encodeRune_char (c : Char) : encodeRune c.val.toNat = String.utf8EncodeChar c := rfl

theorem char_scalar (c : Char) : Scalar c.val.toNat := by
  have := c.valid
  simp only [UInt32.isValidChar, Nat.isValidChar] at this
  unfold Scalar
  omega

theorem ofRunes_chars (cs : List Char) : ofRunes (cs.map (fun c => c.val.toNat)) = cs.flatMap String.utf8EncodeChar := by
  simp only [ofRunes, List.flatMap_map]
  rfl

theorem runes_chars (cs : List Char) : runes (cs.flatMap String.utf8EncodeChar) = cs.map (fun c => c.val.toNat) := by
  have := runes_ofRunes_append (cs.map (fun c => c.val.toNat)) (by
    intro v hv
    rw [List.mem_map] at hv
    obtain ⟨c, _, rfl⟩ := hv
    exact char_scalar c) []
  rw [List.append_nil, ofRunes_chars] at this
  rw [this, runes_nil, List.append_nil]

/-- Decoding is not affected by what follows, if that starts with an ASCII character. -/
theorem decodeRune_append (b : UInt8) (rest : Bytes) (a : UInt8) (t : Bytes) (ha : a.toNat < 128) :
    decodeRune b (rest ++ a :: t) = decodeRune b rest ∧ (decodeRune b rest).2 ≤ rest.length := by
  have hca : isCont a = false := by
    rw [Bool.eq_false_iff]; intro h; rw [isCont_toNat] at h; omega
  have h1 : ∀ x y : UInt8, 0x80 ≤ x.toNat → (decide (x ≤ a) && decide (a ≤ y)) = false := by
    intro x y hx
    rw [Bool.and_eq_false_iff]; left
    simp [UInt8.le_iff_toNat_le]; omega
  unfold decodeRune
  split
  · simp
  split
  · simp
  split
  · match rest with
    | [] => simp [hca]
    | b1 :: r => exact ⟨rfl, ite_width (by simp)⟩
  split
  · match rest with
    | [] =>
      cases t with
      | nil => simp
      | cons x t =>
        simp only [List.nil_append]
        rw [if_neg]
        · simp
        · rw [h1 0xa0 _ (by decide), h1 0x80 _ (by decide), hca]; simp
    | [b1] => simp [hca]
    | b1 :: b2 :: r => exact ⟨rfl, ite_width (by simp)⟩
  split
  · match rest with
    | [] =>
      match t with
      | [] => simp
      | [_] => simp
      | x :: y :: t =>
        simp only [List.nil_append]
        rw [if_neg]
        · simp
        · rw [h1 0x90 _ (by decide), h1 0x80 _ (by decide), hca]; simp
    | [b1] =>
      cases t with
      | nil => simp
      | cons x t => simp [hca]
    | [b1, b2] => simp [hca]
    | b1 :: b2 :: b3 :: r => exact ⟨rfl, ite_width (by simp)⟩
  · simp

theorem runes_append_ascii (s : Bytes) (n : Nat) : runes (s ++ List.replicate n 32) = runes s ++ List.replicate n 32 := by
  generalize hn : s.length = k
  induction k using Nat.strongRecOn generalizing s with
  | _ k ih =>
    cases s with
    | nil =>
      rw [List.nil_append, runes_nil, List.nil_append]
      clear ih
      induction n with
      | zero => rfl
      | succ n ih =>
        rw [List.replicate_succ, List.replicate_succ, runes_cons]
        have : decodeRune 32 (List.replicate n 32) = (32, 0) := by rfl
        rw [this]
        simp [ih]
    | cons b rest =>
      cases n with
      | zero => simp
      | succ n =>
        have h := decodeRune_append b rest 32 (List.replicate n 32) (by decide)
        rw [List.cons_append, runes_cons, runes_cons, List.replicate_succ, h.1]
        rw [List.drop_append_of_le_length h.2, ← List.replicate_succ]
        rw [ih _ (by simp at hn; simp; omega) _ rfl]
        rfl

end Midiasm
