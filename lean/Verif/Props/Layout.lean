import Verif.Props.JsonText
import Verif.Spec.Layout

/-!
Property C118: the layout of exported documents.
-/

set_option linter.unusedSimpArgs false

namespace Midiasm
open Spec

/-- Bytes without a meaning for the layout. -/
def Ordinary (c : UInt8) : Prop := c ∉ ([34, 91, 123, 93, 125, 44, 58, 32, 10] : Bytes)

theorem laid_ordinary {s : Bytes} (hs : ∀ c ∈ s, Ordinary c) (rest : Bytes) (d : Nat) (h : ∀ q, LaidOut .code q d rest) (p : UInt8) :
    LaidOut .code p d (s ++ rest) := by
  induction s generalizing p with
  | nil => exact h p
  | cons c s ih =>
    have hc := hs c (by simp)
    unfold Ordinary at hc
    simp only [List.mem_cons, List.not_mem_nil, or_false, not_or] at hc
    obtain ⟨h1, h2, h3, h4, h5, h6, h7, h8, h9⟩ := hc
    rw [List.cons_append, LaidOut, if_neg h1, if_neg (not_or.mpr ⟨h2, h3⟩), if_neg (not_or.mpr ⟨h4, h5⟩), if_neg h6, if_neg h7, if_neg h8,
      if_neg h9]
    exact ih (fun c hc => hs c (by simp [hc])) c

/-- Bytes that do not leave a string. -/
theorem laid_inside {s : Bytes} (hs : ∀ c ∈ s, c ≠ 10 ∧ c ≠ 34 ∧ c ≠ 92) (rest : Bytes) (d : Nat) (h : ∀ q, LaidOut .string q d rest) (p : UInt8) :
    LaidOut .string p d (s ++ rest) := by
  induction s generalizing p with
  | nil => exact h p
  | cons c s ih =>
    obtain ⟨h1, h2, h3⟩ := hs c (by simp)
    rw [List.cons_append, LaidOut, if_neg h2, if_neg h3]
    exact ⟨h1, ih (fun c hc => hs c (by simp [hc])) c⟩

theorem laid_escaped {x : UInt8} (hx : x ≠ 10) (rest : Bytes) (d : Nat) (h : ∀ q, LaidOut .string q d rest) (p : UInt8) :
    LaidOut .string p d ([92, x] ++ rest) := by
  simp only [List.cons_append, List.nil_append]
  rw [LaidOut, if_neg (by decide), if_pos rfl, LaidOut]
  exact ⟨by decide, hx, h x⟩

theorem byte_ne {n m : Nat} (hn : n < 256) (hm : m < 256) (h : n ≠ m) : UInt8.ofNat n ≠ UInt8.ofNat m := by
  intro he
  have := congrArg UInt8.toNat he
  simp only [UInt8.toNat_ofNat'] at this
  omega

theorem lowerHex_bytes (n : Nat) (h : n < 16) : lowerHex n ≠ 10 ∧ lowerHex n ≠ 34 ∧ lowerHex n ≠ 92 ∧ lowerHex n ≠ 60 ∧ lowerHex n ≠ 62 ∧
    lowerHex n ≠ 38 ∧ 32 ≤ (lowerHex n).toNat := by
  have : ∀ n : Fin 16, lowerHex n.val ≠ 10 ∧ lowerHex n.val ≠ 34 ∧ lowerHex n.val ≠ 92 ∧ lowerHex n.val ≠ 60 ∧ lowerHex n.val ≠ 62 ∧
    lowerHex n.val ≠ 38 ∧ 32 ≤ (lowerHex n.val).toNat := by decide +kernel
  exact this ⟨n, h⟩

/-- The bytes of an unescaped character. -/
theorem encodeRune_bytes (r : Nat) : ∀ c ∈ encodeRune r, c = UInt8.ofNat r ∧ r ≤ 0x7f ∨ 128 ≤ c.toNat := by
  intro c hc
  unfold encodeRune at hc
  split at hc
  · rename_i h
    simp only [List.mem_cons, List.not_mem_nil, or_false] at hc
    exact Or.inl ⟨hc, h⟩
  · right
    have hb : ∀ n, n < 256 → 128 ≤ n → 128 ≤ (UInt8.ofNat n).toNat := by
      intro n h1 h2
      simp only [UInt8.toNat_ofNat']
      omega
    split at hc
    · simp only [List.mem_cons, List.not_mem_nil, or_false] at hc
      rcases hc with rfl | rfl <;> exact hb _ (by omega) (by omega)
    · split at hc
      · simp only [List.mem_cons, List.not_mem_nil, or_false] at hc
        rcases hc with rfl | rfl | rfl <;> exact hb _ (by omega) (by omega)
      · simp only [List.mem_cons, List.not_mem_nil, or_false] at hc
        rcases hc with rfl | rfl | rfl | rfl <;> exact hb _ (by omega) (by omega)

theorem byte_high {c : UInt8} (h : 128 ≤ c.toNat) (n : Nat) (hn : n < 128) : c ≠ UInt8.ofNat n := by
  intro he
  rw [he, UInt8.toNat_ofNat'] at h
  omega

theorem laid_unicode (r : Nat) (rest : Bytes) (d : Nat) (h : ∀ q, LaidOut .string q d rest) (p : UInt8) :
    LaidOut .string p d (unicodeEscape r ++ rest) := by
  have := laid_escaped (x := 117) (by decide)
    ([lowerHex (r / 4096 % 16), lowerHex (r / 256 % 16), lowerHex (r / 16 % 16), lowerHex (r % 16)] ++ rest) d (fun q => laid_inside (by
      intro c hc
      have hb := fun n h => (lowerHex_bytes n h)
      simp only [List.mem_cons, List.not_mem_nil, or_false] at hc
      rcases hc with rfl | rfl | rfl | rfl <;>
        exact ⟨(hb _ (by omega)).1, (hb _ (by omega)).2.1, (hb _ (by omega)).2.2.1⟩) rest d h q) p
  exact this

theorem laid_rune (r : Nat) (rest : Bytes) (d : Nat) (h : ∀ q, LaidOut .string q d rest) (p : UInt8) : LaidOut .string p d (writeRune r ++ rest) := by
  unfold writeRune
  split
  · exact laid_escaped (by decide) rest d h p
  split
  · exact laid_escaped (by decide) rest d h p
  split
  · exact laid_escaped (by decide) rest d h p
  split
  · exact laid_escaped (by decide) rest d h p
  split
  · exact laid_escaped (by decide) rest d h p
  split
  · exact laid_escaped (by decide) rest d h p
  split
  · exact laid_escaped (by decide) rest d h p
  split
  · exact laid_unicode r rest d h p
  split
  · exact laid_unicode _ rest d h p
  · apply laid_inside _ rest d h p
    intro c hc
    rcases encodeRune_bytes r c hc with ⟨rfl, hr⟩ | hh
    · exact ⟨byte_ne (m := 10) (by omega) (by omega) (by omega), byte_ne (m := 34) (by omega) (by omega) (by omega),
        byte_ne (m := 92) (by omega) (by omega) (by omega)⟩
    · exact ⟨byte_high hh 10 (by decide), byte_high hh 34 (by decide), byte_high hh 92 (by decide)⟩

theorem laid_string (rs : List Nat) (rest : Bytes) (d : Nat) (h : ∀ q, LaidOut .code q d rest) (p : UInt8) :
    LaidOut .code p d (writeString rs ++ rest) := by
  unfold writeString
  simp only [List.cons_append, List.nil_append, List.append_assoc]
  rw [LaidOut, if_pos rfl]
  have : ∀ q, LaidOut .string q d (rs.flatMap writeRune ++ 34 :: rest) := by
    induction rs with
    | nil =>
      intro q
      rw [List.flatMap_nil, List.nil_append, LaidOut, if_pos rfl]
      exact ⟨by decide, h 34⟩
    | cons r rs ih =>
      intro q
      rw [List.flatMap_cons, List.append_assoc]
      exact laid_rune r _ d ih q
  exact this 34

theorem laid_blanks (n : Nat) (rest : Bytes) (d : Nat) (h : LaidOut .code 10 d rest ∧ LaidOut .code 32 d rest) (p : UInt8)
    (hp : p = 10 ∨ p = 32) : LaidOut .code p d (List.replicate n 32 ++ rest) := by
  induction n generalizing p with
  | zero => rcases hp with rfl | rfl; exact h.1; exact h.2
  | succ n ih =>
    rw [List.replicate_succ, List.cons_append, LaidOut, if_neg (by decide), if_neg (by decide), if_neg (by decide), if_neg (by decide),
      if_neg (by decide), if_pos rfl]
    exact ⟨by rcases hp with h | h; exact Or.inl h; exact Or.inr (Or.inl h), ih 32 (Or.inr rfl)⟩

/-- A line end after an opening bracket, an opening brace or a comma. -/
theorem laid_newline (d : Nat) (c : UInt8) (t : Bytes) (hc : c ≠ 32 ∧ ¬ Closer c) (h : ∀ q, LaidOut .code q d (c :: t)) (p : UInt8)
    (hp : p = 91 ∨ p = 123 ∨ p = 44) : LaidOut .code p d (newline d ++ c :: t) := by
  unfold newline
  rw [List.cons_append, LaidOut, if_neg (by decide), if_neg (by decide), if_neg (by decide), if_neg (by decide), if_neg (by decide),
    if_neg (by decide), if_pos rfl]
  exact ⟨⟨c, t, hc.1, Or.inl ⟨hc.2, rfl⟩⟩, Or.inl hp, laid_blanks _ _ d ⟨h 10, h 32⟩ 10 (Or.inl rfl)⟩

/-- The line end before a closing bracket or brace. -/
theorem laid_close (d : Nat) (c : UInt8) (hc : Closer c) (rest : Bytes) (h : ∀ q, LaidOut .code q d rest) (p : UInt8) :
    LaidOut .code p (d + 1) (newline d ++ c :: rest) := by
  have h32 : c ≠ 32 := by rintro rfl; rcases hc with h | h <;> exact absurd h (by decide)
  have hcl : ∀ q, q = 10 ∨ q = 32 → LaidOut .code q (d + 1) (c :: rest) := by
    intro q hq
    rw [LaidOut, if_neg (by rintro rfl; rcases hc with h | h <;> exact absurd h (by decide)),
      if_neg (by rcases hc with rfl | rfl <;> decide), if_pos (show c = 93 ∨ c = 125 from hc)]
    exact ⟨by rcases hq with h | h; exact Or.inl h; exact Or.inr (Or.inl h), by omega, h c⟩
  unfold newline
  rw [List.cons_append, LaidOut, if_neg (by decide), if_neg (by decide), if_neg (by decide), if_neg (by decide), if_neg (by decide),
    if_neg (by decide), if_pos rfl]
  refine ⟨⟨c, rest, h32, Or.inr ⟨hc, rfl⟩⟩, Or.inr ⟨c, ?_, hc⟩, laid_blanks _ _ _ ⟨hcl 10 (Or.inl rfl), hcl 32 (Or.inr rfl)⟩ 10 (Or.inl rfl)⟩
  have : (List.replicate (2 * d) 32 ++ c :: rest).dropWhile (· = 32) = c :: rest := by
    have : ∀ n, (List.replicate n (32 : UInt8) ++ c :: rest).dropWhile (· = 32) = c :: rest := by
      intro n
      induction n with
      | zero => simp [h32]
      | succ n ih => rw [List.replicate_succ, List.cons_append, List.dropWhile_cons_of_pos (by simp), ih]
    exact this _
  rw [this]
  rfl

theorem digit_ordinary {c : UInt8} (h : 48 ≤ c.toNat ∧ c.toNat ≤ 57) : Ordinary c := by
  unfold Ordinary
  simp only [List.mem_cons, List.not_mem_nil, or_false, not_or]
  refine ⟨?_, ?_, ?_, ?_, ?_, ?_, ?_, ?_, ?_⟩ <;> (rintro rfl; exact absurd h (by decide))

theorem number_ordinary {s : Bytes} (h : NumberText s) : ∀ c ∈ s, Ordinary c := by
  obtain ⟨sign, int, frac, exp, rfl, h1, h2, h3, h4⟩ := h
  intro c hc
  simp only [List.mem_append] at hc
  have hlit : ∀ (l : Bytes), l ∈ ([[], str "-", str "+", str ".", str "e", str "E", str "0"] : List Bytes) → ∀ c ∈ l, Ordinary c := by
    unfold Ordinary
    decide +kernel
  rcases hc with ((hc | hc) | hc) | hc
  · rcases h1 with rfl | rfl
    · exact hlit _ (by simp) c hc
    · exact hlit _ (by simp) c hc
  · rcases h2 with rfl | ⟨h2, _⟩
    · exact hlit _ (by simp) c hc
    · exact digit_ordinary (h2.2 c hc)
  · rcases h3 with rfl | ⟨ds, rfl, hd⟩
    · exact hlit _ (by simp) c hc
    · rcases List.mem_append.mp hc with hc | hc
      · exact hlit _ (by simp) c hc
      · exact digit_ordinary (hd.2 c hc)
  · rcases h4 with rfl | ⟨e, g, ds, rfl, he, hg, hd⟩
    · exact hlit _ (by simp) c hc
    · simp only [List.mem_append] at hc
      rcases hc with (hc | hc) | hc
      · rcases he with rfl | rfl <;> exact hlit _ (by simp) c hc
      · rcases hg with rfl | rfl | rfl <;> exact hlit _ (by simp) c hc
      · exact digit_ordinary (hd.2 c hc)

/-- How a written value starts. -/
theorem write_head (j : Json) (d : Nat) (h : Wellformed j) :
    ∃ c t, writeJson d j = c :: t ∧ c ≠ 32 ∧ c ≠ 10 ∧ ¬ Closer c := by
  unfold Closer
  cases j with
  | null => exact ⟨110, str "ull", by rw [writeJson]; decide +kernel, by decide, by decide, by decide⟩
  | bool b =>
    cases b with
    | true => exact ⟨116, str "rue", by rw [writeJson]; decide +kernel, by decide, by decide, by decide⟩
    | false => exact ⟨102, str "alse", by rw [writeJson]; decide +kernel, by decide, by decide, by decide⟩
  | num lit =>
    rw [Wellformed] at h
    obtain ⟨c, t, hs, hc⟩ := number_head h
    have := number_ordinary h c (by rw [hs]; simp)
    unfold Ordinary at this
    simp only [List.mem_cons, List.not_mem_nil, or_false, not_or] at this
    obtain ⟨_, _, _, h4, h5, _, _, h8, h9⟩ := this
    exact ⟨c, t, by rw [writeJson]; exact hs, h8, h9, not_or.mpr ⟨h4, h5⟩⟩
  | str rs => exact ⟨34, _, by rw [writeJson]; rfl, by decide, by decide, by decide⟩
  | arr l =>
    cases l with
    | nil => exact ⟨91, [93], by rw [writeJson]; decide +kernel, by decide, by decide, by decide⟩
    | cons j js => exact ⟨91, _, by rw [writeJson]; simp only [List.cons_append, List.append_assoc]; rfl, by decide, by decide, by decide⟩
  | obj ms =>
    cases ms with
    | nil => exact ⟨123, [125], by rw [writeJson]; decide +kernel, by decide, by decide, by decide⟩
    | cons m ms =>
      obtain ⟨k, j⟩ := m
      exact ⟨123, _, by rw [writeJson]; simp only [List.cons_append, List.append_assoc]; rfl, by decide, by decide, by decide⟩

/-- A line with a value. -/
theorem laid_line (j : Json) (d : Nat) (hj : Wellformed j) (rest : Bytes) (h : ∀ q, LaidOut .code q d (writeJson d j ++ rest)) (p : UInt8)
    (hp : p = 91 ∨ p = 123 ∨ p = 44) : LaidOut .code p d (newline d ++ (writeJson d j ++ rest)) := by
  obtain ⟨c, t, h1, h2, _, h4⟩ := write_head j d hj
  rw [h1] at h ⊢
  exact laid_newline d c _ ⟨h2, h4⟩ h p hp

/-- A line with a member. -/
theorem laid_member (k : List Nat) (j : Json) (d : Nat) (hj : Wellformed j) (rest : Bytes) (h : ∀ q, LaidOut .code q d (writeJson d j ++ rest))
    (p : UInt8) (hp : p = 91 ∨ p = 123 ∨ p = 44) :
    LaidOut .code p d (newline d ++ (writeString k ++ ([58, 32] ++ (writeJson d j ++ rest)))) := by
  have hcolon : ∀ q, LaidOut .code q d ([58, 32] ++ (writeJson d j ++ rest)) := by
    intro q
    simp only [List.cons_append, List.nil_append]
    rw [LaidOut, if_neg (by decide), if_neg (by decide), if_neg (by decide), if_neg (by decide), if_pos rfl]
    refine ⟨?_, ?_⟩
    · obtain ⟨c, t, h1, h2, h3, _⟩ := write_head j d hj
      exact ⟨c, t ++ rest, by rw [h1]; rfl, h2, h3⟩
    · rw [LaidOut, if_neg (by decide), if_neg (by decide), if_neg (by decide), if_neg (by decide), if_neg (by decide), if_pos rfl]
      exact ⟨Or.inr (Or.inr rfl), h 32⟩
  have := laid_string k _ d hcolon
  have hs : ∀ x, writeString k ++ x = 34 :: (k.flatMap writeRune ++ [34] ++ x) := by intro x; simp [writeString]
  rw [hs] at this ⊢
  exact laid_newline d 34 _ ⟨by decide, by unfold Closer; decide⟩ this p hp

mutual
/-- A written value, whatever follows. -/
theorem laid_value (j : Json) (d : Nat) (hw : Wellformed j) (rest : Bytes) (h : ∀ q, LaidOut .code q d rest) (p : UInt8) :
    LaidOut .code p d (writeJson d j ++ rest) := by
  match j with
  | .null => rw [writeJson]; exact laid_ordinary (by unfold Ordinary; decide +kernel) rest d h p
  | .bool b =>
    rw [writeJson]
    cases b
    · exact laid_ordinary (by unfold Ordinary; decide +kernel) rest d h p
    · exact laid_ordinary (by unfold Ordinary; decide +kernel) rest d h p
  | .num lit => rw [writeJson]; rw [Wellformed] at hw; exact laid_ordinary (number_ordinary hw) rest d h p
  | .str rs => rw [writeJson]; exact laid_string rs rest d h p
  | .arr [] =>
    rw [writeJson, show str "[]" = [91, 93] by decide +kernel]
    simp only [List.cons_append, List.nil_append]
    rw [LaidOut, if_neg (by decide), if_pos (by decide), LaidOut, if_neg (by decide), if_neg (by decide), if_pos (by decide)]
    exact ⟨Or.inr rfl, by decide, by omega, h 93⟩
  | .obj [] =>
    rw [writeJson, show str "{}" = [123, 125] by decide +kernel]
    simp only [List.cons_append, List.nil_append]
    rw [LaidOut, if_neg (by decide), if_pos (by decide), LaidOut, if_neg (by decide), if_neg (by decide), if_pos (by decide)]
    exact ⟨Or.inr rfl, by decide, by omega, h 125⟩
  | .arr (j :: js) =>
    rw [Wellformed, WellformedElements] at hw
    rw [writeJson]
    simp only [List.append_assoc]
    rw [List.singleton_append, LaidOut, if_neg (by decide), if_pos (by decide)]
    refine ⟨Or.inl rfl, ?_⟩
    apply laid_line j (d + 1) hw.1 _ _ 91 (Or.inl rfl)
    intro q
    apply laid_value j (d + 1) hw.1
    intro q
    apply laid_elements js (d + 1) hw.2
    intro q
    exact laid_close d 93 (Or.inl rfl) rest h q
  | .obj ((k, j) :: ms) =>
    rw [Wellformed, WellformedMembers] at hw
    rw [writeJson]
    simp only [List.append_assoc]
    rw [List.singleton_append, LaidOut, if_neg (by decide), if_pos (by decide)]
    refine ⟨Or.inl rfl, ?_⟩
    apply laid_member k j (d + 1) hw.2.1 _ _ 123 (Or.inr (Or.inl rfl))
    intro q
    apply laid_value j (d + 1) hw.2.1
    intro q
    apply laid_members ms (d + 1) hw.2.2
    intro q
    exact laid_close d 125 (Or.inr rfl) rest h q

theorem laid_elements (l : List Json) (d : Nat) (hw : WellformedElements l) (rest : Bytes) (h : ∀ q, LaidOut .code q d rest) (p : UInt8) :
    LaidOut .code p d (writeElements d l ++ rest) := by
  match l with
  | [] => rw [writeElements]; exact h p
  | j :: js =>
    rw [WellformedElements] at hw
    rw [writeElements]
    simp only [List.append_assoc]
    rw [List.singleton_append, LaidOut, if_neg (by decide), if_neg (by decide), if_neg (by decide), if_pos rfl]
    refine ⟨rfl, ?_⟩
    apply laid_line j d hw.1 _ _ 44 (Or.inr (Or.inr rfl))
    intro q
    apply laid_value j d hw.1
    intro q
    exact laid_elements js d hw.2 rest h q

theorem laid_members (l : List (List Nat × Json)) (d : Nat) (hw : WellformedMembers l) (rest : Bytes) (h : ∀ q, LaidOut .code q d rest) (p : UInt8) :
    LaidOut .code p d (writeMembers d l ++ rest) := by
  match l with
  | [] => rw [writeMembers]; exact h p
  | (k, j) :: ms =>
    rw [WellformedMembers] at hw
    rw [writeMembers]
    simp only [List.append_assoc]
    rw [List.singleton_append, LaidOut, if_neg (by decide), if_neg (by decide), if_neg (by decide), if_pos rfl]
    refine ⟨rfl, ?_⟩
    apply laid_member k j d hw.2.1 _ _ 44 (Or.inr (Or.inr rfl))
    intro q
    apply laid_value j d hw.2.1
    intro q
    exact laid_members ms d hw.2.2 rest h q
end

/-- **C118.** Exported documents are laid out in lines indented by two blanks for each level, whatever the texts in the file. -/
theorem C118_layout (smf : SMF) : LaidOut .code 10 0 (exportText smf) := by
  have := laid_value (exportJsonWith noRune smf) 0 (sound_export smf) [] (fun q => ⟨rfl, rfl⟩) 10
  rw [List.append_nil] at this
  exact this

/-! ### The characters of exports -/

theorem safe_append {a b : Bytes} (ha : Safe a) (hb : Safe b) : Safe (a ++ b) := by
  obtain ⟨x, rfl, hx⟩ := ha
  obtain ⟨y, rfl, hy⟩ := hb
  refine ⟨x ++ y, by simp, fun c hc => ?_⟩
  rcases List.mem_append.mp hc with h | h
  · exact hx c h
  · exact hy c h

theorem safe_nil : Safe [] := ⟨[], rfl, by simp⟩

/-- One ASCII character. -/
theorem safe_byte (b : UInt8) (h : b = 10 ∨ (32 ≤ b.toNat ∧ b.toNat < 128)) (h' : b ≠ 60 ∧ b ≠ 62 ∧ b ≠ 38) : Safe [b] := by
  have : ∀ b : UInt8, (b = 10 ∨ (32 ≤ b.toNat ∧ b.toNat < 128)) → (b ≠ 60 ∧ b ≠ 62 ∧ b ≠ 38) →
      [b] = [Char.ofNat b.toNat].flatMap String.utf8EncodeChar ∧ ∀ c ∈ [Char.ofNat b.toNat], (c = '\n' ∨ 32 ≤ c.val.toNat) ∧
        c ∉ ['<', '>', '&', '\u2028', '\u2029'] := by
    apply all8
    decide +kernel
  exact ⟨_, (this b h h').1, (this b h h').2⟩

theorem safe_bytes (s : Bytes) (h : ∀ b ∈ s, (b = 10 ∨ (32 ≤ b.toNat ∧ b.toNat < 128)) ∧ b ≠ 60 ∧ b ≠ 62 ∧ b ≠ 38) : Safe s := by
  induction s with
  | nil => exact safe_nil
  | cons b s ih =>
    have := h b (by simp)
    exact safe_append (a := [b]) (safe_byte b this.1 this.2) (ih fun b hb => h b (by simp [hb]))

theorem safe_escape (r : Nat) : Safe (unicodeEscape r) := by
  apply safe_bytes
  have hh : ∀ n : Fin 16, (lowerHex n.val = 10 ∨ (32 ≤ (lowerHex n.val).toNat ∧ (lowerHex n.val).toNat < 128)) ∧ lowerHex n.val ≠ 60 ∧
      lowerHex n.val ≠ 62 ∧ lowerHex n.val ≠ 38 := by decide +kernel
  have hh : ∀ n, n < 16 → (lowerHex n = 10 ∨ (32 ≤ (lowerHex n).toNat ∧ (lowerHex n).toNat < 128)) ∧ lowerHex n ≠ 60 ∧
      lowerHex n ≠ 62 ∧ lowerHex n ≠ 38 := fun n h => hh ⟨n, h⟩
  intro b hb
  unfold unicodeEscape at hb
  simp only [List.mem_cons, List.not_mem_nil, or_false] at hb
  rcases hb with rfl | rfl | rfl | rfl | rfl | rfl
  · decide
  · decide
  · exact hh _ (by omega)
  · exact hh _ (by omega)
  · exact hh _ (by omega)
  · exact hh _ (by omega)

theorem safe_rune {r : Nat} (hr : Scalar r ∨ r = noRune) : Safe (writeRune r) := by
  have hlit : ∀ s ∈ ([[92, 34], [92, 92], [92, 98], [92, 102], [92, 110], [92, 114], [92, 116]] : List Bytes),
      ∀ b ∈ s, (b = 10 ∨ (32 ≤ b.toNat ∧ b.toNat < 128)) ∧ b ≠ 60 ∧ b ≠ 62 ∧ b ≠ 38 := by decide +kernel
  unfold writeRune
  split
  · exact safe_bytes _ (hlit _ (by simp))
  split
  · exact safe_bytes _ (hlit _ (by simp))
  split
  · exact safe_bytes _ (hlit _ (by simp))
  split
  · exact safe_bytes _ (hlit _ (by simp))
  split
  · exact safe_bytes _ (hlit _ (by simp))
  split
  · exact safe_bytes _ (hlit _ (by simp))
  split
  · exact safe_bytes _ (hlit _ (by simp))
  split
  · exact safe_escape r
  split
  · exact safe_escape _
  · have hr := hr.resolve_right (by assumption)
    obtain ⟨c, hc⟩ := exists_char hr
    refine ⟨[c], by rw [← hc, encodeRune_char]; simp, ?_⟩
    intro x hx
    simp only [List.mem_cons, List.not_mem_nil, or_false] at hx
    subst hx
    rename_i h8 h9 h10
    refine ⟨Or.inr (by omega), ?_⟩
    intro hm
    simp only [List.mem_cons, List.not_mem_nil, or_false] at hm
    rcases hm with rfl | rfl | rfl | rfl | rfl
    · have : (60 : Nat) = r := hc
      omega
    · have : (62 : Nat) = r := hc
      omega
    · have : (38 : Nat) = r := hc
      omega
    · have : (0x2028 : Nat) = r := hc
      omega
    · have : (0x2029 : Nat) = r := hc
      omega

theorem safe_string {rs : List Nat} (h : ∀ r ∈ rs, Scalar r ∨ r = noRune) : Safe (writeString rs) := by
  unfold writeString
  refine safe_append (safe_append (safe_bytes _ (by decide)) ?_) (safe_bytes _ (by decide))
  induction rs with
  | nil => exact safe_nil
  | cons r rs ih =>
    rw [List.flatMap_cons]
    exact safe_append (safe_rune (h r (by simp))) (ih fun r hr => h r (by simp [hr]))

theorem safe_newline (d : Nat) : Safe (newline d) := by
  apply safe_bytes
  intro b hb
  rcases List.mem_cons.mp hb with rfl | hb
  · decide
  · rw [(List.mem_replicate.mp hb).2]
    decide

theorem safe_number {s : Bytes} (h : NumberText s) : Safe s := by
  apply safe_bytes
  have hdig : ∀ c : UInt8, 48 ≤ c.toNat ∧ c.toNat ≤ 57 → (c = 10 ∨ (32 ≤ c.toNat ∧ c.toNat < 128)) ∧ c ≠ 60 ∧ c ≠ 62 ∧ c ≠ 38 := by
    apply all8
    decide +kernel
  obtain ⟨sign, int, frac, exp, rfl, h1, h2, h3, h4⟩ := h
  intro c hc
  simp only [List.mem_append] at hc
  have hlit : ∀ (l : Bytes), l ∈ ([[], str "-", str "+", str ".", str "e", str "E", str "0"] : List Bytes) →
      ∀ c ∈ l, (c = 10 ∨ (32 ≤ c.toNat ∧ c.toNat < 128)) ∧ c ≠ 60 ∧ c ≠ 62 ∧ c ≠ 38 := by
    decide +kernel
  rcases hc with ((hc | hc) | hc) | hc
  · rcases h1 with rfl | rfl
    · exact hlit _ (by simp) c hc
    · exact hlit _ (by simp) c hc
  · rcases h2 with rfl | ⟨h2, _⟩
    · exact hlit _ (by simp) c hc
    · exact hdig c (h2.2 c hc)
  · rcases h3 with rfl | ⟨ds, rfl, hd⟩
    · exact hlit _ (by simp) c hc
    · rcases List.mem_append.mp hc with hc | hc
      · exact hlit _ (by simp) c hc
      · exact hdig c (hd.2 c hc)
  · rcases h4 with rfl | ⟨e, g, ds, rfl, he, hg, hd⟩
    · exact hlit _ (by simp) c hc
    · simp only [List.mem_append] at hc
      rcases hc with (hc | hc) | hc
      · rcases he with rfl | rfl <;> exact hlit _ (by simp) c hc
      · rcases hg with rfl | rfl | rfl <;> exact hlit _ (by simp) c hc
      · exact hdig c (hd.2 c hc)

mutual
theorem safe_value (j : Json) (d : Nat) (hw : Wellformed j) : Safe (writeJson d j) := by
  match j with
  | .null => rw [writeJson]; exact safe_bytes _ (by decide +kernel)
  | .bool b => rw [writeJson]; cases b <;> exact safe_bytes _ (by decide +kernel)
  | .num lit => rw [writeJson]; rw [Wellformed] at hw; exact safe_number hw
  | .str rs => rw [writeJson]; rw [Wellformed] at hw; exact safe_string hw
  | .arr [] => rw [writeJson]; exact safe_bytes _ (by decide +kernel)
  | .obj [] => rw [writeJson]; exact safe_bytes _ (by decide +kernel)
  | .arr (j :: js) =>
    rw [Wellformed, WellformedElements] at hw
    rw [writeJson]
    exact safe_append (safe_append (safe_append (safe_append (safe_append (safe_bytes _ (by decide)) (safe_newline _))
      (safe_value j _ hw.1)) (safe_elements js _ hw.2)) (safe_newline _)) (safe_bytes _ (by decide))
  | .obj ((k, j) :: ms) =>
    rw [Wellformed, WellformedMembers] at hw
    rw [writeJson]
    exact safe_append (safe_append (safe_append (safe_append (safe_append (safe_append (safe_append (safe_bytes _ (by decide)) (safe_newline _))
      (safe_string fun r hr => Or.inl (hw.1 r hr))) (safe_bytes _ (by decide))) (safe_value j _ hw.2.1)) (safe_members ms _ hw.2.2)) (safe_newline _))
      (safe_bytes _ (by decide))

theorem safe_elements (l : List Json) (d : Nat) (hw : WellformedElements l) : Safe (writeElements d l) := by
  match l with
  | [] => rw [writeElements]; exact safe_nil
  | j :: js =>
    rw [WellformedElements] at hw
    rw [writeElements]
    exact safe_append (safe_append (safe_append (safe_bytes _ (by decide)) (safe_newline _)) (safe_value j _ hw.1)) (safe_elements js _ hw.2)

theorem safe_members (l : List (List Nat × Json)) (d : Nat) (hw : WellformedMembers l) : Safe (writeMembers d l) := by
  match l with
  | [] => rw [writeMembers]; exact safe_nil
  | (k, j) :: ms =>
    rw [WellformedMembers] at hw
    rw [writeMembers]
    exact safe_append (safe_append (safe_append (safe_append (safe_append (safe_bytes _ (by decide)) (safe_newline _))
      (safe_string fun r hr => Or.inl (hw.1 r hr))) (safe_bytes _ (by decide))) (safe_value j _ hw.2.1)) (safe_members ms _ hw.2.2)
end

/-- **C118.** Exported documents are UTF-8 without control characters other than line ends and without characters that mean something in HTML or
JavaScript, whatever the texts in the file. -/
theorem C118_characters (smf : SMF) : Safe (exportText smf) := safe_value _ 0 (sound_export smf)

/-- A document with quotes, brackets, a line end and markup in a text. -/
example : exportText ⟨none, [⟨str "MTrk", 0, 0, [], [⟨0, 0, [], .text .text (str "<[\"\n")⟩], newContext⟩]⟩ =
    List.intercalate [10] (["{", "  \"header\": null,", "  \"tracks\": [", "    {", "      \"tag\": \"MTrk\",", "      \"track-number\": 0,",
      "      \"events\": [", "        {", "          \"event\": {", "            \"tag\": \"Text\",", "            \"delta\": 0,",
      "            \"status\": 255,", "            \"type\": 1,", "            \"text\": \"\\u003c[\\\"\\n\"", "          }",
      "        }", "      ]", "    }", "  ]", "}"].map str) := by decide +kernel

end Midiasm
