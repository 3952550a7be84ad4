import Verif.Lemmas.Text

/-!
Properties C52 and C53: hexadecimal strings and columns.
-/

set_option linter.unusedSimpArgs false

namespace Midiasm
open Spec

/-- **C52.** Formatting gives two upper case digits per byte with a blank between bytes, and parses back; parsing accepts exactly
the texts that denote bytes, whatever the blanks, and returns those bytes; any other text is an error. -/
theorem C52_hex (s bs : Bytes) :
    hexString bs = hexDisplay bs ∧ parseHex (hexString bs) = .ok bs ∧
    (parseHex s = .ok bs ↔ HexText s bs) ∧
    ((∀ bs, ¬ HexText s bs) → ∃ e, parseHex s = .err e) ∧
    (∀ s', s'.filter (fun c => decide (c ∉ blanks)) = s.filter (fun c => decide (c ∉ blanks)) → parseHex s' = parseHex s) := by
  have hf : (fun b => !reSpace b) = (fun c => decide (c ∉ blanks)) := funext reSpace_eq
  have hiff : ∀ s bs, parseHex s = .ok bs ↔ HexText s bs := by
    intro s bs
    unfold parseHex HexText
    rw [hf]
    exact hexDecode_iff _ _
  refine ⟨trimSpace_hex bs, ?_, hiff s bs, ?_, ?_⟩
  · rw [hiff, trimSpace_hex]
    unfold HexText
    have hd : ∀ v, v < 16 → HexDigit (upperDigit v) v ∧ decide (upperDigit v ∉ blanks) = true := by
      intro v hv
      have : ∀ v : Fin 16, HexDigit (upperDigit v.val) v.val ∧ decide (upperDigit v.val ∉ blanks) = true := by
        unfold HexDigit; decide +kernel
      exact this ⟨v, hv⟩
    have hb : decide ((32 : UInt8) ∉ blanks) = false := by decide
    have pair : ∀ b : UInt8, HexDigit (upperDigit (b.toNat / 16)) (b.toNat / 16) ∧ HexDigit (upperDigit (b.toNat % 16)) (b.toNat % 16) ∧
        [upperDigit (b.toNat / 16), upperDigit (b.toNat % 16)].filter (fun c => decide (c ∉ blanks)) =
          [upperDigit (b.toNat / 16), upperDigit (b.toNat % 16)] := by
      intro b
      have hlt := b.toNat_lt
      have h1 := hd (b.toNat / 16) (by omega)
      have h2 := hd (b.toNat % 16) (by omega)
      refine ⟨h1.1, h2.1, ?_⟩
      rw [List.filter_cons, if_pos h1.2, List.filter_cons, if_pos h2.2, List.filter_nil]
    induction bs with
    | nil => simp [hexDisplay, List.intercalate]
    | cons b t ih =>
      obtain ⟨p1, p2, p3⟩ := pair b
      cases t with
      | nil =>
        simp only [hexDisplay, List.intercalate, List.map_cons, List.map_nil, List.intersperse, List.flatten_cons, List.flatten_nil,
          List.append_nil, List.flatMap_cons, List.flatMap_nil]
        rw [p3]
        exact .cons p1 (.cons p2 .nil)
      | cons c t =>
        have e : hexDisplay (b :: c :: t) = [upperDigit (b.toNat / 16), upperDigit (b.toNat % 16)] ++ 32 :: hexDisplay (c :: t) := by
          simp [hexDisplay, List.intercalate, List.intersperse]
        rw [e, List.filter_append, p3, List.filter_cons, hb, List.flatMap_cons]
        exact .cons p1 (.cons p2 ih)
  · intro hno
    rcases hexDecode_returns (s.filter (fun b => !reSpace b)) with ⟨bs, h⟩ | h
    · exact absurd ((hiff s bs).mp h) (hno bs)
    · exact h
  · intro s' hs
    unfold parseHex
    rw [hf, hs]

/-- A text with digits of both cases, tabs, line ends and blanks inside a byte. -/
example : HexText (str "0a\tFF \n1 b") [10, 255, 27] ∧ hexDisplay [10, 255, 27] = str "0A FF 1B" ∧
    (∀ bs, ¬ HexText (str "0g") bs) := by
  refine ⟨(C52_hex _ _).2.2.1.mp (by decide +kernel), by decide +kernel, ?_⟩
  intro bs h
  have := (C52_hex _ _).2.2.1.mpr h
  have h2 : parseHex (str "0g") = .err .other := by decide +kernel
  rw [h2] at this
  simp at this

theorem exists_char {v : Nat} (h : Scalar v) : ∃ c : Char, c.val.toNat = v := by
  have hv : v.isValidChar := by
    unfold Nat.isValidChar; unfold Scalar at h; omega
  refine ⟨⟨v.toUInt32, ?_⟩, ?_⟩
  · simp only [UInt32.isValidChar]
    have : v.toUInt32.toNat = v := by
      simp; unfold Scalar at h; omega
    rw [this]; exact hv
  · simp; unfold Scalar at h; omega

theorem exists_chars {rs : List Nat} (h : ∀ v ∈ rs, Scalar v) : ∃ cs : List Char, cs.map (fun c => c.val.toNat) = rs := by
  induction rs with
  | nil => exact ⟨[], rfl⟩
  | cons v rs ih =>
    obtain ⟨c, hc⟩ := exists_char (h v (by simp))
    obtain ⟨cs, hcs⟩ := ih (fun w hw => h w (by simp [hw]))
    exact ⟨c :: cs, by rw [List.map_cons, hc, hcs]⟩

theorem isText_unique {s : Bytes} {cs cs' : List Char} (h : IsText s cs) (h' : IsText s cs') : cs = cs' := by
  have e := runes_chars cs
  have e' := runes_chars cs'
  unfold IsText at h h'
  rw [← h] at e
  rw [← h', e] at e'
  have inj : Function.Injective (fun c : Char => c.val.toNat) := by
    intro a b hab
    have : a.val = b.val := UInt32.toNat_inj.mp hab
    exact Char.ext this
  exact List.map_injective_iff.mpr inj e'

/-- **C53, partial.**  For every text (valid UTF-8) and width: truncating keeps a text of at most `w` characters and otherwise gives the
first `w - 1` characters and an ellipsis; nothing is left for `w ≤ 0`.  Padding appends exactly the missing blanks.
For arbitrary bytes, truncating yields a text of at most `w` characters and padding only appends blanks.
Missing: strings that are not valid UTF-8 are not kept by truncation (`C53_columns_fails`). -/
theorem C53_columns_partial (s : Bytes) (w : Int) :
    (∀ cs, IsText s cs → IsText (ellipsize s w) (if w ≤ 0 then [] else if (cs.length : Int) ≤ w then cs else cs.take (w.toNat - 1) ++ ['…'])) ∧
    (∃ cs, IsText (ellipsize s w) cs ∧ (cs.length : Int) ≤ max w 0) ∧
    (∀ cs, IsText s cs → pad w s = s ++ List.replicate (w - cs.length).toNat 32) ∧
    (∃ n, pad w s = s ++ List.replicate n 32) := by
  have hell : str "…" = ['…'].flatMap String.utf8EncodeChar := by decide +kernel
  refine ⟨?_, ?_, ?_, ?_⟩
  · intro cs hcs
    have hr := runes_chars cs
    unfold IsText at hcs ⊢
    rw [← hcs] at hr
    unfold ellipsize
    rw [hr, List.length_map]
    split
    · rfl
    split
    · exact ofRunes_chars cs
    · rw [← List.map_take, ofRunes_chars, hell, ← List.flatMap_append]
  · unfold ellipsize
    split
    · exact ⟨[], rfl, by simp; omega⟩
    split
    · obtain ⟨cs, hcs⟩ := exists_chars (runes_scalar s)
      refine ⟨cs, ?_, ?_⟩
      · unfold IsText; rw [← ofRunes_chars, hcs]
      · have : cs.length = (runes s).length := by rw [← hcs, List.length_map]
        omega
    · obtain ⟨cs, hcs⟩ := exists_chars (rs := (runes s).take (w.toNat - 1)) (fun v hv => runes_scalar s v (List.mem_of_mem_take hv))
      refine ⟨cs ++ ['…'], ?_, ?_⟩
      · unfold IsText; rw [← hcs, ofRunes_chars, hell, ← List.flatMap_append]
      · have : cs.length = min (w.toNat - 1) (runes s).length := by rw [← List.length_take, ← hcs, List.length_map]
        simp only [List.length_append, List.length_singleton]
        omega
  · intro cs hcs
    have hr := runes_chars cs
    unfold IsText at hcs
    rw [← hcs] at hr
    unfold pad
    rw [hr, List.length_map]
    split
    · rw [Int.toNat_of_nonpos (by omega)]; simp
    · rfl
  · unfold pad
    split
    · exact ⟨0, by simp⟩
    · exact ⟨_, rfl⟩

/-- A text with a character of three bytes is cut between characters and padded by characters. -/
example : IsText (str "D♭4 note") ['D', '♭', '4', ' ', 'n', 'o', 't', 'e'] ∧ ellipsize (str "D♭4 note") 4 = str "D♭4…" ∧
    pad 10 (str "D♭4 note") = str "D♭4 note  " := by
  unfold IsText
  decide +kernel

/-- **C53 is false** for strings that are not valid UTF-8: a string of one character that fits the width is changed. -/
theorem C53_columns_fails : ellipsize [0xff] 42 = [0xef, 0xbf, 0xbd] ∧ ¬ (∃ cs, IsText [0xff] cs) := by
  refine ⟨by decide +kernel, ?_⟩
  rintro ⟨cs, h⟩
  have hr := runes_chars cs
  unfold IsText at h
  rw [← h] at hr
  have h0 : runes [0xff] = [0xfffd] := by decide +kernel
  rw [h0] at hr
  have hc := ofRunes_chars cs
  rw [← hr, ← h] at hc
  exact absurd hc (by decide +kernel)

/-- **C74.** The byte column of a printed event: every byte of the event in two digits, shifted right by three characters for each byte
that the delta time is shorter than the given number of bytes; an event without a byte below 128 panics. -/
theorem C74_valign (bytes : Bytes) (width : Nat) :
    (∀ pre b post, bytes = pre ++ b :: post → (∀ x ∈ pre, 128 ≤ x.toNat) → b.toNat < 128 →
      valign bytes width = .ok (List.replicate (3 * (width - (pre.length + 1))) 32 ++ hexDisplay bytes)) ∧
    ((∀ x ∈ bytes, 128 ≤ x.toNat) → valign bytes width = .panic) := by
  have hloop : ∀ (pre : Bytes) (rest : Bytes) (k : Nat), (∀ x ∈ pre, 128 ≤ x.toNat) →
      valignLoop (pre ++ rest) k = valignLoop rest (k + pre.length) := by
    intro pre rest
    induction pre with
    | nil => intro k _; rfl
    | cons a pre ih =>
      intro k h
      have ha : ¬ (a &&& 0x80 = 0) := by
        rw [and80_eq_zero_iff]
        have := h a (by simp)
        omega
      simp only [List.cons_append, valignLoop, if_neg ha]
      rw [ih (k + 1) (fun x hx => h x (by simp [hx]))]
      congr 1
      simp; omega
  have hrep : ∀ n, (List.replicate n (str "   ")).flatten = List.replicate (3 * n) 32 := by
    intro n
    have h3 : str "   " = List.replicate 3 32 := by decide +kernel
    rw [h3]
    induction n with
    | zero => rfl
    | succ n ih =>
      rw [List.replicate_succ, List.flatten_cons, ih, List.replicate_append_replicate]
      congr 1; omega
  constructor
  · intro pre b post hb hpre hlt
    unfold valign
    rw [trimSpace_hex]
    have h1 : valignLoop bytes 0 = .ok (pre.length + 1) := by
      rw [hb, hloop pre _ 0 hpre]
      simp only [valignLoop, if_pos ((and80_eq_zero_iff b).mpr hlt)]
      simp
    rw [h1]
    simp only [Outcome.bind_ok]
    congr 2
    split
    · rw [hrep]
    · have : width - (pre.length + 1) = 0 := by omega
      rw [this]; rfl
  · intro h
    unfold valign
    have := hloop bytes [] 0 h
    rw [List.append_nil] at this
    rw [this]
    rfl

/-- A note event with a delta time of two bytes. -/
example : valign [0x81, 0x40, 0x90, 0x3c, 0x7f] 3 = .ok (str "   81 40 90 3C 7F") := by decide +kernel

end Midiasm
