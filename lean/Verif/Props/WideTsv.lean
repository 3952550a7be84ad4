import Verif.Props.WhatCommandsDo
import Verif.Props.Tsv
import Verif.Spec.WideTsv

/-!
Property C117: values separated by a character outside ASCII.
-/

set_option linter.unusedSimpArgs false

namespace Midiasm
open Spec

/-- Bytes of which the first does not occur again, without quotes and line ends. -/
structure Marker (d : Bytes) : Prop where
  lead : ∃ l cs, d = l :: cs ∧ l ∉ cs
  clean : 10 ∉ d ∧ 34 ∉ d

theorem encodeRune_marker (v : Nat) (h : 128 ≤ v) : Marker (encodeRune v) := by
  have hn : ∀ (a b : Nat), a < 256 → b < 256 → a ≠ b → UInt8.ofNat a ≠ UInt8.ofNat b := by
    intro a b ha hb hne he
    have := congrArg UInt8.toNat he
    simp only [UInt8.toNat_ofNat'] at this
    omega
  have h10 : ∀ a, a < 256 → a ≠ 10 → (10 : UInt8) ≠ UInt8.ofNat a := fun a ha h => hn 10 a (by omega) ha (fun e => h e.symm)
  have h34 : ∀ a, a < 256 → a ≠ 34 → (34 : UInt8) ≠ UInt8.ofNat a := fun a ha h => hn 34 a (by omega) ha (fun e => h e.symm)
  unfold encodeRune
  rw [if_neg (by omega)]
  split
  · refine ⟨⟨_, _, rfl, ?_⟩, ?_⟩
    · simp only [List.mem_cons, List.not_mem_nil, or_false]
      exact hn _ _ (by omega) (by omega) (by omega)
    · simp only [List.mem_cons, List.not_mem_nil, or_false, not_or]
      exact ⟨⟨h10 _ (by omega) (by omega), h10 _ (by omega) (by omega)⟩, h34 _ (by omega) (by omega), h34 _ (by omega) (by omega)⟩
  · split
    · refine ⟨⟨_, _, rfl, ?_⟩, ?_⟩
      · simp only [List.mem_cons, List.not_mem_nil, or_false, not_or]
        exact ⟨hn _ _ (by omega) (by omega) (by omega), hn _ _ (by omega) (by omega) (by omega)⟩
      · simp only [List.mem_cons, List.not_mem_nil, or_false, not_or]
        exact ⟨⟨h10 _ (by omega) (by omega), h10 _ (by omega) (by omega), h10 _ (by omega) (by omega)⟩, h34 _ (by omega) (by omega),
          h34 _ (by omega) (by omega), h34 _ (by omega) (by omega)⟩
    · refine ⟨⟨_, _, rfl, ?_⟩, ?_⟩
      · simp only [List.mem_cons, List.not_mem_nil, or_false, not_or]
        exact ⟨hn _ _ (by omega) (by omega) (by omega), hn _ _ (by omega) (by omega) (by omega), hn _ _ (by omega) (by omega) (by omega)⟩
      · simp only [List.mem_cons, List.not_mem_nil, or_false, not_or]
        exact ⟨⟨h10 _ (by omega) (by omega), h10 _ (by omega) (by omega), h10 _ (by omega) (by omega), h10 _ (by omega) (by omega)⟩,
          h34 _ (by omega) (by omega), h34 _ (by omega) (by omega), h34 _ (by omega) (by omega), h34 _ (by omega) (by omega)⟩

/-- An occurrence of the delimiter starts in a field only if it lies in the field. -/
theorem no_straddle {d : Bytes} (hd : Marker d) (y T : Bytes) (hy : y ≠ []) (t : UInt8) (hT : T.head? = some t) (ht : some t = d.head? ∨ t = 10)
    (h : d <+: y ++ T) : d <+: y := by
  obtain ⟨⟨l, cs, rfl, hl⟩, hc, _⟩ := hd
  rcases Nat.lt_or_ge y.length (l :: cs).length with hlt | hge
  · exfalso
    obtain ⟨z, hz⟩ := h
    have h1 : (l :: cs)[y.length]? = T[0]? := by
      have h2 := congrArg (fun x : Bytes => x[y.length]?) hz
      rw [List.getElem?_append_left hlt, List.getElem?_append_right (by omega), Nat.sub_self] at h2
      exact h2
    rw [← List.head?_eq_getElem?, hT] at h1
    have h3 : t ∈ cs := by
      cases y with
      | nil => exact absurd rfl hy
      | cons a y =>
        simp only [List.length_cons, List.getElem?_cons_succ] at h1
        exact List.mem_of_getElem? h1
    rcases ht with ht | ht
    · simp only [List.head?_cons, Option.some.injEq] at ht
      rw [ht] at h3
      exact hl h3
    · rw [ht] at h3
      exact hc (List.mem_cons_of_mem _ h3)
  · exact List.prefix_of_prefix_length_le h (List.prefix_append y T) hge

theorem wide_skip (d : Bytes) (st : CsvState) (f : Bytes) (r : List Bytes) (x rest : Bytes) :
    readWide d x.length st f r (x ++ rest) = readWide d 0 st f r rest := by
  induction x with
  | nil => rfl
  | cons c x ih => rw [List.length_cons, List.cons_append, readWide, ih]

/-- A field ends at the delimiter or at the end of the line. -/
theorem wide_end {d : Bytes} (hd : Marker d) (st : CsvState) (hst : st ≠ .quoted) (f : Bytes) (r : List Bytes) (rest : Bytes) :
    readWide d 0 st f r (d ++ rest) = readWide d 0 .start [] (f.reverse :: r) rest ∧
    readWide d 0 st f r (10 :: rest) = (f.reverse :: r).reverse :: readWide d 0 .start [] [] rest := by
  obtain ⟨⟨l, cs, rfl, hl⟩, h10, h34⟩ := hd
  simp only [List.mem_cons, not_or] at h10 h34
  constructor
  · rw [List.cons_append, readWide, if_neg hst, if_neg (fun h => h34.1 h.2.symm), if_neg (fun h => h34.1 h.2.symm),
      if_pos (show l :: cs <+: l :: (cs ++ rest) from List.prefix_append (l :: cs) rest)]
    simp only [List.length_cons, Nat.add_sub_cancel]
    exact wide_skip _ _ _ _ cs rest
  · rw [readWide, if_neg hst, if_neg (fun h => absurd h.2 (by decide)), if_neg (fun h => absurd h.2 (by decide)), if_neg, if_pos rfl]
    rintro ⟨z, hz⟩
    simp only [List.cons_append, List.cons.injEq] at hz
    exact h10.1 hz.1.symm

/-- An unquoted field. -/
theorem wide_plain {d : Bytes} (hd : Marker d) (T : Bytes) (t : UInt8) (hT : T.head? = some t) (ht : some t = d.head? ∨ t = 10) (s : Bytes)
    (hno : ¬ d <:+: s) (hs : 10 ∉ s ∧ 34 ∉ s) (st : CsvState) (hst : st = .start ∨ st = .plain) (f : Bytes) (r : List Bytes) (hne : s ≠ []) :
    readWide d 0 st f r (s ++ T) = readWide d 0 .plain (s.reverse ++ f) r T := by
  induction s generalizing st f with
  | nil => exact absurd rfl hne
  | cons c s ih =>
    simp only [List.mem_cons, not_or] at hs
    have hq : st ≠ .quoted ∧ st ≠ .quote := by rcases hst with rfl | rfl <;> exact ⟨by decide, by decide⟩
    have hpre : ¬ d <+: c :: (s ++ T) := by
      intro h
      exact hno ((no_straddle hd (c :: s) T (by simp) t hT ht h).isInfix)
    rw [List.cons_append, readWide, if_neg hq.1, if_neg (fun h => hs.2.1 h.2.symm), if_neg (fun h => hq.2 h.1), if_neg hpre,
      if_neg (fun h => hs.1.1 h.symm), if_neg hq.2]
    by_cases hs0 : s = []
    · subst hs0
      rfl
    · rw [ih (fun h => hno (h.trans (List.suffix_cons c s).isInfix)) ⟨hs.1.2, hs.2.2⟩ .plain (Or.inr rfl) _ hs0]
      simp

/-- A quoted field, after the quote. -/
theorem wide_quoted (d : Bytes) (s : Bytes) (f : Bytes) (r : List Bytes) (T : Bytes) :
    readWide d 0 .quoted f r (s.flatMap (fun c => if c = 34 then [34, 34] else [c]) ++ 34 :: T) = readWide d 0 .quote (s.reverse ++ f) r T := by
  induction s generalizing f with
  | nil =>
    rw [List.flatMap_nil, List.nil_append, readWide, if_pos rfl, if_pos rfl]
    rfl
  | cons c s ih =>
    rw [List.flatMap_cons]
    by_cases hc : c = 34
    · rw [if_pos hc]
      simp only [List.cons_append, List.nil_append, List.append_assoc]
      rw [readWide, if_pos rfl, if_pos rfl, readWide, if_neg (by decide), if_neg (fun h => absurd h.1 (by decide)), if_pos ⟨rfl, rfl⟩, ih]
      subst hc
      simp
    · rw [if_neg hc]
      simp only [List.cons_append, List.nil_append]
      rw [readWide, if_pos rfl, if_neg hc, ih]
      simp

/-- A written field, followed by the delimiter or a line end. -/
theorem wide_field {v : Nat} (hv : 128 ≤ v) (x : Bytes) (r : List Bytes) (rest : Bytes) :
    readWide (encodeRune v) 0 .start [] r (csvFieldWide v x ++ (encodeRune v ++ rest)) = readWide (encodeRune v) 0 .start [] (x :: r) rest ∧
    readWide (encodeRune v) 0 .start [] r (csvFieldWide v x ++ 10 :: rest) = (x :: r).reverse :: readWide (encodeRune v) 0 .start [] [] rest := by
  have hd := encodeRune_marker v hv
  have hquoted : ∀ T, readWide (encodeRune v) 0 .start [] r (([34] ++ x.flatMap (fun c => if c = 34 then [34, 34] else [c]) ++ [34]) ++ T) =
      readWide (encodeRune v) 0 .quote x.reverse r T := by
    intro T
    simp only [List.append_assoc, List.cons_append, List.nil_append]
    rw [readWide, if_neg (by decide), if_pos ⟨rfl, rfl⟩, wide_quoted]
    simp
  unfold csvFieldWide
  split
  · rw [hquoted, hquoted]
    have := wide_end hd .quote (by decide) x.reverse r rest
    rw [List.reverse_reverse] at this
    exact this
  · rename_i hnq
    simp only [Bool.or_eq_true, not_or, contains_iff] at hnq
    cases hx : x with
    | nil => exact wide_end hd .start (by decide) [] r rest
    | cons a b =>
      rw [← hx]
      have hne : x ≠ [] := by rw [hx]; simp
      have hclean : 10 ∉ x ∧ 34 ∉ x := by
        have h := hnq.1
        unfold fieldNeedsQuotes at h
        rw [if_neg hne] at h
        split at h
        · simp at h
        · split at h
          · simp at h
          · rename_i hany
            rw [Bool.not_eq_true, List.any_eq_false] at hany
            constructor
            · intro hm
              have := hany _ hm
              simp at this
            · intro hm
              have := hany _ hm
              simp at this
      obtain ⟨⟨l, cs, hlc, _⟩, _⟩ := id hd
      rw [wide_plain hd (encodeRune v ++ rest) l (by rw [hlc]; rfl) (Or.inl (by rw [hlc]; rfl)) x hnq.2 hclean .start (Or.inl rfl) [] r hne,
        wide_plain hd (10 :: rest) 10 rfl (Or.inr rfl) x hnq.2 hclean .start (Or.inl rfl) [] r hne]
      have := wide_end hd .plain (by decide) x.reverse r rest
      rw [List.reverse_reverse] at this
      simpa using this

theorem wide_record {v : Nat} (hv : 128 ≤ v) (fs : List Bytes) (hne : fs ≠ []) (r : List Bytes) (rest : Bytes) :
    readWide (encodeRune v) 0 .start [] r (List.intercalate (encodeRune v) (fs.map (csvFieldWide v)) ++ 10 :: rest) =
      (r.reverse ++ fs) :: readWide (encodeRune v) 0 .start [] [] rest := by
  induction fs generalizing r with
  | nil => exact absurd rfl hne
  | cons f fs ih =>
    cases fs with
    | nil =>
      simp only [List.map_cons, List.map_nil, List.intercalate, List.intersperse, List.flatten_cons, List.flatten_nil, List.append_nil]
      rw [(wide_field hv f r rest).2]
      simp
    | cons g gs =>
      have := ih (by simp) (f :: r)
      simp only [List.map_cons, List.intercalate, List.intersperse, List.flatten_cons, List.append_assoc] at this ⊢
      rw [(wide_field hv f r _).1, this]
      simp

/-- **C117.** The values written with a delimiter outside ASCII other than the replacement character read back as the column titles followed by
all records of the table, cell by cell, whatever the texts contain. -/
theorem C117_wide_delimiter (v : Nat) (hv : 128 ≤ v) (hr : v ≠ 0xfffd) (tracks : List (List Event)) (hne : tracks ≠ []) :
    ∃ text, writeDelimited tsvHeader (exportTsv tracks) v = .ok text ∧
      readWide (encodeRune v) 0 .start [] [] text = titles :: exportTsv tracks := by
  have hh : tsvHeader = titles := by decide +kernel
  refine ⟨_, by rw [writeDelimited, if_neg (by omega), if_neg (show ¬ v = runeError from hr)], ?_⟩
  have hall : ∀ (rs : List (List Bytes)), (∀ r ∈ rs, r ≠ []) → readWide (encodeRune v) 0 .start [] []
      (rs.flatMap fun r => List.intercalate (encodeRune v) (r.map (csvFieldWide v)) ++ [10]) = rs := by
    intro rs
    induction rs with
    | nil => intro _; rfl
    | cons a rs ih =>
      intro h
      rw [List.flatMap_cons, List.append_assoc, List.singleton_append, wide_record hv a (h a (by simp)), ih (fun r hr => h r (by simp [hr]))]
      rfl
  rw [hall, hh]
  intro r hrm h0
  rcases List.mem_cons.mp hrm with h | h
  · rw [h0] at h
    simp [tsvHeader] at h
  · have hrows := (C51_tsv tracks).2.1 r h
    rw [h0] at hrows
    have : 0 < tracks.length := List.length_pos_iff.mpr hne
    simp at hrows
    omega

/-- A text with the delimiter, part of the delimiter, quotes and a line end survives. -/
example : ∃ text, writeDelimited tsvHeader (exportTsv [[⟨0, 0, [], .text .text (str "a€\"b\"\n" ++ [0xe2, 0x82])⟩]]) 0x20ac = .ok text ∧
    (readWide (str "€") 0 .start [] [] text)[2]? = some [str "0", str "0", str "Text", [], [], [], str "a€\"b\"\n" ++ [0xe2, 0x82]] := by
  obtain ⟨text, h1, h2⟩ := C117_wide_delimiter 0x20ac (by decide) (by decide) [[⟨0, 0, [], .text .text (str "a€\"b\"\n" ++ [0xe2, 0x82])⟩]] (by simp)
  have he : encodeRune 0x20ac = str "€" := by decide +kernel
  exact ⟨text, h1, by rw [← he, h2]; decide +kernel⟩

end Midiasm
