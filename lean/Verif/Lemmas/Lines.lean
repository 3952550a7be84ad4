import Verif.Props.ReadBack
import Verif.Model.AssembleText

/-!
The lines of a printed text.
-/

set_option linter.unusedSimpArgs false

namespace Midiasm
open Spec

/-- Lines, each with a newline. -/
def unlines (ls : List Bytes) : Bytes := ls.flatMap (· ++ [10])

/-- A line that is scanned as it is: no newline, no carriage return at the end, short enough. -/
structure Plain (l : Bytes) : Prop where
  newline : (10 : UInt8) ∉ l
  cr : l.getLast? ≠ some 13
  short : l.length < 65536

theorem scanAux_line (l cur rest : Bytes) (n : Nat) (hn : (10 : UInt8) ∉ l) (hl : n + l.length < 65536) :
    scanAux cur n (l ++ 10 :: rest) = (scanAux.dropCR (l.reverse ++ cur) :: (scanLines rest).1, (scanLines rest).2) := by
  induction l generalizing cur n with
  | nil =>
    simp only [List.nil_append, scanAux, List.reverse_nil]
    rw [if_neg (by simp at hl; omega)]
    simp [scanLines]
  | cons c l ih =>
    simp only [List.cons_append, scanAux]
    rw [if_neg (by simp at hl; omega), if_neg (by intro h; exact hn (by simp [h]))]
    rw [ih (c :: cur) (n + 1) (fun h => hn (by simp [h])) (by simp at hl; omega)]
    simp

theorem scan_plain (l rest : Bytes) (h : Plain l) : scanLines (l ++ 10 :: rest) = (l :: (scanLines rest).1, (scanLines rest).2) := by
  have hd : scanAux.dropCR l.reverse = l := by
    have hc := h.cr
    unfold scanAux.dropCR
    split
    · rename_i t ht
      have : l = t.reverse ++ [13] := by rw [← List.reverse_reverse l, ht]; simp
      rw [this] at hc
      simp at hc
    · simp
  have := scanAux_line l [] rest 0 h.newline (by have := h.short; omega)
  rw [List.append_nil, hd] at this
  exact this

theorem scan_unlines (ls : List Bytes) (h : ∀ l ∈ ls, Plain l) : scanLines (unlines ls) = (ls, false) := by
  induction ls with
  | nil => rfl
  | cons l ls ih =>
    have : unlines (l :: ls) = l ++ 10 :: unlines ls := by simp [unlines]
    rw [this, scan_plain l _ (h l (by simp)), ih (fun l hl => h l (by simp [hl]))]

/-! ### Chunks of a printed text -/

theorem chunkifyFrom_run (t : List Bytes) (h : ∀ l ∈ t, isTag l = false) (chunk rest : List Bytes) :
    chunkifyFrom chunk (t ++ rest) = chunkifyFrom (chunk ++ t) rest := by
  induction t generalizing chunk with
  | nil => simp
  | cons l t ih =>
    rw [List.cons_append, chunkifyFrom, if_neg (by simp [h l (by simp)]), ih (fun l hl => h l (by simp [hl])), List.append_assoc]
    rfl

theorem chunkifyFrom_tracks (ts : List (Bytes × List Bytes)) (h : ∀ t ∈ ts, isTag t.1 = true ∧ ∀ l ∈ t.2, isTag l = false)
    (chunk : List Bytes) (hc : chunk ≠ []) :
    chunkifyFrom chunk (ts.flatMap fun t => t.1 :: t.2) = chunk :: ts.map fun t => t.1 :: t.2 := by
  induction ts generalizing chunk with
  | nil => simp [chunkifyFrom, hc]
  | cons t ts ih =>
    rw [List.flatMap_cons, List.cons_append, chunkifyFrom, if_pos (h t (by simp)).1, chunkifyFrom_run t.2 (h t (by simp)).2,
      ih (fun t ht => h t (by simp [ht])) _ (by simp)]
    simp

/-! ### Blank lines -/

theorem runes_split (s t : Bytes) (a : UInt8) (ha : a.toNat < 128) : runes (s ++ a :: t) = runes s ++ a.toNat :: runes t := by
  generalize hn : s.length = k
  induction k using Nat.strongRecOn generalizing s with
  | _ k ih =>
    cases s with
    | nil =>
      rw [List.nil_append, runes_cons, decodeRune_ascii a t ha]
      simp [runes_nil]
    | cons b rest =>
      have h := decodeRune_append b rest a t ha
      rw [List.cons_append, runes_cons, runes_cons, h.1, List.drop_append_of_le_length h.2,
        ih _ (by simp at hn; simp; omega) _ rfl]
      rfl

theorem not_blank (line : Bytes) (b : UInt8) (hb : b ∈ line) (ha : b.toNat < 128) (hs : unicodeSpace b.toNat = false) : isBlank line = false := by
  obtain ⟨s, t, rfl⟩ := List.append_of_mem hb
  unfold isBlank
  rw [runes_split s t b ha]
  simp [hs]

theorem comment_head (line : Bytes) (h : isComment line = true) : line.head? = some 37 := by
  unfold isComment at h
  have he : str "%%" = [37, 37] := by decide +kernel
  rw [he] at h
  cases line with
  | nil => cases h
  | cons c l => simp [List.isPrefixOf] at h; simp [h.1.symm]

/-! ### Columns -/

theorem ellipsize_alphabet (bytes : Bytes) (n : Int) : ∀ c ∈ ellipsize (hexString bytes) n, c ∈ hexAlphabet := by
  have hasc : ∀ c ∈ str "0123456789ABCDEF ", c.toNat < 128 := by decide +kernel
  have hall : ∀ c ∈ str "0123456789ABCDEF ", c ∈ hexAlphabet := by decide +kernel
  have hell : ∀ c ∈ str "…", c ∈ hexAlphabet := by decide +kernel
  have hs' := hexString_alphabet bytes
  intro c hc
  unfold ellipsize at hc
  split at hc
  · simp at hc
  · rw [runes_ascii _ (fun b hb => hasc b (hs' b hb))] at hc
    split at hc
    · rw [ofRunes_ascii _ (fun b hb => hasc b (hs' b hb))] at hc
      exact hall c (hs' c hc)
    · rw [← List.map_take] at hc
      rcases List.mem_append.mp hc with hc | hc
      · rw [ofRunes_ascii _ (fun b hb => hasc b (hs' b (List.mem_of_mem_take hb)))] at hc
        exact hall c (hs' c (List.mem_of_mem_take hc))
      · exact hell c hc

theorem column_alphabet (w n : Int) (bytes : Bytes) : ∀ c ∈ pad w (ellipsize (hexString bytes) n), c ∈ hexAlphabet := by
  obtain ⟨k, hk⟩ := pad_eq w (ellipsize (hexString bytes) n)
  rw [hk]
  intro c hc
  rcases List.mem_append.mp hc with hc | hc
  · exact ellipsize_alphabet bytes n c hc
  · rw [List.eq_of_mem_replicate hc]; decide +kernel

theorem pad_dec_mem (w : Int) (n : Nat) : ∀ c ∈ pad w (dec n), c ∈ str "0123456789 " := by
  obtain ⟨k, hk⟩ := pad_eq w (dec n)
  have hd : ∀ c ∈ str "0123456789", c ∈ str "0123456789 " := by decide +kernel
  rw [hk]
  intro c hc
  rcases List.mem_append.mp hc with hc | hc
  · exact hd c (dec_alphabet n c hc)
  · rw [List.eq_of_mem_replicate hc]; decide +kernel

/-! ### The line of a track -/

/-- The line printed for a track, without newline (the text before its events). -/
def trackLine (t : MTrk) : Bytes :=
  pad 42 (ellipsize (hexString t.bytes) 24) ++ str "  " ++ t.tag ++ [32] ++ pad 2 (dec t.trackNumber) ++ str " length:" ++ dec t.length.toNat

/-- Bytes of the line of a track. -/
def trackAlphabet : Bytes := hexAlphabet ++ str "MTrk length:"

theorem trackLine_alphabet (t : MTrk) (ht : t.tag = str "MTrk") : ∀ c ∈ trackLine t, c ∈ trackAlphabet := by
  have h1 : ∀ c ∈ hexAlphabet, c ∈ trackAlphabet := fun c hc => List.mem_append_left _ hc
  have h2 : ∀ c ∈ str "  ", c ∈ trackAlphabet := by decide +kernel
  have h3 : ∀ c ∈ str "MTrk", c ∈ trackAlphabet := by decide +kernel
  have h4 : ∀ c ∈ ([32] : Bytes), c ∈ trackAlphabet := by decide +kernel
  have h5 : ∀ c ∈ str "0123456789 ", c ∈ trackAlphabet := by decide +kernel
  have h6 : ∀ c ∈ str " length:", c ∈ trackAlphabet := by decide +kernel
  have h7 : ∀ c ∈ str "0123456789", c ∈ trackAlphabet := by decide +kernel
  intro c hc
  unfold trackLine at hc
  simp only [List.mem_append] at hc
  rcases hc with (((((hc | hc) | hc) | hc) | hc) | hc) | hc
  · exact h1 c (column_alphabet _ _ _ c hc)
  · exact h2 c hc
  · exact h3 c (ht ▸ hc)
  · exact h4 c hc
  · exact h5 c (pad_dec_mem _ _ c hc)
  · exact h6 c hc
  · exact h7 c (dec_alphabet _ c hc)

theorem trackLine_tag (t : MTrk) (ht : t.tag = str "MTrk") : isMTrk (trackLine t) = true ∧ isMThd (trackLine t) = false ∧
    isTag (trackLine t) = true ∧ isComment (trackLine t) = false := by
  have h1 : isMTrk (trackLine t) = true := by
    refine (contains_iff _ _).mpr ?_
    unfold trackLine
    rw [ht]
    simp only [List.append_assoc]
    exact (List.prefix_append _ _).isInfix.trans ((List.suffix_append _ _).trans (List.suffix_append _ _)).isInfix
  have h2 : isMThd (trackLine t) = false := by
    refine contains_missing _ _ 100 (by decide +kernel) ?_
    intro h
    have := trackLine_alphabet t ht _ h
    exact absurd this (by decide +kernel)
  refine ⟨h1, h2, ?_, ?_⟩
  · unfold isTag
    have : contains (trackLine t) (str "MTrk") = true := h1
    rw [this, Bool.or_true]
  · rw [Bool.eq_false_iff]
    intro h
    have := List.mem_of_head? (comment_head _ h)
    exact absurd (trackLine_alphabet t ht _ this) (by decide +kernel)

/-! ### The line of the header -/

/-- The line printed for the header of a file with metrical time, without newline. -/
def headerLine (h : MThd) : Bytes :=
  pad 42 (ellipsize (hexString h.bytes) 42) ++ str "  " ++ h.tag ++ str " length:" ++ dec h.length.toNat ++ str ", format:" ++
    dec h.format.toNat ++ str ", tracks:" ++ dec h.tracks.toNat ++ str ", " ++ (str "metrical time:" ++ dec h.ppqn.toNat ++ str " ppqn")

theorem printMThd_line (h : MThd) (hs : h.smpte = false) : printMThd h = headerLine h ++ [10] := by
  unfold printMThd headerLine
  rw [hs]
  rfl

theorem findToks_skip {p : Tok → Bool} {is : List Item} (ts r : List Tok) (h : ∀ t ∈ ts, p t = false) :
    findToks (.chr p :: is) (ts ++ r) = findToks (.chr p :: is) r := by
  induction ts with
  | nil => rfl
  | cons t ts ih =>
    have : matchAt (.chr p :: is) ⟨[], none⟩ (t :: (ts ++ r)) = none := by
      simp only [matchAt]
      rw [if_neg (by simp [h t (by simp)])]
    rw [List.cons_append, findToks, this, Option.none_or, ih (fun t ht => h t (by simp [ht]))]

theorem findToks_miss {p q : Tok → Bool} {is : List Item} (t u : Tok) (r : List Tok) (h : q u = false) :
    findToks (.chr p :: .chr q :: is) (t :: u :: r) = findToks (.chr p :: .chr q :: is) (u :: r) := by
  have : matchAt (.chr p :: .chr q :: is) ⟨[], none⟩ (t :: u :: r) = none := by
    simp only [matchAt]
    split
    · rw [if_neg (by simp [h])]
    · rfl
  rw [findToks, this, Option.none_or]

theorem findToks_hit {is : List Item} {s : List Tok} {x : Caps} (h : matchAt is ⟨[], none⟩ s = some x) : findToks is s = some x := by
  cases s with
  | nil => exact h
  | cons t s => rw [findToks, h, Option.some_or]

theorem charTok_mem (c : UInt8) (s : Bytes) (h : c ∉ s) : ∀ t ∈ toks s, charTok c t = false := by
  intro t ht
  match t, ht with
  | [], _ => rfl
  | [b], ht =>
    have hb := mem_toks s [b] b ht (by simp)
    simp only [charTok, decide_eq_false_iff_not]
    intro e
    subst e
    exact h hb
  | _ :: _ :: _, _ => rfl

theorem charTok_sing (c : UInt8) (s : Bytes) (h : c ∉ s) : ∀ t ∈ sing s, charTok c t = false := by
  intro t ht
  obtain ⟨b, hb, rfl⟩ := List.mem_map.mp ht
  simp only [charTok, decide_eq_false_iff_not]
  intro e
  subst e
  exact h hb

/-- Bytes of the start of the header line. -/
def headAlphabet : Bytes := hexAlphabet ++ str "MThd length:, "

/-- The header line in three parts. -/
theorem headerLine_parts (h : MThd) (ht : h.tag = str "MThd") : ∃ pre, (∀ c ∈ pre, c ∈ headAlphabet) ∧ (str "MThd" <:+: pre) ∧
    headerLine h = pre ++ (str "format:" ++ (dec h.format.toNat ++ (str ", tracks:" ++ (dec h.tracks.toNat ++ (str ", " ++
      (str "metrical time:" ++ (dec h.ppqn.toNat ++ str " ppqn"))))))) := by
  refine ⟨pad 42 (ellipsize (hexString h.bytes) 42) ++ (str "  " ++ (str "MThd" ++ (str " length:" ++ (dec h.length.toNat ++ str ", ")))), ?_, ?_, ?_⟩
  · have h1 : ∀ c ∈ hexAlphabet, c ∈ headAlphabet := fun c hc => List.mem_append_left _ hc
    have h2 : ∀ c ∈ str "  ", c ∈ headAlphabet := by decide +kernel
    have h3 : ∀ c ∈ str "MThd", c ∈ headAlphabet := by decide +kernel
    have h6 : ∀ c ∈ str " length:", c ∈ headAlphabet := by decide +kernel
    have h7 : ∀ c ∈ str "0123456789", c ∈ headAlphabet := by decide +kernel
    have h8 : ∀ c ∈ str ", ", c ∈ headAlphabet := by decide +kernel
    intro c hc
    simp only [List.mem_append] at hc
    rcases hc with hc | hc | hc | hc | hc | hc
    · exact h1 c (column_alphabet _ _ _ c hc)
    · exact h2 c hc
    · exact h3 c hc
    · exact h6 c hc
    · exact h7 c (dec_alphabet _ c hc)
    · exact h8 c hc
  · exact (List.prefix_append _ _).isInfix.trans ((List.suffix_append _ _).trans (List.suffix_append _ _)).isInfix
  · have : str ", format:" = str ", " ++ str "format:" := by decide +kernel
    unfold headerLine
    rw [ht, this]
    simp only [List.append_assoc]

theorem headerLine_tag (h : MThd) (ht : h.tag = str "MThd") : isMThd (headerLine h) = true ∧ isComment (headerLine h) = false := by
  obtain ⟨pre, hpre, hin, he⟩ := headerLine_parts h ht
  constructor
  · refine (contains_iff _ _).mpr ?_
    rw [he]
    exact hin.trans (List.prefix_append _ _).isInfix
  · rw [Bool.eq_false_iff]
    intro hc
    have := comment_head _ hc
    rw [he] at this
    cases hp : pre with
    | nil => subst hp; rw [List.infix_nil] at hin; exact absurd hin (by decide +kernel)
    | cons c pre' =>
      rw [hp] at this
      simp at this
      subst this
      exact absurd (hpre 37 (by rw [hp]; simp)) (by decide +kernel)

theorem dec_small (n : Nat) (h : n ≤ 2) : ∃ b : UInt8, dec n = [b] ∧ rangeTok 48 50 [b] = true := by
  have : ∀ n : Fin 3, (match dec n.val with | [b] => rangeTok 48 50 [b] | _ => false) = true := by decide +kernel
  have := this ⟨n, by omega⟩
  simp only at this
  split at this
  · rename_i b hb; exact ⟨b, hb, this⟩
  · cases this

theorem headerLine_toks (pre : Bytes) (f tr p : Nat) : toks (pre ++ (str "format:" ++ (dec f ++ (str ", tracks:" ++ (dec tr ++ (str ", " ++
      (str "metrical time:" ++ (dec p ++ str " ppqn")))))))) = toks pre ++ (sing (str "format:") ++ (sing (dec f) ++ (sing (str ", tracks:") ++
      (sing (dec tr) ++ (sing (str ", ") ++ (sing (str "metrical time:") ++ (sing (dec p) ++ sing (str " ppqn")))))))) := by
  have e2 : ∀ z : Bytes, toks (pre ++ (str "format:" ++ z)) = toks pre ++ toks (str "format:" ++ z) := by
    intro z
    have : str "format:" = [102, 111, 114, 109, 97, 116, 58] := by decide +kernel
    rw [this]
    exact toks_append pre 102 _ (by decide)
  rw [e2, toks_str "format:" _ (by decide +kernel), toks_dec, toks_str ", tracks:" _ (by decide +kernel), toks_dec,
    toks_str ", " _ (by decide +kernel), toks_str "metrical time:" _ (by decide +kernel), toks_dec, toks_str_end " ppqn" (by decide +kernel)]

theorem headerLine_format (h : MThd) (ht : h.tag = str "MThd") (hf : h.format.toNat ≤ 2) :
    findSubmatch formatPattern (headerLine h) = some [dec h.format.toNat] := by
  obtain ⟨pre, hpre, _, he⟩ := headerLine_parts h ht
  obtain ⟨b, hb, hb'⟩ := dec_small _ hf
  unfold findSubmatch
  rw [he, headerLine_toks, hb]
  have hpat : formatPattern = Item.chr (charTok 102) :: (((str "ormat:").map fun c => Item.chr (charTok c)) ++ group [.chr (rangeTok 48 50)]) := by
    have : str "format:" = 102 :: str "ormat:" := by decide +kernel
    unfold formatPattern lit
    rw [this]
    rfl
  rw [hpat, findToks_skip _ _ (charTok_mem 102 pre (fun h => absurd (hpre _ h) (by decide +kernel))), ← hpat]
  have hm : matchAt formatPattern ⟨[], none⟩ (sing (str "format:") ++ (sing [b] ++ (sing (str ", tracks:") ++
      (sing (dec h.tracks.toNat) ++ (sing (str ", ") ++ (sing (str "metrical time:") ++ (sing (dec h.ppqn.toNat) ++ sing (str " ppqn")))))))) =
      some ⟨[[b]], none⟩ := by
    unfold formatPattern
    refine m_lit "format:" ?_
    simp only [group, List.cons_append, List.nil_append, matchAt, sing, List.map_cons, List.map_nil, if_pos hb']
    rfl
  rw [findToks_hit hm]
  rfl

theorem headerLine_division (h : MThd) (ht : h.tag = str "MThd") :
    findSubmatch divisionPattern (headerLine h) = some [dec h.ppqn.toNat] := by
  obtain ⟨pre, hpre, _, he⟩ := headerLine_parts h ht
  unfold findSubmatch
  rw [he, headerLine_toks]
  have hpat : divisionPattern = Item.chr (charTok 109) :: Item.chr (charTok 101) :: (((str "trical").map fun c => Item.chr (charTok c)) ++
      ([.opt (fun t => charTok 32 t || charTok 45 t)] ++ lit "time:" ++ number ++ [.star spaceTok true] ++ lit "ppqn")) := by
    have : str "metrical" = 109 :: 101 :: str "trical" := by decide +kernel
    unfold divisionPattern
    rw [show lit "metrical" = (str "metrical").map fun c => Item.chr (charTok c) from rfl, this]
    rfl
  have hfor : sing (str "format:") = sing (str "for") ++ ([109] :: [97] :: sing (str "t:")) := by decide +kernel
  have hdig : ∀ n, (109 : UInt8) ∉ dec n := fun n hm => absurd (dec_alphabet n _ hm) (by decide +kernel)
  rw [hpat, findToks_skip _ _ (charTok_mem 109 pre (fun h => absurd (hpre _ h) (by decide +kernel))), hfor]
  simp only [List.append_assoc, List.cons_append]
  rw [findToks_skip _ _ (charTok_sing 109 (str "for") (by decide +kernel)), findToks_miss _ _ _ (by decide),
    show ∀ z : List Tok, [97] :: z = sing [97] ++ z from fun _ => rfl, findToks_skip _ _ (charTok_sing 109 [97] (by decide)),
    findToks_skip _ _ (charTok_sing 109 (str "t:") (by decide +kernel)), findToks_skip _ _ (charTok_sing 109 _ (hdig _)),
    findToks_skip _ _ (charTok_sing 109 (str ", tracks:") (by decide +kernel)), findToks_skip _ _ (charTok_sing 109 _ (hdig _)),
    findToks_skip _ _ (charTok_sing 109 (str ", ") (by decide +kernel))]
  have hm : matchAt divisionPattern ⟨[], none⟩ (sing (str "metrical time:") ++ (sing (dec h.ppqn.toNat) ++ sing (str " ppqn"))) =
      some ⟨[dec h.ppqn.toNat], none⟩ := by
    have e1 : sing (str "metrical time:") = sing (str "metrical") ++ ([32] :: sing (str "time:")) := by decide +kernel
    have e2 : sing (str " ppqn") = sing [32] ++ sing (str "ppqn") := by decide +kernel
    rw [e1, e2]
    unfold divisionPattern
    simp only [List.append_assoc, List.cons_append]
    refine m_lit "metrical" ?_
    have hrest : matchAt (lit "time:" ++ (number ++ ([.star spaceTok true] ++ lit "ppqn"))) ⟨[], none⟩
        (sing (str "time:") ++ (sing (dec h.ppqn.toNat) ++ (sing [32] ++ sing (str "ppqn")))) = some ⟨[dec h.ppqn.toNat], none⟩ := by
      refine m_lit "time:" ?_
      refine m_number _ (head_lit (s := [32]) 32 rfl (by decide)) ?_
      have hp : matchAt (lit "ppqn") ⟨[dec h.ppqn.toNat], none⟩ (sing (str "ppqn")) = some ⟨[dec h.ppqn.toNat], none⟩ := by
        have := m_lit (is := []) (g := [dec h.ppqn.toNat]) (x := ⟨[dec h.ppqn.toNat], none⟩) (r := []) "ppqn" rfl
        simpa using this
      refine m_blank ?_ hp
      have := head_lit (p := spaceTok) (s := str "ppqn") (r := []) 112 (by decide +kernel) (by decide)
      simpa using this
    show matchAt (.opt _ :: _) _ _ = _
    simp only [matchAt]
    rw [if_pos (by decide)]
    have : Caps.eat ⟨[], none⟩ [32] = ⟨[], none⟩ := rfl
    rw [this]
    rw [show [] ++ (lit "time:" ++ (number ++ (Item.star spaceTok true :: ([] ++ lit "ppqn")))) = lit "time:" ++ (number ++ ([.star spaceTok true] ++ lit "ppqn")) from rfl]
    rw [hrest, Option.some_or]
  have hm' := findToks_hit hm
  rw [hpat] at hm'
  simp only [List.append_assoc, List.cons_append, List.nil_append] at hm' ⊢
  rw [hm']
  rfl

end Midiasm
