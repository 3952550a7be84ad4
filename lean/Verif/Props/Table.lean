import Verif.Spec.Table
import Verif.Props.WideTsv
import Verif.Props.WhatCommandsDo
import Verif.Props.Disassembly

/-!
C147: the exact text of tables of events.
-/

set_option linter.unusedSimpArgs false

namespace Midiasm
open Spec

/-! ### Characters -/

/-- The number of a character; the replacement character in place of a byte that no character starts with. -/
def runeOf : Option Char → Nat
  | some c => c.val.toNat
  | none => 0xfffd

theorem characters_exist (s : Bytes) : ∃ cs, Characters s cs := by
  generalize hn : s.length = n
  induction n using Nat.strongRecOn generalizing s with
  | _ n ih =>
    by_cases h : ∃ c, String.utf8EncodeChar c <+: s
    · obtain ⟨c, t, rfl⟩ := h
      have := List.length_pos_iff.2 (utf8EncodeChar_ne c)
      rw [List.length_append] at hn
      obtain ⟨cs, hcs⟩ := ih t.length (by omega) t rfl
      exact ⟨_, .char c t cs hcs⟩
    · cases s with
      | nil => exact ⟨_, .done⟩
      | cons b s =>
        obtain ⟨cs, hcs⟩ := ih s.length (by simp at hn; omega) s rfl
        exact ⟨_, .bad b s cs (fun c hc => h ⟨c, hc⟩) hcs⟩

theorem runes_characters {s : Bytes} {cs : List (Option Char)} (h : Characters s cs) : runes s = cs.map runeOf := by
  induction h with
  | done => rfl
  | char c s cs _ ih =>
    rw [← encodeRune_char, runes_encode_append _ (char_scalar c), ih]
    rfl
  | bad b s cs hb _ ih =>
    rw [runes_cons]
    rcases decodeRune_valid b s with ⟨hd, _⟩ | ⟨u, hu, he⟩
    · rw [hd, List.drop_zero, ih]
      rfl
    · obtain ⟨c, hc⟩ := exists_char (decodeRune_scalar b s)
      refine absurd ⟨s.drop (decodeRune b s).2, ?_⟩ (hb c)
      rw [← encodeRune_char, hc, ← he, List.cons_append, ← hu]

/-! ### Cells -/

theorem clockDigits_eq (n : UInt8) : dec2 n.toNat = str (clockDigits n.toNat) := by
  unfold dec2 clockDigits
  split
  · simp only [toString, str_append, dec_eq_repr]; rfl
  · exact dec_eq_repr _

theorem fields_entry (e : Event) : fields e = entryCells e.entry := by
  unfold fields entryCells
  simp only [Event.entry, tagOf_view, numberCell, dec_eq_repr]
  cases hb : e.body <;>
    simp only [Body.view, Body.names, Body.bank, channelCells, detailsOf, numberCell, clockDigits_eq, trimSpace_hex, formatBytes, dec_eq_repr,
      toString, str_append, List.append_assoc, List.getD_cons_zero, List.getD_cons_succ, Option.getD_some] <;> rfl

theorem entryCells_length (e : Entry) : (entryCells e).length = 7 := by
  unfold entryCells
  cases e.content <;> rfl

/-! ### Rows -/

theorem flatMap_cell {α β : Type} (f : α → List β) (n : Nat) (l : List α) (h : ∀ x ∈ l, (f x).length = n) (i k : Nat) (hk : k < n) :
    (l.flatMap f)[n * i + k]? = l[i]?.bind fun x => (f x)[k]? := by
  induction l generalizing i with
  | nil => simp
  | cons x l ih =>
    rw [List.flatMap_cons]
    cases i with
    | zero => rw [Nat.mul_zero, Nat.zero_add, List.getElem?_append_left (by rw [h x (by simp)]; exact hk)]; simp
    | succ i =>
      rw [List.getElem?_append_right (by rw [h x (by simp), Nat.mul_succ]; omega), h x (by simp),
        show n * (i + 1) + k - n = n * i + k by rw [Nat.mul_succ]; omega, ih fun y hy => h y (by simp [hy])]
      simp

theorem flatMap_len {α β : Type} (f : α → List β) (n : Nat) (l : List α) (h : ∀ x ∈ l, (f x).length = n) : (l.flatMap f).length = n * l.length := by
  induction l with
  | nil => simp
  | cons x l ih =>
    rw [List.flatMap_cons, List.length_append, h x (by simp), ih fun y hy => h y (by simp [hy]), List.length_cons, Nat.mul_succ]
    omega

theorem rows_eq (n m : Nat) (t : List (List Bytes)) (u : List (List Bytes)) (h1 : t.length = m) (h2 : ∀ r ∈ t, r.length = 7 * n) (h3 : u.length = m)
    (h4 : ∀ r ∈ u, r.length = 7 * n) (h : ∀ j i k, j < m → i < n → k < 7 → cellAt t j (7 * i + k) = cellAt u j (7 * i + k)) : t = u := by
  apply List.ext_getElem (by omega)
  intro j hj hj'
  apply List.ext_getElem (by rw [h2 _ (List.getElem_mem _), h4 _ (List.getElem_mem _)])
  intro c hc hc'
  have hc7 := hc
  rw [h2 _ (List.getElem_mem _)] at hc7
  have := h j (c / 7) (c % 7) (by omega) (by omega) (by omega)
  rw [show 7 * (c / 7) + c % 7 = c by omega] at this
  unfold cellAt at this
  rw [List.getElem?_eq_getElem hj, List.getElem?_eq_getElem hj', Option.bind_some, Option.bind_some, List.getElem?_eq_getElem hc,
    List.getElem?_eq_getElem hc'] at this
  exact Option.some.inj this

theorem tableRow_length (ts : List TrackEntry) (j : Nat) : (tableRow ts j).length = 7 * ts.length := by
  unfold tableRow
  refine flatMap_len _ 7 ts fun t _ => ?_
  split
  · exact entryCells_length _
  · simp

theorem tableRows_length (ts : List TrackEntry) : ∀ r ∈ tableRows ts, r.length = 7 * ts.length := by
  intro r hr
  rcases List.mem_cons.1 hr with rfl | hr
  · exact flatMap_len _ 7 ts fun _ _ => rfl
  · obtain ⟨j, _, rfl⟩ := List.mem_map.1 hr
    exact tableRow_length ts j

theorem exported_rows (ts : List MTrk) : exportTsv (ts.map (·.events)) = tableRows (ts.map MTrk.entry) := by
  obtain ⟨c1, c2, c3, c4⟩ := C51_tsv (ts.map (·.events))
  have hlong : ((ts.map MTrk.entry).map fun t => t.events.length).foldr max 0 = longest (ts.map (·.events)) := by
    unfold longest
    rw [List.map_map, List.map_map]
    congr 1
    apply List.map_congr_left
    intro t _
    simp [MTrk.entry]
  have hlen := tableRows_length (ts.map MTrk.entry)
  simp only [List.length_map] at c2 hlen
  refine rows_eq ts.length (longest (ts.map (·.events)) + 1) _ _ c1 c2 ?_ hlen ?_
  · simp only [tableRows, List.length_cons, List.length_map, List.length_range, hlong]
  · intro j i k hj hi hk
    cases j with
    | zero =>
      rw [c3 i k (by simpa using hi) hk]
      simp only [cellAt, tableRows, List.getElem?_cons_zero, Option.bind_some]
      rw [flatMap_cell _ 7 _ (fun _ _ => rfl) i k hk, List.getElem?_eq_getElem (l := ts.map MTrk.entry) (i := i) (by simpa using hi),
        Option.bind_some]
    | succ j =>
      rw [c4 i j k ts[i].events (by rw [List.getElem?_map, List.getElem?_eq_getElem hi]; rfl) (by omega) hk]
      simp only [cellAt, tableRows, List.getElem?_cons_succ, hlong]
      rw [List.getElem?_map, List.getElem?_range (by omega), Option.map_some, Option.bind_some, tableRow, flatMap_cell _ 7 _ _ i k hk,
        List.getElem?_map, List.getElem?_eq_getElem hi, Option.map_some, Option.bind_some]
      · simp only [MTrk.entry, List.getElem?_map]
        cases ts[i].events[j]? with
        | none =>
          show some [] = (List.replicate 7 [])[k]?
          rw [List.getElem?_replicate, if_pos hk]
        | some e => simp only [Option.map_some]; rw [← fields_entry, fields_eq_cells]
      · intro t _
        split
        · exact entryCells_length _
        · simp

/-! ### Aligned columns -/

theorem widths_exact (records : List (List Bytes)) (n : Nat) (hn : ∀ r ∈ records, r.length = n) (i : Nat) (hi : i < n) :
    (tableWidths records).getD i 0 = columnWidth records i := by
  have hcol : ∀ (rs : List (List Bytes)), (∀ r ∈ rs, r.length = n) → ∀ m, m ≤ n →
      rs ≠ [] → rs.foldl (fun n r => if r.length > n then r.length else n) m = n := by
    intro rs
    induction rs with
    | nil => intro _ m _ h; exact absurd rfl h
    | cons a rs ih =>
      intro h m hm _
      have ha := h a (by simp)
      rw [List.foldl_cons]
      have e : (if a.length > m then a.length else m) = n := by split <;> omega
      rw [e]
      by_cases hr : rs = []
      · subst hr; rfl
      · exact ih (fun r hr => h r (by simp [hr])) n (Nat.le_refl n) hr
  have hfold : ∀ (rs : List (List Bytes)) (ws : List Nat), (∀ r ∈ rs, r.length = n) → ws.length = n →
      (rs.foldl (fun ws r => ws.zipIdx.map (fun (w, i) =>
        match r[i]? with | some f => if f.length > w then f.length else w | none => w)) ws).getD i 0 = max (ws.getD i 0) (columnWidth rs i) := by
    intro rs
    induction rs with
    | nil => intro ws _ _; simp [columnWidth]
    | cons a rs ih =>
      intro ws h hl
      rw [List.foldl_cons, ih _ (fun r hr => h r (by simp [hr])) (by simp [hl])]
      have ha := h a (by simp)
      have hget : (ws.zipIdx.map (fun (w, i) =>
          match a[i]? with | some f => if f.length > w then f.length else w | none => w)).getD i 0 = max (ws.getD i 0) (a.getD i []).length := by
        rw [List.getD_eq_getElem?_getD, List.getElem?_map, List.getElem?_zipIdx, List.getElem?_eq_getElem (by omega)]
        simp only [Option.map_some, Option.getD_some, Nat.zero_add]
        rw [List.getD_eq_getElem?_getD, List.getElem?_eq_getElem (l := ws) (by omega), List.getD_eq_getElem?_getD,
          List.getElem?_eq_getElem (l := a) (by omega)]
        simp only [Option.getD_some]
        split <;> omega
      rw [hget]
      simp only [columnWidth, List.map_cons, List.foldr_cons]
      omega
  by_cases hne : records = []
  · subst hne; simp [tableWidths, columnWidth]
  · unfold tableWidths
    simp only [hcol records hn 0 (Nat.zero_le _) hne]
    refine (hfold records (List.replicate n 0) hn (by simp)).trans ?_
    rw [List.getD_eq_getElem?_getD, List.getElem?_replicate, if_pos hi]
    simp

theorem writeTable_aligned (count : Bytes → Nat) (hc : ∀ s, ∃ cs, Characters s cs ∧ count s = cs.length) (records : List (List Bytes)) (n : Nat)
    (hn : ∀ r ∈ records, r.length = n) : writeTable records = alignedText count records := by
  have hcount : ∀ s, (runes s).length = count s := by
    intro s
    obtain ⟨cs, h1, h2⟩ := hc s
    rw [runes_characters h1, h2, List.length_map]
  unfold writeTable alignedText
  apply List.flatMap_congr
  intro r hr
  have : (r.zipIdx.map fun (f, i) => padRight ((tableWidths records).getD i 0) f) =
      r.mapIdx fun i c => c ++ List.replicate (columnWidth records i - count c) 32 := by
    apply List.ext_getElem (by simp)
    intro i h1 h2
    simp only [List.getElem_map, List.getElem_zipIdx, List.getElem_mapIdx, Nat.zero_add, padRight, hcount]
    rw [widths_exact records n hn i (by simp at h1; rw [← hn r hr]; exact h1)]
  rw [this]
  congr 1

/-! ### Delimited values -/

theorem contains_occurs (d : Bytes) (hd : d ≠ []) (s : Bytes) : contains s d = occursIn d s := by
  unfold occursIn
  induction s with
  | nil => cases d with
    | nil => exact absurd rfl hd
    | cons => rfl
  | cons c s ih =>
    rw [contains, ih, List.length_cons, List.range_succ_eq_map, List.any_cons, List.any_map, List.drop_zero]
    rfl

theorem starts_white (s : Bytes) :
    (match runes s with
      | r :: _ => (9 ≤ r && r ≤ 13) || r = 0x20 || r = 0x85 || r = 0xa0 || r = 0x1680 || (0x2000 ≤ r && r ≤ 0x200a) ||
          r = 0x2028 || r = 0x2029 || r = 0x202f || r = 0x205f || r = 0x3000
      | [] => false) = whiteSpace.any fun r => (String.utf8EncodeChar (Char.ofNat r)).isPrefixOf s := by
  have hw : ∀ r ∈ whiteSpace, (Char.ofNat r).val.toNat = r := by decide
  have hw' : ∀ r ∈ whiteSpace, ((9 ≤ r && r ≤ 13) || r = 0x20 || r = 0x85 || r = 0xa0 || r = 0x1680 || (0x2000 ≤ r && r ≤ 0x200a) ||
          r = 0x2028 || r = 0x2029 || r = 0x202f || r = 0x205f || r = 0x3000 : Bool) = true := by decide
  rw [Bool.eq_iff_iff, List.any_eq_true]
  constructor
  · intro h
    obtain ⟨cs, hcs⟩ := characters_exist s
    rw [runes_characters hcs] at h
    cases hcs with
    | done => cases h
    | char c s cs _ =>
      refine ⟨c.val.toNat, ?_, ?_⟩
      · simp only [List.map_cons, runeOf, Bool.or_eq_true, Bool.and_eq_true, decide_eq_true_eq] at h
        simp only [whiteSpace, List.mem_cons, List.not_mem_nil, or_false]
        omega
      · rw [show Char.ofNat c.val.toNat = c from Char.ofNat_toNat c, List.isPrefixOf_iff_prefix]
        exact ⟨s, rfl⟩
    | bad b s cs _ _ => simp [runeOf] at h
  · rintro ⟨r, hr, hp⟩
    rw [List.isPrefixOf_iff_prefix] at hp
    obtain ⟨t, rfl⟩ := hp
    rw [← encodeRune_char, runes_encode_append _ (char_scalar _), hw r hr]
    exact hw' r hr

theorem any_occurs (b : UInt8) (s : Bytes) : s.any (fun c => c = b) = occursIn [b] s := by
  rw [← contains_occurs [b] (by simp)]
  induction s with
  | nil => rfl
  | cons c s ih =>
    rw [contains, ← ih, List.any_cons]
    congr 1
    by_cases h : c = b
    · subst h; simp
    · simp [h, Ne.symm h, List.isPrefixOf]

theorem needs_quoted (d : Char) (hd : d.val.toNat < 128) (s : Bytes) : fieldNeedsQuotes (UInt8.ofNat d.val.toNat) s = isQuoted d s := by
  have he : String.utf8EncodeChar d = [UInt8.ofNat d.val.toNat] := by
    rw [← encodeRune_char, encodeRune, if_pos (by omega)]
  unfold fieldNeedsQuotes isQuoted
  rw [he, ← any_occurs]
  have hbs : str "\\." = [92, 46] := by decide +kernel
  rw [hbs]
  by_cases h0 : s = []
  · subst h0
    rw [if_pos rfl]
    simp only [List.any_nil, Bool.false_or]
    decide
  rw [if_neg h0]
  by_cases h1 : s = [92, 46]
  · rw [if_pos h1]
    simp [h1]
  rw [if_neg h1]
  have hor : (s.any fun c => c = 10 || c = 13 || c = 34 || c = UInt8.ofNat d.val.toNat) =
      ((s.any fun b => b = 10 || b = 13 || b = 34) || s.any fun c => c = UInt8.ofNat d.val.toNat) := by
    clear h0 h1
    induction s with
    | nil => rfl
    | cons c s ih =>
      simp only [List.any_cons, ih]
      generalize (decide (c = 10) || decide (c = 13) || decide (c = 34)) = a
      generalize (s.any fun b => b = 10 || b = 13 || b = 34) = b
      generalize (decide (c = UInt8.ofNat d.val.toNat)) = a'
      generalize (s.any fun c => c = UInt8.ofNat d.val.toNat) = b'
      revert a b a' b'
      decide
  rw [hor]
  simp only [h1, decide_false, Bool.or_false]
  split
  · rename_i h; rw [h]; rfl
  · rename_i h; rw [Bool.not_eq_true] at h; rw [h]; exact starts_white s

theorem needs_quoted_wide (d : Char) (s : Bytes) :
    (fieldNeedsQuotes 10 s || contains s (encodeRune d.val.toNat)) = isQuoted d s := by
  rw [show fieldNeedsQuotes 10 s = isQuoted '\n' s from needs_quoted '\n' (by decide) s, encodeRune_char, contains_occurs _ (utf8EncodeChar_ne d)]
  unfold isQuoted
  rw [show String.utf8EncodeChar '\n' = [10] from rfl, ← any_occurs]
  have hor : (s.any fun b => b = 10 || b = 13 || b = 34) = ((s.any fun b => b = 10 || b = 13 || b = 34) || s.any fun c => c = 10) := by
    induction s with
    | nil => rfl
    | cons c s ih =>
      simp only [List.any_cons]
      rw [ih]
      generalize decide (c = 10) = a1
      generalize decide (c = 13) = a2
      generalize decide (c = 34) = a3
      generalize (s.any fun b => b = 10 || b = 13 || b = 34) = b
      generalize (s.any fun c => c = 10) = b'
      revert a1 a2 a3 b b'
      decide
  rw [← hor]
  generalize (s.any fun b => b = 10 || b = 13 || b = 34) = a
  generalize occursIn (String.utf8EncodeChar d) s = b
  generalize (whiteSpace.any fun r => (String.utf8EncodeChar (Char.ofNat r)).isPrefixOf s) = c
  generalize decide (s = [92, 46]) = e
  revert a b c e
  decide

theorem writeDelimited_text (d : Char) (hd : d.val.toNat ∉ [0, 10, 13, 34, 0xfffd]) (header : List Bytes) (records : List (List Bytes)) :
    writeDelimited header records d.val.toNat = .ok (delimitedText d (header :: records)) := by
  simp only [List.mem_cons, List.not_mem_nil, or_false, not_or] at hd
  obtain ⟨h0, h10, h13, h34, hbad⟩ := hd
  unfold writeDelimited
  split
  · rename_i h
    have ho : ∀ n, n < 128 → d.val.toNat ≠ n → UInt8.ofNat d.val.toNat ≠ UInt8.ofNat n := by
      intro n hn hne he
      have := congrArg UInt8.toNat he
      rw [UInt8.toNat_ofNat', UInt8.toNat_ofNat'] at this
      omega
    have e0 := ho 0 (by omega) h0
    have e10 := ho 10 (by omega) h10
    have e13 := ho 13 (by omega) h13
    have e34 := ho 34 (by omega) h34
    unfold writeTSV
    rw [if_neg (by simp only [Bool.or_eq_true, decide_eq_true_eq]; rintro (((h | h) | h) | h) <;> contradiction)]
    have he : String.utf8EncodeChar d = [UInt8.ofNat d.val.toNat] := by
      rw [← encodeRune_char, encodeRune, if_pos (by omega)]
    have hfield : ∀ s, csvField (UInt8.ofNat d.val.toNat) s = cellText d s := by
      intro s
      rw [csvField, cellText, needs_quoted d h]
    have hrec : ∀ r, csvRecord (UInt8.ofNat d.val.toNat) r = List.intercalate (String.utf8EncodeChar d) (r.map (cellText d)) ++ [10] := by
      intro r
      rw [csvRecord, he, List.map_congr_left fun s _ => hfield s]
    simp only [delimitedText, List.flatMap_cons, ← hrec]
  · rename_i h
    rw [if_neg (show ¬ d.val.toNat = runeError from hbad)]
    have hfield : ∀ s, csvFieldWide d.val.toNat s = cellText d s := by
      intro s
      rw [csvFieldWide, cellText, needs_quoted_wide d]
    simp only [delimitedText, encodeRune_char, List.map_congr_left fun s _ => hfield s]

/-! ### The command -/

/-- The delimiter given on the command line: a tabulator, or the first character of the text given. -/
def DelimitedBy (s : List (Bytes × FlagValue)) (d : Char) : Prop :=
  (NoText s "delimiter" ∧ d = '\t') ∨ (Given s "delimiter" (.string (str "\\t")) ∧ d = '\t') ∨
    ∃ rest, Given s "delimiter" (.string (String.utf8EncodeChar d ++ rest)) ∧ String.utf8EncodeChar d ++ rest ≠ str "\\t"

theorem delimited_separator {s : List (Bytes × FlagValue)} {d : Char} (h : DelimitedBy s d) : Separator s d.val.toNat := by
  have hbs : str "\\t" = [92, 116] := by decide +kernel
  rcases h with ⟨h, rfl⟩ | ⟨h, rfl⟩ | ⟨rest, h, hne⟩
  · exact Or.inl ⟨h, rfl⟩
  · exact Or.inr (Or.inl ⟨hbs ▸ h, rfl⟩)
  · refine Or.inr (Or.inr ⟨_, h, by simp [utf8EncodeChar_ne d], hbs ▸ hne, ?_⟩)
    rw [← encodeRune_char, runes_encode_append _ (char_scalar d)]
    rfl

/-- **C147.** The rows of the table of events: the cells, from the bytes of the file. -/
theorem C147_rows (mc : MiddleC) (spare bytes : Bytes) (h : Header) (ts : List TrackEntry) (hf : FileSays (octaveOffset mc) bytes h ts) :
    ∃ smf, decode mc spare bytes = .ok smf ∧ exportTsv (smf.tracks.map (·.events)) = tableRows ts := by
  obtain ⟨smf, hd, hs⟩ := (C143_decoding mc spare bytes h ts).2 hf
  exact ⟨smf, hd, by rw [exported_rows, hs.2]⟩

/-- **C147.** The command `tsv`, printing or with `--tabular`: the exact text. -/
theorem C147_aligned (w : World) (args argv : List Bytes) (s : List (Bytes × FlagValue)) (r : List Bytes) (hi : Invokes .tsv args argv)
    (hl : CommandLine (options .tsv) args s r) (hr : r.headD [] ≠ []) (bytes : Bytes) (hb : w.read (r.headD []) = some bytes) (mc : MiddleC)
    (hmc : Naming s mc) (h : Header) (ts : List TrackEntry) (hf : FileSays (octaveOffset mc) bytes h ts) (ht : ¬ (h.format = 1 ∧ h.tracks = 0))
    (htab : NoText s "out" ∨ Given s "tabular" (.bool true)) (count : Bytes → Nat) (hc : ∀ s, ∃ cs, Characters s cs ∧ count s = cs.length) :
    Delivers w s (alignedText count (tableRows ts)) (midiasm w argv) := by
  obtain ⟨smf, hd, hs⟩ := (C143_decoding mc w.spare bytes h ts).2 hf
  have := C116_table w args argv s r hi hl smf ⟨hr, bytes, mc, hb, hmc, hd⟩ (not_trackless hf hs ht) htab
  rwa [exported_rows, hs.2, writeTable_aligned count hc _ _ (tableRows_length ts)] at this

/-- **C147.** The command `tsv`, writing values separated by a delimiter: the exact text. -/
theorem C147_delimited (w : World) (args argv : List Bytes) (s : List (Bytes × FlagValue)) (r : List Bytes) (hi : Invokes .tsv args argv)
    (hl : CommandLine (options .tsv) args s r) (hr : r.headD [] ≠ []) (bytes : Bytes) (hb : w.read (r.headD []) = some bytes) (mc : MiddleC)
    (hmc : Naming s mc) (h : Header) (ts : List TrackEntry) (hf : FileSays (octaveOffset mc) bytes h ts) (ht : ¬ (h.format = 1 ∧ h.tracks = 0))
    (htab : ¬ Given s "tabular" (.bool true)) (out : Bytes) (ho : Output s out) (d : Char) (hsep : DelimitedBy s d)
    (hd : d ∉ ['\x00', '\n', '\r', '"', '�']) : Delivers w s (delimitedText d (titles :: tableRows ts)) (midiasm w argv) := by
  obtain ⟨smf, hdec, hs⟩ := (C143_decoding mc w.spare bytes h ts).2 hf
  have hd' : d.val.toNat ∉ [0, 10, 13, 34, 0xfffd] := by
    intro hm
    apply hd
    have hch : ∀ c : Char, d.val.toNat = c.val.toNat → d = c := fun c h => Char.ext (UInt32.toNat_inj.1 h)
    simp only [List.mem_cons, List.not_mem_nil, or_false] at hm ⊢
    rcases hm with hm | hm | hm | hm | hm
    · exact Or.inl (hch '\x00' hm)
    · exact Or.inr (Or.inl (hch '\n' hm))
    · exact Or.inr (Or.inr (Or.inl (hch '\r' hm)))
    · exact Or.inr (Or.inr (Or.inr (Or.inl (hch '"' hm))))
    · exact Or.inr (Or.inr (Or.inr (Or.inr (hch '�' hm))))
  obtain ⟨text, h1, h2⟩ := (C116_delimited w args argv s r hi hl smf ⟨hr, bytes, mc, hb, hmc, hdec⟩ (not_trackless hf hs ht) htab out ho _
    (delimited_separator hsep)).2 hd'
  rw [writeDelimited_text d hd', exported_rows, hs.2] at h1
  injection h1 with h1
  rwa [← h1] at h2

/-! ### Examples -/

/-- The number of characters exists, and is what the hypothesis of `C147_aligned` asks for. -/
example : ∃ count : Bytes → Nat, ∀ s, ∃ cs, Characters s cs ∧ count s = cs.length := by
  refine ⟨fun s => (runes s).length, fun s => ?_⟩
  obtain ⟨cs, h⟩ := characters_exist s
  exact ⟨cs, h, by show (runes s).length = _; rw [runes_characters h, List.length_map]⟩

/-- A byte that no character starts with counts as one, the sharp sign as one, the two bytes of é as one. -/
example : Characters [0xe9, 0xe2, 0x99, 0xaf, 0xc3, 0xa9] [none, some '♯', some 'é'] :=
  .bad 0xe9 _ _ (fun c hc => by
    obtain ⟨t, ht⟩ := hc
    have := congrArg runes ht
    rw [← encodeRune_char, runes_encode_append _ (char_scalar c), show runes [0xe9, 0xe2, 0x99, 0xaf, 0xc3, 0xa9] = [0xfffd, 0x266f, 0xe9] by decide] at this
    injection this with h1 _
    have hc : c = '�' := Char.ext (UInt32.toNat_inj.1 h1)
    rw [hc] at ht
    have := congrArg List.head? ht
    revert this
    simp [String.utf8EncodeChar]) (.char '♯' [0xc3, 0xa9] _ (.char 'é' [] _ .done))

/-- The cells of two tracks of different lengths. -/
def sampleTable : List TrackEntry := [
  ⟨0, [], 0, [], [⟨0, 0, [], .tempo 500000, [], none⟩]⟩,
  ⟨1, [], 0, [], [⟨0, 0, [], .text 3 (str " \"A\""), [], none⟩, ⟨96, 96, [], .noteOn 3 61 64, ["D♭4", "D♭4"], none⟩]⟩]

example : tableRows sampleTable = [
    ["Tick", "Delta", "Tag", "Channel", "Note", "Velocity", "Details", "Tick", "Delta", "Tag", "Channel", "Note", "Velocity", "Details"].map str,
    ["0", "0", "Tempo", "", "", "", "500000", "0", "0", "TrackName", "", "", "", " \"A\""].map str,
    ["", "", "", "", "", "", "", "96", "96", "NoteOn", "3", "61", "64", "D♭4"].map str] := by
  decide +kernel

/-- Quotes, the delimiter and white space in front put a cell in quotes; two points do not. -/
example : [" a", "a\"b", "a;b", "a,b", "\\.", "..", ""].map (fun s => cellText ';' (str s)) =
    ["\" a\"", "\"a\"\"b\"", "\"a;b\"", "a,b", "\"\\.\"", "..", ""].map str := by
  decide +kernel

/-- The text of a table with aligned columns, and with a delimiter. -/
example : alignedText (fun s => (runes s).length) [[str "a", str "bcd"], [str "♯♯", []]] = str "a       bcd\n♯♯         \n" ∧
    delimitedText '€' [[str "a", str "b€"], [str "♯", []]] = str "a€\"b€\"\n♯€\n" := by
  decide +kernel

end Midiasm
