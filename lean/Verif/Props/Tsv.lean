import Verif.Model.Tsv
import Verif.Spec.Tsv
import Verif.Lemmas.Text

/-!
Properties C51, C75, C76: TSV export.
-/

set_option linter.unusedSimpArgs false
set_option linter.unnecessarySeqFocus false

namespace Midiasm
open Spec

theorem str_append (a b : String) : str (a ++ b) = str a ++ str b := by
  simp [str]

theorem dec2_eq (n : UInt8) : dec2 n.toNat = str (twoDigits n) := by
  unfold dec2 twoDigits
  split
  · rw [str_append, ← dec_eq_repr]; rfl
  · exact dec_eq_repr _

/-- The cells the code computes are the specified ones. -/
theorem fields_eq_cells (e : Event) : fields e = cells e := by
  have ht : str e.body.tag = str (kindName e.body) := by
    cases hb : e.body <;> first | rfl | (rename_i k _; cases k <;> rfl)
  have hs : ∀ n : Nat, s!"{n}" = toString n := fun n => rfl
  unfold fields cells
  simp only [ht, dec_eq_repr]
  cases hb : e.body <;>
    simp only [channelCell, noteCell, velocityCell, detailsCell, optionalCell, dec2_eq, trimSpace_hex, formatBytes, dec_eq_repr,
      toString, str_append, List.append_assoc] <;> rfl

/-- The cell in a row and column, if the table is that large. -/
def cellAt (t : List (List Bytes)) (r c : Nat) : Option Bytes := t[r]?.bind (fun row => row[c]?)

theorem setCell_cell (t : List (List Bytes)) (w : Nat × Nat × Bytes) (r c : Nat) :
    cellAt (setCell t w) r c = if w.1 = r ∧ w.2.1 = c then (cellAt t r c).map (fun _ => w.2.2) else cellAt t r c := by
  unfold cellAt setCell
  rw [List.getElem?_modify]
  by_cases h1 : w.1 = r
  · by_cases h2 : w.2.1 = c
    · cases ht : t[r]? with
      | none => simp [h1, ht]
      | some row =>
        simp only [h1, h2, ht, and_self, if_true, Option.map_some, Option.bind_some, Option.map_eq_map]
        rw [List.getElem?_set]
        by_cases hl : c < row.length
        · simp [hl]
        · simp [hl]
    · cases ht : t[r]? with
      | none => simp [h1, ht]
      | some row =>
        simp only [h1, h2, ht, and_false, if_true, if_false, Option.map_some, Option.bind_some, Option.map_eq_map]
        rw [List.getElem?_set_ne h2]
  · simp [h1]

theorem setCell_dims (t : List (List Bytes)) (w : Nat × Nat × Bytes) (n : Nat) (h : ∀ row ∈ t, row.length = n) :
    (setCell t w).length = t.length ∧ ∀ row ∈ setCell t w, row.length = n := by
  unfold setCell
  refine ⟨List.length_modify .., ?_⟩
  intro row hr
  obtain ⟨i, hi⟩ := List.mem_iff_getElem?.mp hr
  rw [List.getElem?_modify] at hi
  cases ht : t[i]? with
  | none => rw [ht] at hi; simp at hi
  | some r0 =>
    rw [ht] at hi
    have h0 := h r0 (List.mem_of_getElem? ht)
    simp only [Option.map_eq_map, Option.map_some, Option.some.injEq] at hi
    rw [← hi]
    split
    · rw [List.length_set]; exact h0
    · exact h0

theorem writes_dims (ws : List (Nat × Nat × Bytes)) : ∀ (t : List (List Bytes)) (n : Nat), (∀ row ∈ t, row.length = n) →
    (ws.foldl setCell t).length = t.length ∧ ∀ row ∈ ws.foldl setCell t, row.length = n := by
  induction ws with
  | nil => intro t n h; exact ⟨rfl, h⟩
  | cons w ws ih =>
    intro t n h
    have := setCell_dims t w n h
    have h2 := ih (setCell t w) n this.2
    exact ⟨h2.1.trans this.1, h2.2⟩

/-- A cell nobody writes to. -/
theorem writes_none (ws : List (Nat × Nat × Bytes)) (r c : Nat) : ∀ (t : List (List Bytes)),
    (∀ w ∈ ws, ¬ (w.1 = r ∧ w.2.1 = c)) → cellAt (ws.foldl setCell t) r c = cellAt t r c := by
  induction ws with
  | nil => intro t _; rfl
  | cons w ws ih =>
    intro t h
    rw [List.foldl_cons, ih _ (fun x hx => h x (by simp [hx])), setCell_cell, if_neg (h w (by simp))]

/-- A cell to which everybody writes the same. -/
theorem writes_some (ws : List (Nat × Nat × Bytes)) (r c : Nat) (f : Bytes) : ∀ (t : List (List Bytes)),
    (cellAt t r c).isSome → (∀ w ∈ ws, w.1 = r → w.2.1 = c → w.2.2 = f) → (r, c, f) ∈ ws →
    cellAt (ws.foldl setCell t) r c = some f := by
  induction ws with
  | nil => intro t _ _ h; simp at h
  | cons w ws ih =>
    intro t hs hw hm
    rw [List.foldl_cons]
    have hs' : (cellAt (setCell t w) r c).isSome := by
      rw [setCell_cell]; split <;> simp [hs]
    by_cases hin : (r, c, f) ∈ ws
    · exact ih _ hs' (fun x hx => hw x (by simp [hx])) hin
    · have hwe : w = (r, c, f) := by
        rcases List.mem_cons.mp hm with h | h
        · exact h.symm
        · exact absurd h hin
      rw [writes_none]
      · rw [setCell_cell, hwe]
        simp only [and_self, if_true]
        obtain ⟨v, hv⟩ := Option.isSome_iff_exists.mp hs
        rw [hv]; rfl
      · intro x hx hxc
        have hx2 := hw x (by simp [hx]) hxc.1 hxc.2
        apply hin
        have : x = (r, c, f) := by
          obtain ⟨a, b, d⟩ := x
          simp only at hxc hx2 ⊢
          rw [hxc.1, hxc.2, hx2]
        rw [← this]; exact hx

/-- Everything written by the export. -/
theorem mem_tsvWrites (tracks : List (List Event)) (w : Nat × Nat × Bytes) :
    w ∈ tsvWrites tracks ↔
      (∃ (i k : Nat) (f : Bytes), i < tracks.length ∧ titles[k]? = some f ∧ w = (0, 7 * i + k, f)) ∨
      (∃ (i j k : Nat) (t : List Event) (e : Event) (f : Bytes), tracks[i]? = some t ∧ t[j]? = some e ∧ (cells e)[k]? = some f ∧
        w = (j + 1, 7 * i + k, f)) := by
  have hh : tsvHeader = titles := by decide +kernel
  have hl : tsvHeader.length = 7 := rfl
  unfold tsvWrites
  rw [List.mem_append, List.mem_flatMap, List.mem_flatMap, hl, hh]
  refine or_congr ?_ ?_
  · constructor
    · rintro ⟨i, hi, hw⟩
      rw [List.mem_map] at hw
      obtain ⟨⟨f, k⟩, hk, rfl⟩ := hw
      rw [List.mem_zipIdx_iff_getElem?] at hk
      exact ⟨i, k, f, List.mem_range.mp hi, hk, by simp [Nat.mul_comm]⟩
    · rintro ⟨i, k, f, hi, hk, rfl⟩
      refine ⟨i, List.mem_range.mpr hi, ?_⟩
      rw [List.mem_map]
      exact ⟨(f, k), List.mem_zipIdx_iff_getElem?.mpr hk, by simp [Nat.mul_comm]⟩
  · constructor
    · rintro ⟨⟨t, i⟩, hi, hw⟩
      rw [List.mem_zipIdx_iff_getElem?] at hi
      rw [List.mem_flatMap] at hw
      obtain ⟨⟨e, j⟩, hj, hw⟩ := hw
      rw [List.mem_zipIdx_iff_getElem?] at hj
      rw [List.mem_map] at hw
      obtain ⟨⟨f, k⟩, hk, rfl⟩ := hw
      rw [List.mem_zipIdx_iff_getElem?, fields_eq_cells] at hk
      exact ⟨i, j, k, t, e, f, hi, hj, hk, by simp [Nat.mul_comm]⟩
    · rintro ⟨i, j, k, t, e, f, hi, hj, hk, rfl⟩
      refine ⟨(t, i), List.mem_zipIdx_iff_getElem?.mpr hi, ?_⟩
      rw [List.mem_flatMap]
      refine ⟨(e, j), List.mem_zipIdx_iff_getElem?.mpr hj, ?_⟩
      rw [List.mem_map]
      refine ⟨(f, k), ?_, by simp [Nat.mul_comm]⟩
      rw [List.mem_zipIdx_iff_getElem?, fields_eq_cells]
      exact hk

/-- The number of events of the longest track. -/
def longest (tracks : List (List Event)) : Nat := (tracks.map List.length).foldr max 0

theorem longest_le (tracks : List (List Event)) : ∀ t ∈ tracks, t.length ≤ longest tracks := by
  induction tracks with
  | nil => simp
  | cons a ts ih =>
    intro t ht
    have e : longest (a :: ts) = max a.length (longest ts) := rfl
    rw [e]
    rcases List.mem_cons.mp ht with h | h
    · subst h; omega
    · have := ih t h; omega

theorem foldl_rows (tracks : List (List Event)) : ∀ n : Nat,
    tracks.foldl (fun n t => if t.length > n then t.length else n) n = max n (longest tracks) := by
  induction tracks with
  | nil => intro n; simp [longest]
  | cons t ts ih =>
    intro n
    have e : longest (t :: ts) = max t.length (longest ts) := rfl
    rw [List.foldl_cons, ih, e]
    split <;> omega

theorem foldl_columns (tracks : List (List Event)) : ∀ n : Nat,
    tracks.foldl (fun n _ => n + tsvHeader.length) n = n + 7 * tracks.length := by
  induction tracks with
  | nil => intro n; simp
  | cons t ts ih =>
    intro n
    rw [List.foldl_cons, ih]
    have : tsvHeader.length = 7 := rfl
    simp only [this, List.length_cons]
    omega

/-- **C51.** The exported table has one row more than the longest track has events, and seven columns per track.  The first row repeats
the column titles for each track; the cells of row `j + 1` in the columns of track `i` describe event `j` of that track and
are empty if the track has fewer events. -/
theorem C51_tsv (tracks : List (List Event)) :
    (exportTsv tracks).length = longest tracks + 1 ∧
    (∀ row ∈ exportTsv tracks, row.length = 7 * tracks.length) ∧
    (∀ (i k : Nat), i < tracks.length → k < 7 → cellAt (exportTsv tracks) 0 (7 * i + k) = titles[k]?) ∧
    (∀ (i j k : Nat) (t : List Event), tracks[i]? = some t → j < longest tracks → k < 7 →
      cellAt (exportTsv tracks) (j + 1) (7 * i + k) =
        match t[j]? with
        | some e => (cells e)[k]?
        | none => some []) := by
  have hex : exportTsv tracks = (tsvWrites tracks).foldl setCell
      (List.replicate (longest tracks + 1) (List.replicate (7 * tracks.length) [])) := by
    unfold exportTsv
    simp only [foldl_rows, foldl_columns, Nat.zero_add, Nat.zero_max]
  have hblank : ∀ r c, r < longest tracks + 1 → c < 7 * tracks.length →
      cellAt (List.replicate (longest tracks + 1) (List.replicate (7 * tracks.length) ([] : Bytes))) r c = some [] := by
    intro r c hr hc
    unfold cellAt
    rw [List.getElem?_replicate, if_pos hr]
    simp only [Option.bind_some]
    rw [List.getElem?_replicate, if_pos hc]
  have hd := writes_dims (tsvWrites tracks) (List.replicate (longest tracks + 1) (List.replicate (7 * tracks.length) []))
    (7 * tracks.length) (by intro row h; rw [List.eq_of_mem_replicate h, List.length_replicate])
  rw [hex]
  refine ⟨by rw [hd.1, List.length_replicate], hd.2, ?_, ?_⟩
  · intro i k hi hk
    have hlen : titles.length = 7 := rfl
    obtain ⟨f, hf⟩ : ∃ f, titles[k]? = some f := ⟨_, List.getElem?_eq_getElem (by omega)⟩
    rw [hf]
    apply writes_some
    · rw [hblank _ _ (by omega) (by omega)]; rfl
    · intro w hw h1 h2
      rcases (mem_tsvWrites tracks w).mp hw with ⟨i', k', f', hi', hk', rfl⟩ | ⟨i', j', k', t, e, f', _, _, _, rfl⟩
      · simp only at h1 h2 ⊢
        have hk7 : k' < 7 := by
          rcases Nat.lt_or_ge k' 7 with h | h
          · exact h
          · rw [List.getElem?_eq_none (by omega)] at hk'; simp at hk'
        have : k' = k := by omega
        rw [this, hf] at hk'
        exact (Option.some.inj hk').symm
      · simp only at h1; omega
    · exact (mem_tsvWrites tracks _).mpr (Or.inl ⟨i, k, f, hi, hf, rfl⟩)
  · intro i j k t ht hj hk
    have hi : i < tracks.length := by
      rcases Nat.lt_or_ge i tracks.length with h | h
      · exact h
      · rw [List.getElem?_eq_none h] at ht; simp at ht
    have hcl : ∀ e : Event, (cells e).length = 7 := fun e => rfl
    cases he : t[j]? with
    | some e =>
      obtain ⟨f, hf⟩ : ∃ f, (cells e)[k]? = some f := ⟨_, List.getElem?_eq_getElem (by rw [hcl]; omega)⟩
      simp only [hf]
      apply writes_some
      · rw [hblank _ _ (by omega) (by omega)]; rfl
      · intro w hw h1 h2
        rcases (mem_tsvWrites tracks w).mp hw with ⟨i', k', f', hi', hk', rfl⟩ | ⟨i', j', k', t', e', f', ht', he', hf', rfl⟩
        · simp only at h1; omega
        · simp only at h1 h2 ⊢
          have hk7 : k' < 7 := by
            rcases Nat.lt_or_ge k' 7 with h | h
            · exact h
            · rw [List.getElem?_eq_none (by rw [hcl]; omega)] at hf'; simp at hf'
          have e1 : k' = k := by omega
          have e2 : i' = i := by omega
          have e3 : j' = j := by omega
          subst e1 e2 e3
          rw [ht] at ht'
          rw [← Option.some.inj ht', he] at he'
          rw [← Option.some.inj he', hf] at hf'
          exact (Option.some.inj hf').symm
      · exact (mem_tsvWrites tracks _).mpr (Or.inr ⟨i, j, k, t, e, f, ht, he, hf, rfl⟩)
    | none =>
      simp only
      rw [writes_none]
      · exact hblank _ _ (by omega) (by omega)
      · intro w hw hc
        rcases (mem_tsvWrites tracks w).mp hw with ⟨i', k', f', hi', hk', rfl⟩ | ⟨i', j', k', t', e', f', ht', he', hf', rfl⟩
        · simp only at hc; omega
        · simp only at hc
          have hk7 : k' < 7 := by
            rcases Nat.lt_or_ge k' 7 with h | h
            · exact h
            · rw [List.getElem?_eq_none (by rw [hcl]; omega)] at hf'; simp at hf'
          have e2 : i' = i := by omega
          have e3 : j' = j := by omega
          subst e2 e3
          rw [ht] at ht'
          rw [← Option.some.inj ht', he] at he'
          simp at he'

/-- Two tracks of different length. -/
def tsvExample : List (List Event) := [
  [⟨0, 0, [], .tempo 500000⟩, ⟨0, 0, [], .endOfTrack⟩],
  [⟨0, 0, [], .noteOn 3 ⟨60, "C3", "C3"⟩ 64⟩, ⟨96, 96, [], .noteOff 3 ⟨60, "C3", "C3"⟩ 0⟩, ⟨96, 0, [], .endOfTrack⟩]]

example : longest tsvExample = 3 ∧ cellAt (exportTsv tsvExample) 2 (7 * 1 + 4) = some (str "60") ∧
    cellAt (exportTsv tsvExample) 3 (7 * 0 + 2) = some [] ∧ cellAt (exportTsv tsvExample) 1 6 = some (str "500000") := by
  decide +kernel

/-! ### Fixed width columns -/

/-- The number of characters of a string as displayed: bytes that are not valid UTF-8 count as one character each. -/
def characters (s : Bytes) : Nat := (runes s).length

theorem characters_le (s : Bytes) : characters s ≤ s.length := by
  unfold characters
  generalize hn : s.length = n
  induction n using Nat.strongRecOn generalizing s with
  | _ n ih =>
    cases s with
    | nil => simp [runes_nil]
    | cons b rest =>
      rw [runes_cons]
      have := ih (rest.drop (decodeRune b rest).2).length (by simp at hn; simp; omega) _ rfl
      simp at hn this ⊢
      omega

theorem characters_padRight (w : Nat) (s : Bytes) : characters (padRight w s) = max w (characters s) := by
  unfold characters padRight
  rw [runes_append_ascii, List.length_append, List.length_replicate]
  omega

theorem widths_step_length (ws : List Nat) (r : List Bytes) :
    (ws.zipIdx.map (fun (w, i) => match r[i]? with | some f => if f.length > w then f.length else w | none => w)).length = ws.length := by
  simp

theorem tableWidths_ge (records : List (List Bytes)) (n : Nat) (hn : ∀ r ∈ records, r.length = n) :
    ∀ r ∈ records, ∀ (i : Nat) (f : Bytes), r[i]? = some f → f.length ≤ (tableWidths records).getD i 0 := by
  have hcol : ∀ (rs : List (List Bytes)), (∀ r ∈ rs, r.length = n) → ∀ m, m ≤ n →
      rs ≠ [] → rs.foldl (fun n r => if r.length > n then r.length else n) m = n := by
    intro rs
    induction rs with
    | nil => intro _ m _ h; exact absurd rfl h
    | cons a rs ih =>
      intro h m hm _
      have ha := h a (by simp)
      rw [List.foldl_cons]
      have e : (if a.length > m then a.length else m) = n := by split <;> omega
      rw [e]
      by_cases hr : rs = []
      · subst hr; rfl
      · exact ih (fun r hr => h r (by simp [hr])) n (Nat.le_refl n) hr
  have hfold : ∀ (rs : List (List Bytes)) (ws : List Nat), (∀ r ∈ rs, r.length = n) → ws.length = n →
      (∀ i : Nat, ws.getD i 0 ≤ (rs.foldl (fun ws r => ws.zipIdx.map (fun (w, i) =>
        match r[i]? with | some f => if f.length > w then f.length else w | none => w)) ws).getD i 0) ∧
      ∀ r ∈ rs, ∀ (i : Nat) (f : Bytes), r[i]? = some f → f.length ≤ (rs.foldl (fun ws r => ws.zipIdx.map (fun (w, i) =>
        match r[i]? with | some f => if f.length > w then f.length else w | none => w)) ws).getD i 0 := by
    intro rs
    induction rs with
    | nil => intro ws _ _; exact ⟨fun i => Nat.le_refl _, by simp⟩
    | cons a rs ih =>
      intro ws h hl
      rw [List.foldl_cons]
      generalize hws' : (ws.zipIdx.map (fun (w, i) =>
        match a[i]? with | some f => if f.length > w then f.length else w | none => w)) = ws'
      have hl' : ws'.length = n := by rw [← hws']; simp [hl]
      obtain ⟨h1, h2⟩ := ih ws' (fun r hr => h r (by simp [hr])) hl'
      have hget : ∀ i : Nat, i < n → ws'.getD i 0 = (match a[i]? with
          | some f => if f.length > ws.getD i 0 then f.length else ws.getD i 0 | none => ws.getD i 0) := by
        intro i hi
        rw [← hws', List.getD_eq_getElem?_getD, List.getElem?_map, List.getElem?_zipIdx, List.getElem?_eq_getElem (by omega)]
        simp only [Option.map_some, Option.getD_some, Nat.zero_add]
        rw [List.getD_eq_getElem?_getD, List.getElem?_eq_getElem (l := ws) (by omega)]
        rfl
      refine ⟨?_, ?_⟩
      · intro i
        by_cases hi : i < n
        · refine Nat.le_trans ?_ (h1 i)
          rw [hget i hi]
          split
          · split <;> omega
          · omega
        · have : ws.getD i 0 = 0 := by rw [List.getD_eq_getElem?_getD, List.getElem?_eq_none (by omega)]; rfl
          omega
      · intro r hr i f hf
        rcases List.mem_cons.mp hr with h0 | h0
        · subst h0
          have hi : i < n := by
            rcases Nat.lt_or_ge i n with hlt | hge
            · exact hlt
            · rw [List.getElem?_eq_none (by rw [h r (by simp)]; exact hge)] at hf; simp at hf
          refine Nat.le_trans ?_ (h1 i)
          rw [hget i hi, hf]
          simp only
          split <;> omega
        · exact h2 r h0 i f hf
  intro r hr i f hf
  have hne : records ≠ [] := by intro h; rw [h] at hr; simp at hr
  have hw := hfold records (List.replicate n 0) hn (by simp)
  unfold tableWidths
  simp only [hcol records hn 0 (Nat.zero_le _) hne]
  exact hw.2 r hr i f hf

/-- **C75.** Fixed width output: one line per record; the cells of a line are separated by two blanks, each cell is followed by
blanks only, and the cells of a column all take the same number of characters, so that columns start at the same character
position in every line. -/
theorem C75_tabular (records : List (List Bytes)) (n : Nat) (hn : ∀ r ∈ records, r.length = n) :
    ∃ (widths : Nat → Nat) (shown : List Bytes → List Bytes),
      writeTable records = records.flatMap (fun r => List.intercalate (str "  ") (shown r) ++ str "\n") ∧
      ∀ r ∈ records, (shown r).length = n ∧ ∀ (i : Nat) (f : Bytes), r[i]? = some f →
        ∃ blanks, (shown r)[i]? = some (f ++ List.replicate blanks 32) ∧ characters (f ++ List.replicate blanks 32) = widths i := by
  refine ⟨fun i => (tableWidths records).getD i 0,
    fun r => r.zipIdx.map (fun (f, i) => padRight ((tableWidths records).getD i 0) f), rfl, ?_⟩
  intro r hr
  refine ⟨by simp [hn r hr], ?_⟩
  intro i f hf
  refine ⟨(tableWidths records).getD i 0 - (runes f).length, ?_, ?_⟩
  · rw [List.getElem?_map, List.getElem?_zipIdx, hf]
    simp [padRight]
  · have h := characters_padRight ((tableWidths records).getD i 0) f
    unfold padRight at h
    rw [h]
    have h1 := tableWidths_ge records n hn r hr i f hf
    have h2 := characters_le f
    exact Nat.max_eq_left (Nat.le_trans h2 h1)

/-- A table with a column of different lengths. -/
example : writeTable [[str "a", str "bcd"], [str "♯♯", []]] = str "a       bcd\n♯♯         \n" := by decide +kernel

/-! ### Delimited output -/

theorem readCsv_plain (comma : UInt8) (s : Bytes) : ∀ (f : Bytes) (r : List Bytes) (rest : Bytes),
    (∀ c ∈ s, c ≠ comma ∧ c ≠ 10) → readCsv comma .plain f r (s ++ rest) = readCsv comma .plain (s.reverse ++ f) r rest := by
  induction s with
  | nil => intro f r rest _; rfl
  | cons c s ih =>
    intro f r rest h
    have hc := h c (by simp)
    rw [List.cons_append, readCsv]
    · rw [if_neg hc.1, if_neg hc.2, ih _ _ _ (fun x hx => h x (by simp [hx]))]
      simp

theorem readCsv_quoted (comma : UInt8) (s : Bytes) : ∀ (f : Bytes) (r : List Bytes) (rest : Bytes),
    readCsv comma .quoted f r (s.flatMap (fun c => if c = 34 then [34, 34] else [c]) ++ rest) =
      readCsv comma .quoted (s.reverse ++ f) r rest := by
  induction s with
  | nil => intro f r rest; rfl
  | cons c s ih =>
    intro f r rest
    rw [List.flatMap_cons]
    by_cases hc : c = 34
    · rw [if_pos hc]
      simp only [List.cons_append, List.nil_append]
      rw [readCsv, if_pos rfl, readCsv, if_pos rfl, ih]
      subst hc; simp
    · rw [if_neg hc]
      simp only [List.cons_append, List.nil_append]
      rw [readCsv, if_neg hc, ih]
      simp

/-- Reading one written field, followed by the delimiter or the line end. -/
theorem readCsv_field (comma : UInt8) (hq : comma ≠ 34) (_hn : comma ≠ 10) (f : Bytes) (r : List Bytes) (rest : Bytes) (c : UInt8)
    (hc : c = comma ∨ c = 10) :
    readCsv comma .start [] r (csvField comma f ++ c :: rest) =
      if c = comma then readCsv comma .start [] (f :: r) rest else (f :: r).reverse :: readCsv comma .start [] [] rest := by
  have h34 : c ≠ 34 := by
    rcases hc with h | h
    · rw [h]; exact hq
    · rw [h]; decide
  have hend : c ≠ comma → c = 10 := by
    intro h; rcases hc with h' | h'
    · exact absurd h' h
    · exact h'
  unfold csvField
  split
  · simp only [List.append_assoc, List.cons_append, List.nil_append]
    rw [readCsv, if_pos rfl, readCsv_quoted, readCsv, if_pos rfl, readCsv, if_neg h34]
    simp only [List.append_nil, List.reverse_reverse]
    by_cases h : c = comma
    · rw [if_pos h, if_pos h]
    · rw [if_neg h, if_neg h, if_pos (hend h)]
  · rename_i hnq
    cases f with
    | nil =>
      rw [List.nil_append, readCsv, if_neg h34]
      by_cases h : c = comma
      · rw [if_pos h, if_pos h]; rfl
      · rw [if_neg h, if_neg h, if_pos (hend h)]; rfl
    | cons x s =>
      have hplain : ∀ y ∈ x :: s, y ≠ comma ∧ y ≠ 10 ∧ y ≠ 34 := by
        intro y hy
        unfold fieldNeedsQuotes at hnq
        rw [if_neg (by simp)] at hnq
        split at hnq
        · simp at hnq
        · split at hnq
          · simp at hnq
          · rename_i hany
            rw [Bool.not_eq_true, List.any_eq_false] at hany
            have := hany y hy
            simp only [Bool.or_eq_true, decide_eq_true_eq, not_or] at this
            exact ⟨this.2, this.1.1.1, this.1.2⟩
      have hx := hplain x (by simp)
      rw [List.cons_append, readCsv, if_neg hx.2.2, if_neg hx.1, if_neg hx.2.1,
        readCsv_plain comma s _ _ _ (fun y hy => ⟨(hplain y (by simp [hy])).1, (hplain y (by simp [hy])).2.1⟩), readCsv]
      simp only [List.reverse_append, List.reverse_cons, List.reverse_nil, List.nil_append, List.reverse_reverse,
        List.singleton_append]
      by_cases h : c = comma
      · rw [if_pos h, if_pos h]
      · rw [if_neg h, if_neg h, if_pos (hend h)]

theorem readCsv_record (comma : UInt8) (hq : comma ≠ 34) (hn : comma ≠ 10) (fs : List Bytes) (hne : fs ≠ []) : ∀ (r : List Bytes) (rest : Bytes),
    readCsv comma .start [] r (csvRecord comma fs ++ rest) = (r.reverse ++ fs) :: readCsv comma .start [] [] rest := by
  induction fs with
  | nil => exact absurd rfl hne
  | cons f fs ih =>
    intro r rest
    unfold csvRecord
    cases fs with
    | nil =>
      simp only [List.map_cons, List.map_nil, List.intercalate, List.intersperse, List.flatten_cons, List.flatten_nil, List.append_nil,
        List.append_assoc, List.cons_append, List.nil_append]
      rw [readCsv_field comma hq hn f r rest 10 (Or.inr rfl), if_neg (fun h => hn h.symm)]
      simp
    | cons g gs =>
      have := ih (by simp) (f :: r) rest
      unfold csvRecord at this
      simp only [List.map_cons, List.intercalate, List.intersperse, List.flatten_cons, List.append_assoc, List.cons_append,
        List.nil_append] at this ⊢
      rw [readCsv_field comma hq hn f r _ comma (Or.inl rfl), if_pos rfl, this]
      simp

/-- **C76.** A TSV file written with a valid ASCII delimiter reads back as the column titles followed by all records of the table,
cell by cell, whatever the texts contain: in particular the titles appear once more than in the table. -/
theorem C76_delimited (comma : UInt8) (hv : comma ≠ 0 ∧ comma ≠ 34 ∧ comma ≠ 10 ∧ comma ≠ 13) (tracks : List (List Event)) (hne : tracks ≠ []) :
    ∃ text, writeTSV tsvHeader (exportTsv tracks) comma = .ok text ∧
      readCsv comma .start [] [] text = titles :: exportTsv tracks := by
  have hh : tsvHeader = titles := by decide +kernel
  refine ⟨csvRecord comma tsvHeader ++ (exportTsv tracks).flatMap (csvRecord comma), ?_, ?_⟩
  · unfold writeTSV
    rw [if_neg]
    simp [hv.1, hv.2.1, hv.2.2.1, hv.2.2.2]
  · rw [readCsv_record comma hv.2.1 hv.2.2.1 tsvHeader (by simp [tsvHeader]), hh]
    simp only [List.reverse_nil, List.nil_append]
    congr 1
    have hrows := (C51_tsv tracks).2.1
    have hpos : 0 < 7 * tracks.length := by
      have : 0 < tracks.length := List.length_pos_iff.mpr hne
      omega
    have hall : ∀ (rs : List (List Bytes)), (∀ r ∈ rs, r ≠ []) →
        readCsv comma .start [] [] (rs.flatMap (csvRecord comma)) = rs := by
      intro rs
      induction rs with
      | nil => intro _; rfl
      | cons a rs ih =>
        intro h
        rw [List.flatMap_cons, readCsv_record comma hv.2.1 hv.2.2.1 a (h a (by simp)), ih (fun r hr => h r (by simp [hr]))]
        rfl
    apply hall
    intro r hr h0
    have := hrows r hr
    rw [h0] at this
    simp at this
    omega

/-- A text with quotes, the delimiter and a line end survives. -/
example : ∃ text, writeTSV tsvHeader (exportTsv [[⟨0, 0, [], .text .text (str "a\t\"b\"\n")⟩]]) 9 = .ok text ∧
    (readCsv 9 .start [] [] text)[2]? = some [str "0", str "0", str "Text", [], [], [], str "a\t\"b\"\n"] := by
  obtain ⟨text, h1, h2⟩ := C76_delimited 9 (by decide) [[⟨0, 0, [], .text .text (str "a\t\"b\"\n")⟩]] (by simp)
  exact ⟨text, h1, by rw [h2]; decide +kernel⟩

end Midiasm
