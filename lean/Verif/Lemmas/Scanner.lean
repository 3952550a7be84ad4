import Verif.Spec.TextStreams
import Verif.Model.Scanner
import Verif.Props.LongLines

/-!
The scanner of a text on any reader.
-/

set_option linter.unusedSimpArgs false

namespace Midiasm
open Spec

theorem readSome_eq {σ : Type} (R : Reader σ) (loops : Nat) (s : σ) (n : Nat) : readSome R loops s n =
    if n < (R.read s n).1.length then ([], some .other, (R.read s n).2.2)
    else
      match (R.read s n).2.1 with
      | some e => ((R.read s n).1, some e, (R.read s n).2.2)
      | none =>
        if (R.read s n).1 ≠ [] then ((R.read s n).1, none, (R.read s n).2.2)
        else
          match loops with
          | 0 => ([], some .other, (R.read s n).2.2)
          | loops + 1 => readSome R loops (R.read s n).2.2 n := by
  rw [readSome.eq_def]
  rfl

theorem readSome_feeds {σ : Type} {R : Reader σ} {e : ReadErr} {tog : Option Bool} {idle : Nat} {s : σ} {bytes : Bytes}
    (h : Feeds R e tog idle s bytes) (n : Nat) (hn : 0 < n) : ∀ loops, loops + idle = 100 →
    ∃ b s', b.length ≤ n ∧ ((readSome R loops s n = (b, none, s') ∧ b ≠ [] ∧ (tog = some true → b ≠ bytes) ∧ b <+: bytes ∧
        Feeds R e tog 0 s' (bytes.drop b.length)) ∨
      (readSome R loops s n = (b, some e, s') ∧ b = bytes ∧ (tog = some false → bytes = []))) := by
  induction h with
  | @step idle s bytes h1 h2 h3 h4 h5 h6 ih3 ih4 =>
    intro loops hl
    obtain ⟨k1, k2⟩ := h1 n hn
    replace h2 := h2 n hn
    replace h3 := h3 n hn
    replace h4 := h4 n hn
    replace h5 := h5 n hn
    replace h6 := h6 n hn
    replace ih3 := ih3 n hn
    rw [readSome_eq]
    generalize R.read s n = r at k1 k2 h2 h3 h4 h5 h6 ih3 ⊢
    obtain ⟨b, e', s'⟩ := r
    simp only at k1 k2 h2 h3 h4 h5 h6 ih3 ⊢
    rw [if_neg (by omega)]
    cases e' with
    | some e' =>
      obtain ⟨rfl, rfl, h⟩ := h6 e' rfl
      exact ⟨b, s', k1, Or.inr ⟨rfl, rfl, h⟩⟩
    | none =>
      simp only
      by_cases hb : b = []
      · rw [if_neg (by simpa using hb)]
        have := h2 rfl hb
        cases loops with
        | zero => omega
        | succ loops => exact ih3 rfl hb loops (by omega)
      · rw [if_pos hb]
        exact ⟨b, s', k1, Or.inl ⟨rfl, hb, h5 rfl hb, k2, h4 rfl hb⟩⟩

theorem idxOf_some {data : Bytes} {i : Nat} (h : data.idxOf? 10 = some i) : data = data.take i ++ 10 :: data.drop (i + 1) ∧ 10 ∉ data.take i ∧ i < data.length := by
  induction data generalizing i with
  | nil => cases h
  | cons c data ih =>
    rw [List.idxOf?_cons] at h
    split at h
    · rename_i hc
      injection h with h
      subst h
      have hc : c = 10 := by simpa using hc
      subst hc
      simp
    · rename_i hc
      obtain ⟨j, hj, rfl⟩ := Option.map_eq_some_iff.mp h
      obtain ⟨k1, k2, k3⟩ := ih hj
      refine ⟨?_, ?_, by simp; omega⟩
      · rw [List.take_succ_cons, List.drop_succ_cons, List.cons_append, ← k1]
      · rw [List.take_succ_cons, List.mem_cons]
        rintro (h | h)
        · exact hc (by simp [← h])
        · exact k2 h

theorem idxOf_none {data : Bytes} (h : data.idxOf? 10 = none) : 10 ∉ data := by
  simpa using h

theorem dropReturn_chomp (l : Bytes) : splitLine.dropReturn l = chomp l := rfl

theorem lines_nil {ls : List Bytes} (h : Lines [] ls) : ls = [] := by
  generalize ht : ([] : Bytes) = t at h
  cases h with
  | nil => rfl
  | last _ hne _ => exact absurd ht.symm hne
  | cons l rest ls _ _ => simp at ht

/-- What is held when the reader has failed is split into lines. -/
theorem scan_end {σ : Type} (R : Reader σ) (e : ReadErr) (s : σ) (cap : Nat) : ∀ (m : Nat) (held : Bytes) (start : Nat), held.length ≤ m →
    ∃ ls, Lines held ls ∧ ∀ f, m < f → scanLoop R f ⟨cap, start, held, some e⟩ s = .ok (ls, e) := by
  intro m
  induction m with
  | zero =>
    intro held start hm
    cases held with
    | cons _ _ => simp at hm
    | nil =>
      refine ⟨[], .nil, ?_⟩
      intro f hf
      cases f with
      | zero => omega
      | succ f => rfl
  | succ m ih =>
    intro held start hm
    cases held with
    | nil =>
      refine ⟨[], .nil, ?_⟩
      intro f hf
      cases f with
      | zero => omega
      | succ f => rfl
    | cons c held =>
      cases hi : (c :: held).idxOf? 10 with
      | none =>
        refine ⟨[chomp (c :: held)], .last _ (by simp) (idxOf_none hi), ?_⟩
        obtain ⟨ls, h1, h2⟩ := ih [] (start + (c :: held).length) (by simp)
        have : ls = [] := lines_nil h1
        subst this
        intro f hf
        cases f with
        | zero => omega
        | succ f =>
          rw [scanLoop]
          simp only [splitLine, Option.isSome_some, hi]
          simp only [ne_eq, reduceCtorEq, not_false_eq_true, true_or, if_true, and_false, if_false, List.drop_length]
          rw [h2 f (by omega)]
          rfl
      | some i =>
        obtain ⟨k1, k2, k3⟩ := idxOf_some hi
        obtain ⟨ls, h1, h2⟩ := ih ((c :: held).drop (i + 1)) (start + (i + 1)) (by simp at hm k3 ⊢; omega)
        refine ⟨chomp ((c :: held).take i) :: ls, ?_, ?_⟩
        · have := Lines.cons _ _ _ k2 h1
          rwa [← k1] at this
        · intro f hf
          cases f with
          | zero => omega
          | succ f =>
            rw [scanLoop]
            simp only [splitLine, Option.isSome_some, hi]
            simp only [ne_eq, reduceCtorEq, not_false_eq_true, true_or, if_true, and_false, if_false]
            rw [h2 f (by omega)]
            rfl

theorem nearly_cons {l t : Bytes} (hl : l.length < 65536) (h : NearlyShort t) : NearlyShort (l ++ 10 :: t) := by
  intro a x b he hx
  rcases stretch_split he hx with ⟨c, rfl⟩ | ⟨c, rfl⟩
  · simp at hl
    exact Or.inl (by omega)
  · exact h c x b rfl hx

theorem short_cons {l t : Bytes} (hl : l.length < 65536) (h : ShortLines t) : ShortLines (l ++ 10 :: t) := by
  intro a x b he hx
  rcases stretch_split he hx with ⟨c, rfl⟩ | ⟨c, rfl⟩
  · simp at hl
    omega
  · exact h c x b rfl hx

theorem nearly_tail {l t : Bytes} (h : NearlyShort (l ++ t)) : NearlyShort t := by
  intro a x b he hx
  exact h (l ++ a) x b (by rw [he, List.append_assoc]) hx

theorem short_tail {l t : Bytes} (h : ShortLines (l ++ t)) : ShortLines t := by
  intro a x b he hx
  exact h (l ++ a) x b (by rw [he, List.append_assoc]) hx

/-- Shifting and growing make room, or the buffer is full. -/
theorem shift_grow (st : Scanner) (h1 : st.start + st.held.length ≤ st.cap) (h2 : st.cap ≤ 65536) (he : st.err = none) :
    (st.shift.grow = none ∧ st.held.length = 65536) ∨
    ∃ cap start, st.shift.grow = some ⟨cap, start, st.held, none⟩ ∧ start + st.held.length < cap ∧ cap ≤ 65536 := by
  obtain ⟨cap, start, held, err⟩ := st
  simp only at h1 h2 he
  subst he
  simp only
  unfold Scanner.shift
  split
  · rename_i h
    simp only at h
    unfold Scanner.grow
    simp only
    rw [if_neg (by omega)]
    exact Or.inr ⟨cap, 0, rfl, by omega, h2⟩
  · rename_i h
    simp only at h
    unfold Scanner.grow
    simp only
    split
    · rename_i hf
      have hs : start = 0 := by omega
      subst hs
      split
      · exact Or.inl ⟨rfl, by omega⟩
      · refine Or.inr ⟨_, _, rfl, ?_, by omega⟩
        split <;> omega
    · exact Or.inr ⟨cap, start, rfl, by omega, h2⟩

/-- One read of the scanner, when it holds no whole line. -/
theorem scan_read {σ : Type} {R : Reader σ} {e : ReadErr} {tog : Option Bool} {m : Nat}
    (ih : ∀ (rest : Bytes) (s : σ) (st : Scanner), rest.length * 65537 + st.held.length < m → Feeds R e tog 0 s rest → st.err = none →
      st.start + st.held.length ≤ st.cap → st.cap ≤ 65536 → (tog = some true → st.held ≠ [] → rest ≠ []) →
      ∃ f0 ls e', (∀ f, f0 ≤ f → scanLoop R f st s = .ok (ls, e')) ∧
        ((e' = e ∧ Lines (st.held ++ rest) ls ∧ NearlyShort (st.held ++ rest) ∧ (tog = some false → ShortLines (st.held ++ rest))) ∨
          (e' = .other ∧ ¬ ShortLines (st.held ++ rest) ∧ (tog = some true → ¬ NearlyShort (st.held ++ rest)))))
    (rest : Bytes) (s : σ) (st : Scanner) (hm : rest.length * 65537 + st.held.length ≤ m) (hf : Feeds R e tog 0 s rest) (he : st.err = none)
    (h1 : st.start + st.held.length ≤ st.cap) (h2 : st.cap ≤ 65536) (h3 : tog = some true → st.held ≠ [] → rest ≠ []) (hn : 10 ∉ st.held) :
    ∃ f0 ls e', (∀ f, f0 ≤ f → scanLoop R f st s = .ok (ls, e')) ∧
      ((e' = e ∧ Lines (st.held ++ rest) ls ∧ NearlyShort (st.held ++ rest) ∧ (tog = some false → ShortLines (st.held ++ rest))) ∨
        (e' = .other ∧ ¬ ShortLines (st.held ++ rest) ∧ (tog = some true → ¬ NearlyShort (st.held ++ rest)))) := by
  have hi : st.held.idxOf? 10 = none := by simpa using hn
  have hstep : ∀ f, scanLoop R (f + 1) st s = (match st.shift.grow with
        | none => .ok ([], .other)
        | some st =>
          match readSome R 100 s (st.cap - (st.start + st.held.length)) with
          | (b, e, s') => scanLoop R f { st with held := st.held ++ b, err := e } s') := by
    intro f
    have hc : (if st.held ≠ [] ∨ st.err.isSome then splitLine st.held st.err.isSome else none) = none := by
      split
      · unfold splitLine
        rw [he, hi]
        simp
      · rfl
    rw [scanLoop, hc, he]
    rfl
  rcases shift_grow st h1 h2 he with ⟨hg, hl⟩ | ⟨cap, start, hg, hroom, hcap⟩
  · refine ⟨1, [], .other, ?_, Or.inr ⟨rfl, ?_, ?_⟩⟩
    · intro f hf
      cases f with
      | zero => omega
      | succ f => rw [hstep, hg]
    · intro h
      have := h [] st.held rest rfl hn
      omega
    · intro ht h
      rcases h [] st.held rest rfl hn with h | ⟨_, h⟩
      · omega
      · exact h3 ht (by intro h0; rw [h0] at hl; simp at hl) h
  · obtain ⟨b, s', hb, hr⟩ := readSome_feeds hf (cap - (start + st.held.length)) (by omega) 100 rfl
    rcases hr with ⟨hr, hne, hmore, ⟨t, rfl⟩, hfeeds⟩ | ⟨hr, rfl, hlate⟩
    · have hpos : 0 < b.length := List.length_pos_iff.mpr hne
      rw [List.drop_left] at hfeeds
      obtain ⟨f0, ls, e', g1, g2⟩ := ih t s' ⟨cap, start, st.held ++ b, none⟩ (by
        simp only [List.length_append] at hm ⊢
        omega) hfeeds rfl (by simp only [List.length_append]; omega) hcap (by
        intro ht _ hn
        subst hn
        exact hmore ht (by simp))
      simp only [List.append_assoc] at g2
      refine ⟨f0 + 1, ls, e', ?_, g2⟩
      intro f hf
      cases f with
      | zero => omega
      | succ f =>
        rw [hstep, hg]
        simp only
        rw [hr]
        exact g1 f (by omega)
    · obtain ⟨ls, g1, g2⟩ := scan_end R e s' cap (st.held ++ b).length (st.held ++ b) start (Nat.le_refl _)
      have hlen : (st.held ++ b).length ≤ 65536 := by rw [List.length_append]; omega
      refine ⟨(st.held ++ b).length + 2, ls, e, ?_, Or.inl ⟨rfl, g1, ?_, ?_⟩⟩
      · intro f hf
        cases f with
        | zero => omega
        | succ f =>
          rw [hstep, hg]
          simp only
          rw [hr]
          exact g2 f (by omega)
      · intro a x b' heq _
        rw [heq] at hlen
        simp only [List.length_append] at hlen
        by_cases hb' : b' = []
        · by_cases hx : x.length = 65536
          · exact Or.inr ⟨hx, hb'⟩
          · exact Or.inl (by omega)
        · have := List.length_pos_iff.mpr hb'
          exact Or.inl (by omega)
      · intro ht a x b' heq _
        rw [hlate ht, List.append_nil] at heq
        have := congrArg List.length heq
        simp only [List.length_append] at this
        omega

/-- What the scanner finds. -/
theorem scan_feeds {σ : Type} {R : Reader σ} {e : ReadErr} {tog : Option Bool} : ∀ (m : Nat) (rest : Bytes) (s : σ) (st : Scanner),
    rest.length * 65537 + st.held.length ≤ m → Feeds R e tog 0 s rest → st.err = none → st.start + st.held.length ≤ st.cap → st.cap ≤ 65536 →
    (tog = some true → st.held ≠ [] → rest ≠ []) →
    ∃ f0 ls e', (∀ f, f0 ≤ f → scanLoop R f st s = .ok (ls, e')) ∧
      ((e' = e ∧ Lines (st.held ++ rest) ls ∧ NearlyShort (st.held ++ rest) ∧ (tog = some false → ShortLines (st.held ++ rest))) ∨
        (e' = .other ∧ ¬ ShortLines (st.held ++ rest) ∧ (tog = some true → ¬ NearlyShort (st.held ++ rest)))) := by
  intro m
  induction m with
  | zero =>
    intro rest s st hm hf he h1 h2 h3
    exact scan_read (m := 0) (by intros; omega) rest s st hm hf he h1 h2 h3 (by
      have : st.held = [] := List.eq_nil_of_length_eq_zero (by omega)
      rw [this]
      simp)
  | succ m ih =>
    intro rest s st hm hf he h1 h2 h3
    cases hi : st.held.idxOf? 10 with
    | none => exact scan_read (m := m + 1) (fun rest s st hm => ih rest s st (Nat.lt_succ_iff.mp hm)) rest s st hm hf he h1 h2 h3 (idxOf_none hi)
    | some i =>
      obtain ⟨k1, k2, k3⟩ := idxOf_some hi
      obtain ⟨f0, ls, e', g1, g2⟩ := ih rest s { st with start := st.start + (i + 1), held := st.held.drop (i + 1) }
        (by simp only [List.length_drop]; omega) hf he (by simp only [List.length_drop]; omega) h2
        (fun ht _ => h3 ht (by intro hn; rw [hn] at k3; simp at k3))
      simp only at g1 g2
      have hlen : (st.held.take i).length < 65536 := by rw [List.length_take]; omega
      have hsplit : st.held ++ rest = st.held.take i ++ 10 :: (st.held.drop (i + 1) ++ rest) := by
        rw [← List.cons_append, ← List.append_assoc, ← k1]
      refine ⟨f0 + 1, chomp (st.held.take i) :: ls, e', ?_, ?_⟩
      · intro f hf
        cases f with
        | zero => omega
        | succ f =>
          rw [scanLoop, if_pos (Or.inl (by intro hn; rw [hn] at k3; simp at k3))]
          simp only [splitLine, he, hi, Option.isSome_none, Bool.false_eq_true, false_and, if_false]
          have := g1 f (by omega)
          rw [he] at this
          rw [this]
          rfl
      · rw [hsplit]
        rcases g2 with ⟨rfl, c1, c2, c3⟩ | ⟨rfl, c1, c2⟩
        · exact Or.inl ⟨rfl, .cons _ _ _ k2 c1, nearly_cons hlen c2, fun ht => short_cons hlen (c3 ht)⟩
        · refine Or.inr ⟨rfl, fun h => c1 ?_, fun ht h => c2 ht ?_⟩
          · refine short_tail (l := st.held.take i ++ [10]) ?_
            rw [List.append_assoc]
            exact h
          · refine nearly_tail (l := st.held.take i ++ [10]) ?_
            rw [List.append_assoc]
            exact h

end Midiasm
