import Verif.Lemmas.Regex

/-!
What a match looks like: the runes a pattern matched, cut into the parts the items matched.
-/

set_option linter.unusedSimpArgs false

namespace Midiasm

/-- The runes have the classes of a fixed sequence. -/
def Matches : List (Tok → Bool) → List Tok → Prop
  | [], [] => True
  | p :: ps, t :: ts => p t = true ∧ Matches ps ts
  | _, _ => False

/-- An item matches exactly these runes. -/
inductive Run : Item → Caps → List Tok → Caps → Prop
  | chr {p c} (t) : p t = true → Run (.chr p) c [t] (c.eat t)
  | star {p g c} (ts) : (∀ t ∈ ts, p t = true) → Run (.star p g) c ts (c.eats ts)
  | none {p c} : Run (.opt p) c [] c
  | one {p c} (t) : p t = true → Run (.opt p) c [t] (c.eat t)
  | left {a b c} (ts) : Matches a ts → Run (.alt a b) c ts (c.eats ts)
  | right {a b c} (ts) : Matches b ts → Run (.alt a b) c ts (c.eats ts)
  | start {c} : Run .start c [] ⟨c.groups, some []⟩
  | stop {c} : Run .stop c [] ⟨c.groups ++ c.open_.toList, none⟩

/-- A pattern matches exactly these runes. -/
inductive Runs : List Item → Caps → List Tok → Caps → Prop
  | nil {c} : Runs [] c [] c
  | cons {i is c u c' v x} : Run i c u c' → Runs is c' v x → Runs (i :: is) c (u ++ v) x

theorem starThen_runs (p : Tok → Bool) (greedy : Bool) (k : Caps → List Tok → Option Caps) (s : List Tok) : ∀ (c x : Caps),
    starThen p greedy k c s = some x → ∃ u v, s = u ++ v ∧ (∀ t ∈ u, p t = true) ∧ k (c.eats u) v = some x := by
  induction s with
  | nil =>
    intro c x h
    exact ⟨[], [], rfl, by simp, h⟩
  | cons t r ih =>
    intro c x h
    rw [starThen] at h
    have hlater : p t = true → starThen p greedy k (c.eat t) r = some x →
        ∃ u v, t :: r = u ++ v ∧ (∀ t ∈ u, p t = true) ∧ k (c.eats u) v = some x := by
      intro hp hs
      obtain ⟨u, v, rfl, h2, h3⟩ := ih _ _ hs
      exact ⟨t :: u, v, rfl, by
        intro y hy
        rcases List.mem_cons.mp hy with rfl | hy
        · exact hp
        · exact h2 y hy, h3⟩
    have hnow : k c (t :: r) = some x → ∃ u v, t :: r = u ++ v ∧ (∀ t ∈ u, p t = true) ∧ k (c.eats u) v = some x :=
      fun hk => ⟨[], t :: r, rfl, by simp, hk⟩
    split at h
    · rename_i hp
      split at h
      · rcases Option.or_eq_some_iff.mp h with h | ⟨_, h⟩
        · exact hlater hp h
        · exact hnow h
      · rcases Option.or_eq_some_iff.mp h with h | ⟨_, h⟩
        · exact hnow h
        · exact hlater hp h
    · exact hnow h

theorem seqTok_runs (ps : List (Tok → Bool)) : ∀ (c : Caps) (s : List Tok) (y : Caps × List Tok), seqTok ps c s = some y →
    ∃ u, s = u ++ y.2 ∧ Matches ps u ∧ y.1 = c.eats u := by
  induction ps with
  | nil =>
    intro c s y h
    simp only [seqTok] at h
    injection h with h
    subst h
    exact ⟨[], rfl, trivial, rfl⟩
  | cons p ps ih =>
    intro c s y h
    cases s with
    | nil => cases h
    | cons t r =>
      simp only [seqTok] at h
      split at h
      · rename_i hp
        obtain ⟨u, h1, h2, h3⟩ := ih _ _ _ h
        exact ⟨t :: u, by rw [h1]; rfl, ⟨hp, h2⟩, h3⟩
      · cases h

/-- A successful match is a run. -/
theorem matchAt_runs (is : List Item) : ∀ (c : Caps) (s : List Tok) (x : Caps), matchAt is c s = some x →
    ∃ u v, s = u ++ v ∧ Runs is c u x := by
  induction is with
  | nil =>
    intro c s x h
    simp only [matchAt] at h
    injection h with h
    subst h
    exact ⟨[], s, rfl, .nil⟩
  | cons i is ih =>
    intro c s x h
    have next : ∀ (c' : Caps) (u r : List Tok), s = u ++ r → Run i c u c' → matchAt is c' r = some x → ∃ u v, s = u ++ v ∧ Runs (i :: is) c u x := by
      intro c' u r hs hr hm
      obtain ⟨u', v, rfl, hrs⟩ := ih _ _ _ hm
      exact ⟨u ++ u', v, by rw [hs, List.append_assoc], .cons hr hrs⟩
    cases i with
    | chr p =>
      cases s with
      | nil => cases h
      | cons t r =>
        simp only [matchAt] at h
        split at h
        · rename_i hp; exact next _ [t] r rfl (.chr t hp) h
        · cases h
    | star p g =>
      obtain ⟨u, v, h1, h2, h3⟩ := starThen_runs p g _ s c x h
      exact next _ u v h1 (.star u h2) h3
    | opt p =>
      cases s with
      | nil => exact next _ [] [] rfl .none h
      | cons t r =>
        simp only [matchAt] at h
        split at h
        · rename_i hp
          rcases Option.or_eq_some_iff.mp h with h | ⟨_, h⟩
          · exact next _ [t] r rfl (.one t hp) h
          · exact next _ [] (t :: r) rfl .none h
        · exact next _ [] (t :: r) rfl .none h
    | alt a b =>
      simp only [matchAt] at h
      rcases Option.or_eq_some_iff.mp h with h | ⟨_, h⟩
      · obtain ⟨y, h1, h2⟩ := Option.bind_eq_some_iff.mp h
        obtain ⟨u, q1, q2, q3⟩ := seqTok_runs a c s y h1
        rw [q3] at h2
        exact next _ u _ q1 (.left u q2) h2
      · obtain ⟨y, h1, h2⟩ := Option.bind_eq_some_iff.mp h
        obtain ⟨u, q1, q2, q3⟩ := seqTok_runs b c s y h1
        rw [q3] at h2
        exact next _ u _ q1 (.right u q2) h2
    | start => exact next _ [] s rfl .start h
    | stop => exact next _ [] s rfl .stop h

theorem findToks_runs (is : List Item) (s : List Tok) (x : Caps) (h : findToks is s = some x) :
    ∃ a u v, s = a ++ (u ++ v) ∧ Runs is ⟨[], none⟩ u x := by
  induction s with
  | nil =>
    obtain ⟨u, v, h1, h2⟩ := matchAt_runs is _ _ _ h
    exact ⟨[], u, v, h1, h2⟩
  | cons t r ih =>
    rw [findToks] at h
    rcases Option.or_eq_some_iff.mp h with h | ⟨_, h⟩
    · obtain ⟨u, v, h1, h2⟩ := matchAt_runs is _ _ _ h
      exact ⟨[], u, v, h1, h2⟩
    · obtain ⟨a, u, v, h1, h2⟩ := ih h
      exact ⟨t :: a, u, v, by rw [h1]; rfl, h2⟩

/-- A match of a line. -/
theorem findSubmatch_runs (is : List Item) (line : Bytes) (gs : List Bytes) (h : findSubmatch is line = some gs) :
    ∃ a u v o, toks line = a ++ (u ++ v) ∧ Runs is ⟨[], none⟩ u ⟨gs, o⟩ := by
  unfold findSubmatch at h
  cases hf : findToks is (toks line) with
  | none => rw [hf] at h; cases h
  | some x =>
    rw [hf] at h
    simp only [Option.map_some, Option.some.injEq] at h
    obtain ⟨a, u, v, h1, h2⟩ := findToks_runs is _ x hf
    obtain ⟨g, o⟩ := x
    subst h
    exact ⟨a, u, v, o, h1, h2⟩

theorem runs_append (a b : List Item) : ∀ (c : Caps) (s : List Tok) (x : Caps), Runs (a ++ b) c s x →
    ∃ u v c', s = u ++ v ∧ Runs a c u c' ∧ Runs b c' v x := by
  induction a with
  | nil =>
    intro c s x h
    exact ⟨[], s, c, rfl, .nil, h⟩
  | cons i a ih =>
    intro c s x h
    generalize hl : (i :: a) ++ b = l at h
    cases h with
    | nil => cases hl
    | cons h1 h2 =>
      rw [List.cons_append] at hl
      injection hl with e1 e2
      subst e1 e2
      obtain ⟨u', v', c', e, q1, q2⟩ := ih _ _ _ h2
      exact ⟨_, v', c', by rw [e, ← List.append_assoc], .cons h1 q1, q2⟩

theorem runs_cons {i : Item} {is : List Item} {c : Caps} {s : List Tok} {x : Caps} (h : Runs (i :: is) c s x) :
    ∃ u v c', s = u ++ v ∧ Run i c u c' ∧ Runs is c' v x := by
  generalize hl : i :: is = l at h
  cases h with
  | nil => cases hl
  | cons h1 h2 =>
    injection hl with e1 e2
    subst e1 e2
    exact ⟨_, _, _, rfl, h1, h2⟩

theorem runs_nil {c : Caps} {s : List Tok} {x : Caps} (h : Runs [] c s x) : s = [] ∧ x = c := by
  cases h; exact ⟨rfl, rfl⟩

theorem run_chr {p : Tok → Bool} {c : Caps} {s : List Tok} {x : Caps} (h : Run (.chr p) c s x) : ∃ t, s = [t] ∧ p t = true ∧ x = c.eat t := by
  cases h; exact ⟨_, rfl, by assumption, rfl⟩

theorem run_star {p : Tok → Bool} {g : Bool} {c : Caps} {s : List Tok} {x : Caps} (h : Run (.star p g) c s x) :
    (∀ t ∈ s, p t = true) ∧ x = c.eats s := by
  cases h; exact ⟨by assumption, rfl⟩

theorem run_opt {p : Tok → Bool} {c : Caps} {s : List Tok} {x : Caps} (h : Run (.opt p) c s x) :
    (s = [] ∧ x = c) ∨ ∃ t, s = [t] ∧ p t = true ∧ x = c.eat t := by
  cases h
  · exact Or.inl ⟨rfl, rfl⟩
  · exact Or.inr ⟨_, rfl, by assumption, rfl⟩

theorem run_start {c : Caps} {s : List Tok} {x : Caps} (h : Run .start c s x) : s = [] ∧ x = ⟨c.groups, some []⟩ := by
  cases h; exact ⟨rfl, rfl⟩

theorem run_stop {c : Caps} {s : List Tok} {x : Caps} (h : Run .stop c s x) : s = [] ∧ x = ⟨c.groups ++ c.open_.toList, none⟩ := by
  cases h; exact ⟨rfl, rfl⟩

/-- A sequence of single classes outside of groups. -/
theorem runs_chrs (ps : List (Tok → Bool)) : ∀ (g : List Bytes) (s : List Tok) (x : Caps), Runs (ps.map Item.chr) ⟨g, none⟩ s x →
    Matches ps s ∧ x = ⟨g, none⟩ := by
  induction ps with
  | nil =>
    intro g s x h
    obtain ⟨rfl, rfl⟩ := runs_nil h
    exact ⟨trivial, rfl⟩
  | cons p ps ih =>
    intro g s x h
    obtain ⟨u, v, c', rfl, h1, h2⟩ := runs_cons h
    obtain ⟨t, rfl, hp, rfl⟩ := run_chr h1
    obtain ⟨q1, q2⟩ := ih g v x h2
    exact ⟨⟨hp, q1⟩, q2⟩

theorem runs_ilit (w : String) {g : List Bytes} {s : List Tok} {x : Caps} (h : Runs (ilit w) ⟨g, none⟩ s x) :
    Matches ((str w).map foldTok) s ∧ x = ⟨g, none⟩ := by
  apply runs_chrs
  rw [List.map_map]
  exact h

theorem runs_lit (w : String) {g : List Bytes} {s : List Tok} {x : Caps} (h : Runs (lit w) ⟨g, none⟩ s x) :
    Matches ((str w).map charTok) s ∧ x = ⟨g, none⟩ := by
  apply runs_chrs
  rw [List.map_map]
  exact h

theorem runs_star {p : Tok → Bool} {gr : Bool} {g : List Bytes} {s : List Tok} {x : Caps} (h : Runs [.star p gr] ⟨g, none⟩ s x) :
    (∀ t ∈ s, p t = true) ∧ x = ⟨g, none⟩ := by
  obtain ⟨u, v, c', rfl, h1, h2⟩ := runs_cons h
  obtain ⟨q1, rfl⟩ := run_star h1
  obtain ⟨rfl, rfl⟩ := runs_nil h2
  simp only [List.append_nil]
  exact ⟨q1, by simp⟩

theorem runs_plus {p : Tok → Bool} {g : List Bytes} {s : List Tok} {x : Caps} (h : Runs (plus p) ⟨g, none⟩ s x) :
    (∀ t ∈ s, p t = true) ∧ s ≠ [] ∧ x = ⟨g, none⟩ := by
  obtain ⟨u, v, c', rfl, h1, h2⟩ := runs_cons h
  obtain ⟨t, rfl, hp, rfl⟩ := run_chr h1
  obtain ⟨q1, rfl⟩ := runs_star h2
  refine ⟨?_, by simp, rfl⟩
  intro y hy
  rcases List.mem_append.mp hy with hy | hy
  · rw [List.mem_singleton] at hy; subst hy; exact hp
  · exact q1 y hy

/-- A group of one class and a repetition. -/
theorem runs_group {p q : Tok → Bool} {gr : Bool} {g : List Bytes} {s : List Tok} {x : Caps}
    (h : Runs (group [.chr p, .star q gr]) ⟨g, none⟩ s x) :
    ∃ t ts, s = t :: ts ∧ p t = true ∧ (∀ y ∈ ts, q y = true) ∧ x = ⟨g ++ [t ++ ts.flatten], none⟩ := by
  obtain ⟨u, v, c', rfl, h1, h2⟩ := runs_cons h
  obtain ⟨rfl, rfl⟩ := run_start h1
  obtain ⟨u, v', c', rfl, h1, h2⟩ := runs_cons h2
  obtain ⟨t, rfl, hp, rfl⟩ := run_chr h1
  obtain ⟨ts, w, c', rfl, h1, h2⟩ := runs_cons h2
  obtain ⟨hq, rfl⟩ := run_star h1
  obtain ⟨u, v, c', rfl, h1, h2⟩ := runs_cons h2
  obtain ⟨rfl, rfl⟩ := run_stop h1
  obtain ⟨rfl, rfl⟩ := runs_nil h2
  exact ⟨t, ts, by simp, hp, hq, by simp⟩

theorem runs_number {g : List Bytes} {s : List Tok} {x : Caps} (h : Runs number ⟨g, none⟩ s x) :
    (∀ t ∈ s, digitTok t = true) ∧ s ≠ [] ∧ x = ⟨g ++ [s.flatten], none⟩ := by
  obtain ⟨t, ts, rfl, h1, h2, h3⟩ := runs_group h
  refine ⟨?_, by simp, by simpa using h3⟩
  intro y hy
  rcases List.mem_cons.mp hy with rfl | hy
  · exact h1
  · exact h2 y hy

/-- A literal without letters matches itself only. -/
theorem fits_fold (w : Bytes) (hw : ∀ b ∈ w, lower b = b ∧ b ≠ 107 ∧ b ≠ 115 ∧ ¬ (97 ≤ b ∧ b ≤ 122)) : ∀ s, Matches (w.map foldTok) s → s.flatten = w := by
  induction w with
  | nil =>
    intro s h
    cases s with
    | nil => rfl
    | cons t s => exact h.elim
  | cons b w ih =>
    intro s h
    cases s with
    | nil => exact h.elim
    | cons t s =>
      obtain ⟨h1, h2⟩ := h
      have e := ih (fun c hc => hw c (by simp [hc])) s h2
      obtain ⟨w1, w2, w3, w4⟩ := hw b (by simp)
      have ht : t = [b] := by
        unfold foldTok at h1
        split at h1
        · rename_i x
          rw [w1] at h1
          simp only [decide_eq_true_eq] at h1
          unfold lower at h1
          split at h1
          · rename_i hx
            exfalso
            apply w4
            rw [← h1]
            have hx' : 65 ≤ x ∧ x ≤ 90 := by simpa using hx
            exact all8 (P := fun x => 65 ≤ x ∧ x ≤ 90 → 97 ≤ x + 32 ∧ x + 32 ≤ 122) (by decide +kernel) x hx'
          · rw [h1]
        · rw [w1] at h1
          simp [w2, w3] at h1
      rw [List.flatten_cons, e, ht]
      rfl

theorem fits_lit (w : Bytes) : ∀ s, Matches (w.map charTok) s → s.flatten = w := by
  induction w with
  | nil =>
    intro s h
    cases s with
    | nil => rfl
    | cons t s => exact h.elim
  | cons b w ih =>
    intro s h
    cases s with
    | nil => exact h.elim
    | cons t s =>
      obtain ⟨h1, h2⟩ := h
      have e := ih s h2
      have ht : t = [b] := by
        unfold charTok at h1
        split at h1
        · simp only [decide_eq_true_eq] at h1; rw [h1]
        · cases h1
      rw [List.flatten_cons, e, ht]
      rfl

end Midiasm
