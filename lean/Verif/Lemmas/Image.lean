import Verif.Lemmas.BadLines
import Verif.Props.Printed

/-!
What can come out of reading a line of text.
-/

set_option linter.unusedSimpArgs false

namespace Midiasm
open Spec

/-! ### Groups are parts of the line -/

theorem run_open {i : Item} {c : Caps} {s : List Tok} {x : Caps} (h : Run i c s x) :
    (∀ g ∈ x.groups, g ∈ c.groups ∨ g <:+: c.open_.getD []) ∧ x.open_.getD [] <:+ c.open_.getD [] ++ s.flatten := by
  have key : ∀ ts, (∀ g ∈ (c.eats ts).groups, g ∈ c.groups ∨ g <:+: c.open_.getD []) ∧ (c.eats ts).open_.getD [] <:+ c.open_.getD [] ++ ts.flatten := by
    intro ts
    obtain ⟨gs, o⟩ := c
    cases o with
    | none => rw [eats_none]; exact ⟨fun g hg => Or.inl hg, List.nil_suffix⟩
    | some b => rw [eats_some]; exact ⟨fun g hg => Or.inl hg, List.suffix_refl _⟩
  have one : ∀ t, c.eat t = c.eats [t] := fun t => rfl
  cases h with
  | chr t _ => rw [one]; exact key [t]
  | star _ _ => exact key _
  | none => exact ⟨fun g hg => Or.inl hg, by simp⟩
  | one t _ => rw [one]; exact key [t]
  | left _ _ => exact key _
  | right _ _ => exact key _
  | start => exact ⟨fun g hg => Or.inl hg, List.nil_suffix⟩
  | stop =>
    refine ⟨fun g hg => ?_, List.nil_suffix⟩
    rcases List.mem_append.mp hg with hg | hg
    · exact Or.inl hg
    · right
      obtain ⟨gs, o⟩ := c
      cases o with
      | none => cases hg
      | some b =>
        simp only [Option.toList_some, List.mem_singleton] at hg
        subst hg
        exact List.infix_refl _

/-- Every group of a match is a part of what was matched. -/
theorem runs_infix {is : List Item} {c : Caps} {s : List Tok} {x : Caps} (h : Runs is c s x) :
    ∀ g ∈ x.groups, g ∈ c.groups ∨ g <:+: c.open_.getD [] ++ s.flatten := by
  induction h with
  | nil => exact fun g hg => Or.inl hg
  | cons h1 h2 ih =>
    intro g hg
    obtain ⟨q1, q2⟩ := run_open h1
    rcases ih g hg with h | h
    · rcases q1 g h with h | h
      · exact Or.inl h
      · exact Or.inr (h.trans ⟨[], _, rfl⟩)
    · right
      rw [List.flatten_append, ← List.append_assoc]
      obtain ⟨p, hp⟩ := q2
      rw [← hp, List.append_assoc]
      exact h.trans ⟨p, [], by simp⟩

theorem group_infix {is : List Item} {line : Bytes} {gs : List Bytes} (h : findSubmatch is line = some gs) : ∀ g ∈ gs, g <:+: line := by
  obtain ⟨a, u, v, o, hl, hr⟩ := findSubmatch_runs _ _ _ h
  intro g hg
  rcases runs_infix hr g hg with h | h
  · cases h
  · have : g <:+: u.flatten := h
    rw [← toks_flatten line, hl, List.flatten_append, List.flatten_append]
    exact this.trans ⟨a.flatten, v.flatten, by simp⟩

/-! ### The rest of a line -/

/-- A match of two patterns one after the other. -/
theorem matchAt_append (a b : List Item) : ∀ (c : Caps) (s : List Tok) (x : Caps), matchAt (a ++ b) c s = some x →
    ∃ u v c', s = u ++ v ∧ Runs a c u c' ∧ matchAt b c' v = some x := by
  induction a with
  | nil =>
    intro c s x h
    exact ⟨[], s, c, rfl, .nil, h⟩
  | cons i is ih =>
    intro c s x h
    rw [List.cons_append] at h
    have next : ∀ (c' : Caps) (u r : List Tok), s = u ++ r → Run i c u c' → matchAt (is ++ b) c' r = some x →
        ∃ u v c'', s = u ++ v ∧ Runs (i :: is) c u c'' ∧ matchAt b c'' v = some x := by
      intro c' u r hs hr hm
      obtain ⟨u', v, c'', rfl, hrs, hb⟩ := ih _ _ _ hm
      exact ⟨u ++ u', v, c'', by rw [hs, List.append_assoc], .cons hr hrs, hb⟩
    cases i with
    | chr p =>
      cases s with
      | nil => cases h
      | cons t r =>
        simp only [matchAt] at h
        split at h
        · rename_i hp; exact next _ [t] r rfl (.chr t hp) h
        · cases h
    | star p g =>
      obtain ⟨u, v, h1, h2, h3⟩ := starThen_runs p g _ s c x h
      exact next _ u v h1 (.star u h2) h3
    | opt p =>
      cases s with
      | nil => exact next _ [] [] rfl .none h
      | cons t r =>
        simp only [matchAt] at h
        split at h
        · rename_i hp
          rcases Option.or_eq_some_iff.mp h with h | ⟨_, h⟩
          · exact next _ [t] r rfl (.one t hp) h
          · exact next _ [] (t :: r) rfl .none h
        · exact next _ [] (t :: r) rfl .none h
    | alt a b =>
      simp only [matchAt] at h
      rcases Option.or_eq_some_iff.mp h with h | ⟨_, h⟩
      · obtain ⟨y, h1, h2⟩ := Option.bind_eq_some_iff.mp h
        obtain ⟨u, q1, q2, q3⟩ := seqTok_runs a c s y h1
        rw [q3] at h2
        exact next _ u _ q1 (.left u q2) h2
      · obtain ⟨y, h1, h2⟩ := Option.bind_eq_some_iff.mp h
        obtain ⟨u, q1, q2, q3⟩ := seqTok_runs b c s y h1
        rw [q3] at h2
        exact next _ u _ q1 (.right u q2) h2
    | start => exact next _ [] s rfl .start h
    | stop => exact next _ [] s rfl .stop h

/-- A greedy repetition before something that always matches takes everything it can. -/
theorem starThen_all (p : Tok → Bool) (k : Caps → List Tok → Option Caps) (hk : ∀ c s, (k c s).isSome = true) (s : List Tok) : ∀ c,
    starThen p true k c s = k (c.eats (s.takeWhile p)) (s.dropWhile p) := by
  induction s with
  | nil => intro c; rfl
  | cons t r ih =>
    intro c
    rw [starThen]
    cases hp : p t with
    | true =>
      rw [if_pos rfl, if_pos rfl, List.takeWhile_cons_of_pos hp, List.dropWhile_cons_of_pos hp, ih]
      have := hk ((c.eat t).eats (r.takeWhile p)) (r.dropWhile p)
      obtain ⟨y, hy⟩ := Option.isSome_iff_exists.mp this
      rw [hy]
      have e : c.eats (t :: r.takeWhile p) = (c.eat t).eats (r.takeWhile p) := rfl
      rw [e, hy]
      rfl
    | false => rw [if_neg (by simp), List.takeWhile_cons_of_neg (by simp [hp]), List.dropWhile_cons_of_neg (by simp [hp])]; rfl

/-- `\s+(.*)` at the start of the input. -/
theorem match_rest (g : List Bytes) (s : List Tok) : matchAt (plus spaceTok ++ group [.star anyTok true]) ⟨g, none⟩ s =
    match s with
    | t :: r => if spaceTok t = true then some ⟨g ++ [((r.dropWhile spaceTok).takeWhile anyTok).flatten], none⟩ else none
    | [] => none := by
  have inner : ∀ c s, matchAt (group [.star anyTok true]) c s = some ⟨c.groups ++ [(s.takeWhile anyTok).flatten], none⟩ := by
    intro c s
    simp only [group, List.cons_append, List.nil_append, matchAt]
    rw [starThen_all anyTok _ (by intro c s; rfl), eats_some]
    rfl
  cases s with
  | nil => rfl
  | cons t r =>
    simp only [plus, List.cons_append, List.nil_append, matchAt]
    split
    · rename_i hp
      rw [starThen_all spaceTok _ (by intro c s; rw [inner]; rfl), inner]
      have : (Caps.eat ⟨g, none⟩ t) = ⟨g, none⟩ := rfl
      rw [this, eats_none]
    · rfl

theorem findToks_match (is : List Item) (s : List Tok) (x : Caps) (h : findToks is s = some x) : ∃ a v, s = a ++ v ∧ matchAt is ⟨[], none⟩ v = some x := by
  induction s with
  | nil => exact ⟨[], [], rfl, h⟩
  | cons t r ih =>
    rw [findToks] at h
    rcases Option.or_eq_some_iff.mp h with h | ⟨_, h⟩
    · exact ⟨[], t :: r, rfl, h⟩
    · obtain ⟨a, v, rfl, h2⟩ := ih h
      exact ⟨t :: a, v, rfl, h2⟩

theorem decodeRune_cont (b : UInt8) (rest : Bytes) : ∀ c ∈ rest.take (decodeRune b rest).2, 128 ≤ c.toNat := by
  have hc : ∀ x : UInt8, isCont x = true → 128 ≤ x.toNat := all8 (by decide +kernel)
  have hg : ∀ x y z : UInt8, 128 ≤ y.toNat → (decide (y ≤ x) && decide (x ≤ z)) = true → 128 ≤ x.toNat := by
    intro x y z hy h
    simp only [Bool.and_eq_true, decide_eq_true_eq, UInt8.le_iff_toNat_le] at h
    omega
  have h3 : ∀ (p q : Prop) [Decidable p] [Decidable q] (x y z y' z' : UInt8), 128 ≤ y.toNat → 128 ≤ y'.toNat →
      (if p then decide (y ≤ x) && decide (x ≤ z) else if q then decide (y' ≤ x) && decide (x ≤ z') else isCont x) = true → 128 ≤ x.toNat := by
    intro p q _ _ x y z y' z' hy hy' h
    split at h
    · exact hg _ _ _ hy h
    · split at h
      · exact hg _ _ _ hy' h
      · exact hc _ h
  unfold decodeRune
  split
  · simp
  split
  · simp
  split
  · split
    · rename_i b1 _
      split
      · rename_i h
        intro c hcm
        simp only [List.take_succ_cons, List.take_zero, List.mem_singleton] at hcm
        subst hcm
        exact hc _ h
      · simp
    · simp
  split
  · split
    · rename_i b1 b2 _
      have k := h3 (b = 0xe0) (b = 0xed) b1 0xa0 0xbf 0x80 0x9f (by decide) (by decide)
      generalize (if b = 0xe0 then decide (0xa0 ≤ b1) && decide (b1 ≤ 0xbf) else if b = 0xed then decide (0x80 ≤ b1) && decide (b1 ≤ 0x9f) else isCont b1) = q at k ⊢
      split
      · rename_i h
        rw [Bool.and_eq_true] at h
        intro c hcm
        simp only [List.take_succ_cons, List.take_zero, List.mem_cons, List.not_mem_nil, or_false] at hcm
        rcases hcm with rfl | rfl
        · exact k h.1
        · exact hc _ h.2
      · simp
    · simp
  split
  · split
    · rename_i b1 b2 b3 _
      have k := h3 (b = 0xf0) (b = 0xf4) b1 0x90 0xbf 0x80 0x8f (by decide) (by decide)
      generalize (if b = 0xf0 then decide (0x90 ≤ b1) && decide (b1 ≤ 0xbf) else if b = 0xf4 then decide (0x80 ≤ b1) && decide (b1 ≤ 0x8f) else isCont b1) = q at k ⊢
      split
      · rename_i h
        rw [Bool.and_eq_true, Bool.and_eq_true] at h
        intro c hcm
        simp only [List.take_succ_cons, List.take_zero, List.mem_cons, List.not_mem_nil, or_false] at hcm
        rcases hcm with rfl | rfl | rfl
        · exact k h.1.1
        · exact hc _ h.1.2
        · exact hc _ h.2
      · simp
    · simp
  · simp

/-- A rune that starts with an ASCII byte is that byte; no rune is empty. -/
theorem toks_shape (s : Bytes) : ∀ t ∈ toks s, ∃ b more, t = b :: more ∧ (b.toNat < 128 → more = []) ∧ ∀ c ∈ more, 128 ≤ c.toNat := by
  induction h : s.length using Nat.strongRecOn generalizing s with
  | ind n ih =>
    subst h
    cases s with
    | nil => intro t ht; cases ht
    | cons b rest =>
      rw [toks_cons]
      intro t ht
      rcases List.mem_cons.mp ht with rfl | ht
      · refine ⟨b, _, rfl, fun hb => ?_, decodeRune_cont b rest⟩
        rw [decodeRune_ascii b rest hb]
        rfl
      · exact ih _ (by simp only [List.length_cons, List.length_drop]; omega) _ rfl t ht

theorem mem_takeWhile_p {α : Type} {p : α → Bool} {l : List α} {a : α} (h : a ∈ l.takeWhile p) : p a = true := mem_takeWhile a h

/-- The text of a line: no newline, no blank in front. -/
theorem rest_fields {tag : String} {line d s : Bytes} (h : findSubmatch (restPattern tag) line = some [d, s]) :
    10 ∉ s ∧ ∀ b, s.head? = some b → b ∉ blanks := by
  unfold findSubmatch at h
  cases hf : findToks (restPattern tag) (toks line) with
  | none => rw [hf] at h; cases h
  | some x =>
    rw [hf] at h
    simp only [Option.map_some, Option.some.injEq] at h
    obtain ⟨a, v, hl, hm⟩ := findToks_match _ _ _ hf
    unfold restPattern at hm
    simp only [List.append_assoc] at hm
    rw [← List.append_assoc] at hm
    obtain ⟨u, w, c', rfl, hr, hm'⟩ := matchAt_append _ _ _ _ _ hm
    obtain ⟨u1, u2, d', rfl, hr'⟩ := runs_delta hr
    obtain ⟨_, rfl⟩ := runs_ilit _ hr'
    clear hm
    rw [match_rest] at hm'
    split at hm'
    · rename_i t r
      split at hm'
      · injection hm' with hm'
        subst hm'
        simp only [List.cons_append, List.nil_append, List.cons.injEq, and_true] at h
        obtain ⟨_, rfl⟩ := h
        have hmem : ∀ y ∈ r, y ∈ toks line := by
          intro y hy
          rw [hl]
          simp [hy]
        constructor
        · intro h10
          obtain ⟨y, hy, hy10⟩ := List.mem_flatten.mp h10
          have hany := mem_takeWhile_p hy
          have hyr : y ∈ r := (List.dropWhile_sublist _).subset ((List.takeWhile_sublist _).subset hy)
          obtain ⟨b, more, rfl, hb, hmore⟩ := toks_shape line y (hmem y hyr)
          rcases List.mem_cons.mp hy10 with e | e
          · subst e
            rw [hb (by decide)] at hany
            revert hany
            decide
          · exact absurd (hmore _ e) (by decide)
        · intro b hb
          cases hd : r.dropWhile spaceTok with
          | nil => rw [hd] at hb; cases hb
          | cons y q =>
            have hys : spaceTok y = false := by
              have := List.head_dropWhile_not spaceTok (l := r) (by rw [hd]; simp)
              simpa [hd] using this
            have hyr : y ∈ r := (List.dropWhile_sublist _).subset (by rw [hd]; simp)
            obtain ⟨c, more, rfl, hc, _⟩ := toks_shape line y (hmem y hyr)
            rw [hd] at hb
            cases hany : anyTok (c :: more) with
            | false =>
              rw [List.takeWhile_cons_of_neg (by simp [hany])] at hb
              cases hb
            | true =>
              rw [List.takeWhile_cons_of_pos hany] at hb
              simp only [List.flatten_cons, List.cons_append, List.head?_cons, Option.some.injEq] at hb
              subst hb
              intro hbl
              have hlt : ∀ b : UInt8, b ∈ blanks → b.toNat < 128 ∧ reSpace b = true := all8 (by decide +kernel)
              obtain ⟨q1, q2⟩ := hlt c hbl
              rw [hc q1] at hys
              simp only [spaceTok, q2] at hys
              cases hys
      · cases hm'
    · cases hm'

end Midiasm
