import Verif.Spec.TextFile
import Verif.Lemmas.Fate
import Verif.Lemmas.Runs
import Verif.Lemmas.Image
import Verif.Model.AssembleText

/-!
The leftmost match of a pattern that begins with an ASCII character, in terms of the bytes of the line.
-/

set_option linter.unusedSimpArgs false

namespace Midiasm
open Spec

/-- The leftmost match in terms of runes. -/
theorem findToks_first (is : List Item) (s : List Tok) (x : Caps) (h : findToks is s = some x) :
    ∃ a v, s = a ++ v ∧ matchAt is ⟨[], none⟩ v = some x ∧
      ∀ a' v', s = a' ++ v' → (matchAt is ⟨[], none⟩ v').isSome = true → a.length ≤ a'.length := by
  induction s with
  | nil => exact ⟨[], [], rfl, h, by simp⟩
  | cons t r ih =>
    rw [findToks] at h
    rcases Option.or_eq_some_iff.mp h with h | ⟨hn, h⟩
    · exact ⟨[], t :: r, rfl, h, by simp⟩
    · obtain ⟨a, v, rfl, h2, h3⟩ := ih h
      refine ⟨t :: a, v, rfl, h2, ?_⟩
      intro a' v' he hm
      cases a' with
      | nil =>
        rw [List.nil_append] at he
        rw [← he, hn] at hm
        cases hm
      | cons t' a' =>
        rw [List.cons_append] at he
        injection he with _ he
        have := h3 a' v' he hm
        simp
        omega

theorem findToks_some (is : List Item) (a v : List Tok) (h : (matchAt is ⟨[], none⟩ v).isSome = true) : (findToks is (a ++ v)).isSome = true := by
  induction a with
  | nil =>
    cases v with
    | nil => exact h
    | cons t r =>
      rw [List.nil_append, findToks, Option.isSome_or, h]
      rfl
  | cons t a ih =>
    rw [List.cons_append, findToks, Option.isSome_or, ih, Bool.or_true]

/-- The runes of what is left of a line after some runes. -/
theorem toks_suffix (a : List Tok) : ∀ (s : Bytes) (v : List Tok), toks s = a ++ v → toks v.flatten = v := by
  induction a with
  | nil =>
    intro s v h
    rw [List.nil_append] at h
    rw [← h, toks_flatten]
  | cons t a ih =>
    intro s v h
    cases s with
    | nil => cases h
    | cons b rest =>
      rw [toks_cons, List.cons_append] at h
      injection h with _ h
      exact ih _ v h

/-- The leftmost match in terms of bytes. -/
theorem findSubmatch_first {α : Type} (is : List Item) (P : Bytes → α → Prop) (g : α → List Bytes)
    (hascii : ∀ s x, P s x → ∃ b r, s = b :: r ∧ b.toNat < 128)
    (hto : ∀ s x, P s x → ∃ o, matchAt is ⟨[], none⟩ (toks s) = some ⟨g x, o⟩)
    (hfrom : ∀ s c, matchAt is ⟨[], none⟩ (toks s) = some c → ∃ x, P s x ∧ c.groups = g x)
    (line : Bytes) (gs : List Bytes) :
    findSubmatch is line = some gs ↔ ∃ x, FirstAt P line x ∧ gs = g x := by
  have cut : ∀ pre s x, line = pre ++ s → P s x → toks line = toks pre ++ toks s := by
    intro pre s x he hp
    obtain ⟨b, r, rfl, hb⟩ := hascii s x hp
    rw [he, toks_append pre b r hb]
  have main : ∀ c, findToks is (toks line) = some c → ∃ a v x, toks line = a ++ v ∧ line = a.flatten ++ v.flatten ∧ P v.flatten x ∧ c.groups = g x ∧
      ∀ pre' s' x', line = pre' ++ s' → P s' x' → a.flatten.length ≤ pre'.length := by
    intro c hc
    obtain ⟨a, v, hs, hm, hfirst⟩ := findToks_first is _ c hc
    have hv := toks_suffix a line v hs
    have hline : line = a.flatten ++ v.flatten := by
      have := congrArg List.flatten hs
      rwa [toks_flatten, List.flatten_append] at this
    obtain ⟨x, hx, hg⟩ := hfrom v.flatten c (by rw [hv]; exact hm)
    refine ⟨a, v, x, hs, hline, hx, hg, ?_⟩
    intro pre' s' x' he hp
    have hcut := cut pre' s' x' he hp
    obtain ⟨o, ho⟩ := hto s' x' hp
    have hle := hfirst _ _ hcut (by rw [ho]; rfl)
    have hpre : a <+: toks pre' := by
      refine List.prefix_of_prefix_length_le (l₃ := toks line) ?_ ?_ hle
      · rw [hs]; exact List.prefix_append _ _
      · rw [hcut]; exact List.prefix_append _ _
    obtain ⟨w, hw⟩ := hpre
    have := congrArg List.flatten hw
    rw [List.flatten_append, toks_flatten] at this
    rw [← this, List.length_append]
    omega
  unfold findSubmatch
  constructor
  · intro h
    obtain ⟨c, hc, rfl⟩ := Option.map_eq_some_iff.mp h
    obtain ⟨a, v, x, _, hline, hp, hg, hfirst⟩ := main c hc
    exact ⟨x, ⟨_, _, hline, hp, hfirst⟩, hg⟩
  · rintro ⟨x, ⟨pre, s, he, hp, hfirst⟩, rfl⟩
    obtain ⟨o, ho⟩ := hto s x hp
    have hsome := findToks_some is (toks pre) (toks s) (by rw [ho]; rfl)
    rw [← cut pre s x he hp] at hsome
    obtain ⟨c, hc⟩ := Option.isSome_iff_exists.mp hsome
    obtain ⟨a, v, y, hs, hline, hp', hg, hfirst'⟩ := main c hc
    have l1 := hfirst _ _ y hline hp'
    have l2 := hfirst' _ _ x he hp
    have hsame : v.flatten = s := by
      have e := hline
      rw [he] at e
      exact (List.append_inj e (by omega)).2.symm
    have hv := toks_suffix a line v hs
    rw [hc, Option.map_some]
    obtain ⟨a2, v2, hs2, hm2, hf2⟩ := findToks_first is _ c hc
    -- the match found is the match at `s`
    have hv2 := toks_suffix a2 line v2 hs2
    obtain ⟨o1, ho1⟩ := hto _ y hp'
    have ha2 : a2.length ≤ a.length := hf2 a v hs (by rw [← hv, ho1]; rfl)
    obtain ⟨z, hz, _⟩ := hfrom v2.flatten c (by rw [hv2]; exact hm2)
    have hline2 : line = a2.flatten ++ v2.flatten := by
      have := congrArg List.flatten hs2
      rwa [toks_flatten, List.flatten_append] at this
    have l3 := hfirst _ _ z hline2 hz
    have l4 : a2.flatten.length ≤ a.flatten.length := by
      have hpre : a2 <+: a := List.prefix_of_prefix_length_le (l₃ := toks line) (by rw [hs2]; exact List.prefix_append _ _)
        (by rw [hs]; exact List.prefix_append _ _) ha2
      obtain ⟨w, hw⟩ := hpre
      rw [← hw, List.flatten_append, List.length_append]
      omega
    have hsame2 : v2.flatten = s := by
      have e := hline2
      rw [he] at e
      exact (List.append_inj e (by omega)).2.symm
    rw [← hv2, hsame2, ho] at hm2
    injection hm2 with hm2
    rw [← hm2]

end Midiasm
