import Verif.Model.Json
import Verif.Spec.Json
import Verif.Lemmas.EventJson

/-!
Slices decoded from several members of the same name.
-/

set_option linter.unusedSimpArgs false

namespace Midiasm
open Spec

theorem foldlM_snoc {α β : Type} (f : α → β → Outcome α) (l k : List β) (a : α) :
    (l ++ k).foldlM f a = l.foldlM f a >>= fun b => k.foldlM f b := by
  induction l generalizing a with
  | nil => rfl
  | cons x l ih =>
    rw [List.cons_append, List.foldlM_cons, List.foldlM_cons]
    cases f a x with
    | ok b => exact ih b
    | _ => rfl

theorem foldlM_one {α β : Type} (f : α → β → Outcome α) (a : α) (x : β) (b : α) (h : f a x = .ok b) : [x].foldlM f a = .ok b := by
  rw [List.foldlM_cons, h]
  rfl

theorem foldlM_map' {α β γ : Type} (f : α → γ → Outcome α) (g : β → γ) (l : List β) (a : α) :
    (l.map g).foldlM f a = l.foldlM (fun a x => f a (g x)) a := by
  induction l generalizing a with
  | nil => rfl
  | cons x l ih =>
    rw [List.map_cons, List.foldlM_cons, List.foldlM_cons]
    cases f a (g x) with
    | ok b => exact ih b
    | _ => rfl

theorem lastArrays_snoc (vs : List Json) (v : Json) :
    lastArrays (vs ++ [v]) = if elementsOf v = [] then [] else lastArrays vs ++ [elementsOf v] := by
  unfold lastArrays
  rw [List.map_append, List.map_cons, List.map_nil, List.reverse_append, List.reverse_cons, List.reverse_nil, List.nil_append, List.singleton_append,
    List.takeWhile_cons]
  by_cases h : elementsOf v = []
  · rw [if_pos h, h]; rfl
  · rw [if_neg h, if_pos (by cases hv : elementsOf v with | nil => exact absurd hv h | cons _ _ => rfl), List.reverse_cons]

/-- The cells of a slice after decoding an array into them. -/
theorem elements_cells {α : Type} (d : α → Json → Outcome α) (zero : α) (cells : List α) (l : List Json) (s : Slice α)
    (h : elementsJson d zero cells l = .ok s) : s.els.length = l.length ∧
      (∀ i v, l[i]? = some v → d (cells.getD i zero) v = .ok ((s.els ++ s.behind).getD i zero)) ∧
      (∀ i, l.length ≤ i → (s.els ++ s.behind).getD i zero = cells.getD i zero) := by
  induction l generalizing cells s with
  | nil =>
    injection h with h
    subst h
    exact ⟨rfl, fun i v hv => by simp at hv, fun i _ => by rw [List.nil_append]⟩
  | cons j l ih =>
    rw [elementsJson] at h
    cases hd : d (cells.headD zero) j with
    | ok a =>
      rw [hd, Outcome.bind_ok] at h
      cases hl : elementsJson d zero cells.tail l with
      | ok t =>
        rw [hl, Outcome.bind_ok] at h
        injection h with h
        subst h
        obtain ⟨h1, h2, h3⟩ := ih _ _ hl
        have ht : ∀ i, cells.tail.getD i zero = cells.getD (i + 1) zero := by
          intro i
          cases cells with
          | nil => rfl
          | cons _ _ => rfl
        refine ⟨by simp [h1], ?_, ?_⟩
        · intro i v hv
          cases i with
          | zero =>
            simp only [List.getElem?_cons_zero, Option.some.injEq] at hv
            subst hv
            have : cells.getD 0 zero = cells.headD zero := by cases cells <;> rfl
            rw [this, hd]
            rfl
          | succ i =>
            rw [List.getElem?_cons_succ] at hv
            have := h2 i v hv
            rw [ht] at this
            rw [this]
            rfl
        · intro i hi
          cases i with
          | zero => simp at hi
          | succ i =>
            have := h3 i (by simp at hi; exact hi)
            rw [ht] at this
            rw [← this]
            rfl
      | err e => rw [hl] at h; cases h
      | panic => rw [hl] at h; cases h
      | diverge => rw [hl] at h; cases h
    | err e => rw [hd] at h; cases h
    | panic => rw [hd] at h; cases h
    | diverge => rw [hd] at h; cases h

theorem slice_cells {α : Type} (d : α → Json → Outcome α) (zero : α) (vs : List Json) (s : Slice α)
    (h : vs.foldlM (sliceJson d zero) ⟨[], []⟩ = .ok s) : s.els.length = ((lastArrays vs).getLastD []).length ∧
      ∀ i, ((lastArrays vs).filterMap fun l => l[i]?).foldlM d zero = .ok ((s.els ++ s.behind).getD i zero) := by
  induction vs using List.reverseRecOn generalizing s with
  | nil =>
    injection h with h
    subst h
    exact ⟨rfl, fun i => rfl⟩
  | append_singleton vs v ih =>
    rw [foldlM_snoc] at h
    cases hs : vs.foldlM (sliceJson d zero) ⟨[], []⟩ with
    | ok t =>
      rw [hs, Outcome.bind_ok, List.foldlM_cons] at h
      cases hv : sliceJson d zero t v with
      | ok u =>
        rw [hv, Outcome.bind_ok] at h
        injection h with h
        subst h
        have hnone : ∀ w : Slice α, w = ⟨[], []⟩ → elementsOf v = [] → w.els.length = ((lastArrays (vs ++ [v])).getLastD []).length ∧
            ∀ i, ((lastArrays (vs ++ [v])).filterMap fun l => l[i]?).foldlM d zero = .ok ((w.els ++ w.behind).getD i zero) := by
          rintro w rfl he
          rw [lastArrays_snoc, if_pos he]
          exact ⟨rfl, fun i => rfl⟩
        cases v with
        | null =>
          injection hv with hv
          exact hnone u hv.symm rfl
        | arr l =>
          cases l with
          | nil =>
            injection hv with hv
            exact hnone u hv.symm rfl
          | cons j js =>
            obtain ⟨i1, i2⟩ := ih t hs
            obtain ⟨h1, h2, h3⟩ := elements_cells d zero _ _ u hv
            have he : lastArrays (vs ++ [.arr (j :: js)]) = lastArrays vs ++ [j :: js] := by
              rw [lastArrays_snoc, if_neg (by simp [elementsOf])]
              rfl
            rw [he]
            refine ⟨by rw [h1, List.getLastD_concat], fun i => ?_⟩
            rw [List.filterMap_append, foldlM_snoc, i2 i, Outcome.bind_ok]
            by_cases hi : i < (j :: js).length
            · have hg := List.getElem?_eq_getElem hi
              simp only [List.filterMap_cons, hg, List.filterMap_nil]
              exact foldlM_one _ _ _ _ (h2 i _ hg)
            · have hg : (j :: js)[i]? = none := List.getElem?_eq_none (by omega)
              simp only [List.filterMap_cons, hg, List.filterMap_nil]
              rw [h3 i (by omega)]
              rfl
        | _ => cases hv
      | err e => rw [hv] at h; cases h
      | panic => rw [hv] at h; cases h
      | diverge => rw [hv] at h; cases h
    | err e => rw [hs] at h; cases h
    | panic => rw [hs] at h; cases h
    | diverge => rw [hs] at h; cases h

/-- Each element of a slice is decoded from all that the arrays have at its place. -/
theorem slice_stacked {α : Type} (d : α → Json → Outcome α) (zero : α) (vs : List Json) (s : Slice α)
    (h : vs.foldlM (sliceJson d zero) ⟨[], []⟩ = .ok s) :
    List.Forall₂ (fun col a => col.foldlM d zero = .ok a) (stacked (lastArrays vs)) s.els := by
  obtain ⟨h1, h2⟩ := slice_cells d zero vs s h
  rw [List.forall₂_iff_get]
  unfold stacked
  refine ⟨by simp [h1], fun i hi hi' => ?_⟩
  simp only [List.get_eq_getElem, List.getElem_map, List.getElem_range]
  rw [h2 i, List.getD_eq_getElem?_getD, List.getElem?_append_left hi', List.getElem?_eq_getElem hi']
  rfl

end Midiasm
