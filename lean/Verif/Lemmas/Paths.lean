import Verif.Model.Paths

/-!
Facts about paths.
-/

set_option linter.unusedSimpArgs false

namespace Midiasm

theorem splitPath_ne (p : Bytes) : splitPath p ≠ [] := by
  cases p with
  | nil => simp [splitPath]
  | cons c rest =>
    rw [splitPath]
    split
    · simp
    · split <;> simp

theorem splitPath_tail (p t : Bytes) (ht : 47 ∉ t) :
    ∃ init l, splitPath p = init ++ [l] ∧ splitPath (p ++ t) = init ++ [l ++ t] := by
  induction p with
  | nil =>
    refine ⟨[], [], rfl, ?_⟩
    induction t with
    | nil => rfl
    | cons c t ih =>
      simp only [List.mem_cons, not_or] at ht
      have ih := ih ht.2
      simp only [List.nil_append] at ih ⊢
      rw [splitPath, if_neg (fun h => ht.1 h.symm), ih]
  | cons c p ih =>
    obtain ⟨init, l, h1, h2⟩ := ih
    rw [List.cons_append, splitPath, splitPath, h1, h2]
    by_cases hc : c = 47
    · simp only [if_pos hc]
      exact ⟨[] :: init, l, rfl, rfl⟩
    · simp only [if_neg hc]
      cases init with
      | nil => exact ⟨[], c :: l, rfl, rfl⟩
      | cons e es => exact ⟨(c :: e) :: es, l, rfl, rfl⟩

theorem intercalate_last (sep : Bytes) (xs : List Bytes) (e : Bytes) :
    ∃ pre, ∀ t, List.intercalate sep (xs ++ [e ++ t]) = pre ++ t := by
  induction xs with
  | nil => exact ⟨e, fun t => by simp [List.intercalate]⟩
  | cons x xs ih =>
    obtain ⟨pre, h⟩ := ih
    refine ⟨x ++ sep ++ pre, fun t => ?_⟩
    have : ∀ ys : List Bytes, ys ≠ [] → List.intercalate sep (x :: ys) = x ++ sep ++ List.intercalate sep ys := by
      intro ys hys
      cases ys with
      | nil => exact absurd rfl hys
      | cons y ys => simp [List.intercalate, List.intersperse]
    rw [List.cons_append, this _ (by simp), h t]
    simp

/-- Joining a directory and a name: endings of the name that are long enough are kept. -/
theorem joinPath_tail (d b : Bytes) (hd : d ≠ []) :
    ∃ pre, ∀ t : Bytes, 47 ∉ t → 3 ≤ t.length → joinPath d (b ++ t) = pre ++ t := by
  obtain ⟨init, l, h1, _⟩ := splitPath_tail (d ++ [47] ++ b) [] (by simp)
  have hsplit : ∀ t : Bytes, 47 ∉ t → splitPath (d ++ [47] ++ b ++ t) = init ++ [l ++ t] := by
    intro t ht
    obtain ⟨init', l', g1, g2⟩ := splitPath_tail (d ++ [47] ++ b) t ht
    rw [h1] at g1
    obtain ⟨ha, hb⟩ := List.append_inj' g1 rfl
    injection hb with hb
    rw [g2, ha, hb]
  obtain ⟨pre, hpre⟩ := intercalate_last [47] (init.foldl (cleanStep ((d ++ [47] ++ b).head? = some 47)) []).reverse l
  refine ⟨if (d ++ [47] ++ b).head? = some 47 then 47 :: pre else pre, fun t ht hl => ?_⟩
  have hne : b ++ t ≠ [] := by
    intro h
    simp only [List.append_eq_nil_iff] at h
    rw [h.2] at hl
    simp at hl
  rw [joinPath, if_neg (fun h => hd h.1), if_neg hd, if_neg hne, ← List.append_assoc, cleanPath, hsplit t ht]
  have hroot : (d ++ [47] ++ b ++ t).head? = (d ++ [47] ++ b).head? := by
    cases d with
    | nil => exact absurd rfl hd
    | cons x d => rfl
  have hstep : ∀ rooted out, cleanStep rooted out (l ++ t) = (l ++ t) :: out := by
    intro rooted out
    have hlen : 3 ≤ (l ++ t).length := by simp; omega
    have h1 : ¬ (l ++ t = [] ∨ l ++ t = [46]) := by
      rintro (h | h) <;> rw [h] at hlen <;> simp at hlen
    have h2 : ¬ (l ++ t = [46, 46]) := by
      intro h
      rw [h] at hlen
      simp at hlen
    rw [cleanStep.eq_def, if_neg h1, if_neg h2]
  simp only [hroot, List.foldl_append, List.foldl_cons, List.foldl_nil, hstep, List.reverse_cons, hpre]
  have hne' : pre ++ t ≠ [] := by
    intro h
    simp only [List.append_eq_nil_iff] at h
    rw [h.2] at hl
    simp at hl
  rw [if_neg hne']
  split <;> rfl

/-- Different endings, different names. -/
theorem joinPath_injective (d b t t' : Bytes) (hd : d ≠ []) (ht : 47 ∉ t) (hl : 3 ≤ t.length) (ht' : 47 ∉ t') (hl' : 3 ≤ t'.length)
    (h : joinPath d (b ++ t) = joinPath d (b ++ t')) : t = t' := by
  obtain ⟨pre, hp⟩ := joinPath_tail d b hd
  rw [hp t ht hl, hp t' ht' hl'] at h
  exact List.append_cancel_left h

theorem cleanPath_ne (p : Bytes) : cleanPath p ≠ [] := by
  unfold cleanPath
  simp only
  split
  · simp
  · split
    · simp
    · assumption

theorem dirPath_ne (p : Bytes) : dirPath p ≠ [] := cleanPath_ne _

theorem splitPath_plain (e : Bytes) (h : 47 ∉ e) : splitPath e = [e] := by
  obtain ⟨init, l, h1, h2⟩ := splitPath_tail [] e h
  simp only [splitPath] at h1
  have : init = [] ∧ l = [] := by
    cases init with
    | nil => simpa using h1.symm
    | cons _ _ => simp at h1
  rw [this.1, this.2] at h2
  simpa using h2

/-- The extension of a name with a dot in its last element. -/
theorem extPath_dot (p e : Bytes) (h47 : 47 ∉ e) (h46 : 46 ∉ e) : extPath (p ++ 46 :: e) = 46 :: e := by
  have h1 : (p ++ 46 :: e).reverse.takeWhile (· != 47) = e.reverse ++ 46 :: p.reverse.takeWhile (· != 47) := by
    rw [List.reverse_append, List.reverse_cons, List.append_assoc, List.takeWhile_append_of_pos]
    · simp
    · intro x hx
      simp only [List.mem_reverse] at hx
      simp only [bne_iff_ne]
      rintro rfl
      exact h47 hx
  have h2 : ∀ x ∈ e.reverse, (x != 46) = true := by
    intro x hx
    simp only [List.mem_reverse] at hx
    simp only [bne_iff_ne]
    rintro rfl
    exact h46 hx
  simp only [extPath, h1]
  rw [List.takeWhile_append_of_pos h2, List.dropWhile_append_of_pos h2]
  simp

/-- The extension of a name without dots. -/
theorem extPath_none (p : Bytes) (h46 : 46 ∉ p) : extPath p = [] := by
  have h : ∀ x ∈ p.reverse.takeWhile (· != 47), (x != 46) = true := by
    intro x hx
    have := (List.takeWhile_sublist _).subset hx
    simp only [List.mem_reverse] at this
    simp only [bne_iff_ne]
    rintro rfl
    exact h46 this
  have h2 := List.dropWhile_append_of_pos (l₂ := []) h
  simp only [List.append_nil, List.dropWhile_nil] at h2
  simp [extPath, h2]

end Midiasm
