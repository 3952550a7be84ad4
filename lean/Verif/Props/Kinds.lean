import Verif.Lemmas.Readers

/-!
Property C57: which kind of event a line of text is read as.
-/

set_option linter.unusedSimpArgs false

namespace Midiasm
open Spec

theorem find_first {α : Type} (l : List α) (p : α → Bool) (c : α) (h : l.find? p = some c) :
    ∃ a b, l = a ++ c :: b ∧ p c = true ∧ ∀ x ∈ a, p x = false := by
  obtain ⟨hp, a, b, he, hn⟩ := List.find?_eq_some_iff_append.mp h
  exact ⟨a, b, he, hp, fun x hx => by simpa using hn x hx⟩

/-- The first name in a line decides. -/
theorem case_first (table : List (String × Lib.Manufacturer)) (line : Bytes) (c : String × (Bytes → Outcome (UInt32 × Body)))
    (h : (textCases table).find? (fun c => contains line (str c.1)) = some c) : FirstOf keywords (fun k => Occurs k line) c.1 := by
  obtain ⟨a, b, he, hp, hn⟩ := find_first _ _ _ h
  refine ⟨a.map (·.1), b.map (·.1), ?_, (contains_iff _ _).mp hp, ?_⟩
  · rw [← textCases_keywords table, he]; simp
  · intro x hx
    obtain ⟨y, hy, rfl⟩ := List.mem_map.mp hx
    intro hc
    have := hn y hy
    rw [(contains_iff _ _).mpr hc] at this
    cases this

/-- C81: the kind of an event read from a line of text is the first of the event names that occurs in the line, wherever it occurs; a
line without an event name is an error. -/
theorem C81_kind_exact (table : List (String × Lib.Manufacturer)) (line : Bytes) :
    (∀ e, readEvent table line = .ok e → FirstOf keywords (fun k => Occurs k line) e.body.tag) ∧
    ((∀ k ∈ keywords, ¬ Occurs k line) → readEvent table line = .err .other) := by
  constructor
  · intro e he
    unfold readEvent at he
    cases hf : (textCases table).find? (fun c => contains line (str c.1)) with
    | none => rw [hf] at he; cases he
    | some c =>
      rw [hf] at he
      simp only at he
      have hc := gives_case table line c (List.mem_of_find?_eq_some hf)
      have htag : e.body.tag = c.1 := by
        cases hl : c.2 line with
        | ok r =>
          rw [hl] at he hc
          injection he with he
          subst he
          rcases hc with hc | ⟨_, _, h⟩ | ⟨_, _, h⟩
          · exact hc
          · cases h
          · cases h
        | err x => rw [hl] at he; cases he
        | panic => rw [hl] at he; cases he
        | diverge => rw [hl] at he; cases he
      rw [htag]
      exact case_first table line c hf
  · intro h
    unfold readEvent
    have hf : (textCases table).find? (fun c => contains line (str c.1)) = none := by
      rw [List.find?_eq_none]
      intro c hc
      have hk : c.1 ∈ keywords := by rw [← textCases_keywords table]; exact List.mem_map_of_mem hc
      intro hcon
      exact h c.1 hk ((contains_iff _ _).mp hcon)
    rw [hf]

/-- The first name with a property is unique. -/
theorem firstOf_unique {names : List String} {p : String → Prop} {a b : String} (ha : FirstOf names p a) (hb : FirstOf names p b) : a = b := by
  obtain ⟨l1, r1, e1, p1, n1⟩ := ha
  obtain ⟨l2, r2, e2, p2, n2⟩ := hb
  subst e1
  rcases List.append_eq_append_iff.mp e2 with ⟨m, h1, h2⟩ | ⟨m, h1, h2⟩
  · cases m with
    | nil => simp at h2; exact h2.1
    | cons x m =>
      simp at h2
      obtain ⟨rfl, _⟩ := h2
      exact absurd p1 (n2 a (by rw [h1]; simp))
  · cases m with
    | nil => simp at h2; exact h2.1.symm
    | cons x m =>
      simp at h2
      obtain ⟨rfl, _⟩ := h2
      exact absurd p2 (n1 b (by rw [h1]; simp))

/-- The event names in a printed line. -/
theorem occurs_line (e : Event) (line : Bytes) (hp : printEvent e = .ok line) (k : String) (hk : k ∈ keywords) :
    Occurs k line ↔ Occurs k (str e.body.tag) ∨ Occurs k (shownFields e.body) := by
  obtain ⟨pre, j, hpre, rfl⟩ := printEvent_lineOf e line hp
  have := contains_line pre e.delta j e.body hpre k hk
  unfold Occurs
  rw [← contains_iff, this, Bool.or_eq_true, contains_iff, contains_iff]

/-- C57, texts: the line of a text event in whose text no preceding event name occurs is read as an event of that kind or not at all. -/
theorem C57_kind_partial (table : List (String × Lib.Manufacturer)) (e e' : Event) (k : TextKind) (s line : Bytes) (hb : e.body = .text k s)
    (hp : printEvent e = .ok line) (hu : Unambiguous k.tag s) (he : readEvent table line = .ok e') : e'.body.tag = k.tag := by
  have h1 := (C81_kind_exact table line).1 e' he
  refine firstOf_unique h1 ?_
  have hi := keywords_index (.text k s)
  obtain ⟨hlt, hget⟩ := List.getElem?_eq_some_iff.mp hi
  have hsplit : keywords = keywords.take (caseIndex (.text k s)) ++ k.tag :: keywords.drop (caseIndex (.text k s) + 1) := by
    have : (Body.text k s).tag = k.tag := rfl
    rw [← this, ← hget, ← List.drop_eq_getElem_cons hlt, List.take_append_drop]
  refine ⟨_, _, hsplit, ?_, ?_⟩
  · show Occurs k.tag line
    have hmem : k.tag ∈ keywords := by rw [hsplit]; simp
    rw [occurs_line e line hp _ hmem, hb]
    exact Or.inl (List.infix_refl _)
  · intro x hx
    show ¬ Occurs x line
    rw [occurs_line e line hp _ (List.mem_of_mem_take hx), hb]
    rintro (h | h)
    · have := tags_distinct ⟨caseIndex (.text k s), hlt⟩ x hx k.tag (by rw [hi]; rfl)
      have h' : contains (str k.tag) (str x) = true := (contains_iff _ _).mpr h
      rw [h'] at this
      cases this
    · exact hu _ _ hsplit x hx h

/-- A lyric that is read as a lyric, with an event name that does not take precedence. -/
example : (readEvent [] <$> printEvent ⟨0, 480, [0x83, 0x60, 0xff, 0x05, 0x09], .text .lyric (str "Marker me")⟩) =
    .ok (.ok ⟨0, 480, [], .text .lyric (str "Marker me")⟩) := by decide +kernel

example : Unambiguous "Lyric" (str "Marker me") := by
  refine (unambiguous_iff (.text .lyric []) _).mpr ?_
  decide +kernel

/-- C57 fails: an event of one of the other text kinds with `Text` in its text is never read as an event of its kind. -/
theorem C57_kind_fails (table : List (String × Lib.Manufacturer)) (e e' : Event) (k : TextKind) (s line : Bytes) (hk : k ≠ .text)
    (hb : e.body = .text k s) (hp : printEvent e = .ok line) (ho : Occurs "Text" s) (he : readEvent table line = .ok e') :
    e'.body.tag ≠ k.tag := by
  obtain ⟨l, r, hsplit, _, hn⟩ := (C81_kind_exact table line).1 e' he
  intro htag
  rw [htag] at hsplit
  have hocc : Occurs "Text" line := by
    rw [occurs_line e line hp _ (by decide), hb]
    exact Or.inr ho
  refine hn "Text" ?_ hocc
  cases l with
  | nil => cases k <;> simp [keywords, TextKind.tag] at hsplit
  | cons a l =>
    cases l with
    | nil => cases k <;> first | exact absurd rfl hk | simp [keywords, TextKind.tag] at hsplit
    | cons b l =>
      have : b = "Text" := by
        simp only [keywords, List.cons_append, List.cons.injEq] at hsplit
        exact hsplit.2.1.symm
      subst this
      simp

/-- A copyright that is read as a text. -/
example : (readEvent [] <$> printEvent ⟨0, 480, [0x83, 0x60, 0xff, 0x02, 0x07], .text .copyright (str "Text me")⟩) =
    .ok (.ok ⟨0, 480, [], .text .text (str "me")⟩) := by decide +kernel

end Midiasm
