import Mathlib.Data.List.Forall2
import Verif.Spec.SameLines
import Verif.Props.TextMeaning
import Verif.Props.Assembled
import Verif.Props.LongLines
import Verif.Props.Commands

/-!
C171: blank lines, comments and line ends do not matter.
-/

set_option linter.unusedSimpArgs false

namespace Midiasm
open Spec

theorem sameLines_refl : ∀ a : List Bytes, SameLines a a
  | [] => .nil
  | l :: a => .same l a a (sameLines_refl a)

theorem sameLines_symm {a b : List Bytes} (h : SameLines a b) : SameLines b a := by
  induction h with
  | nil => exact .nil
  | same l a b _ ih => exact .same l _ _ ih
  | left l a b hl _ ih => exact .right l _ _ hl ih
  | right l a b hl _ ih => exact .left l _ _ hl ih

theorem sameLines_append {a b c d : List Bytes} (h : SameLines a b) (h' : SameLines c d) : SameLines (a ++ c) (b ++ d) := by
  induction h with
  | nil => exact h'
  | same l a b _ ih => exact .same l _ _ ih
  | left l a b hl _ ih => exact .left l _ _ hl ih
  | right l a b hl _ ih => exact .right l _ _ hl ih

/-- Sections with the same first line. -/
def SameSection (c c' : List Bytes) : Prop := ∃ l t t', c = l :: t ∧ c' = l :: t' ∧ SameLines t t'

theorem idleLine_tags {l : Bytes} (h : IdleLine l) : isTag l = false ∧ isMThd l = false := by
  constructor
  · cases ht : isTag l with
    | false => rfl
    | true => exact absurd ((isTag_iff l).1 ht) h.2
  · cases ht : isMThd l with
    | false => rfl
    | true => exact absurd (Or.inl ((isMThd_iff l).1 ht)) h.2

theorem same_chunks_from {a b : List Bytes} (h : SameLines a b) : ∀ c c', SameSection c c' → List.Forall₂ SameSection (chunkifyFrom c a) (chunkifyFrom c' b) := by
  induction h with
  | nil =>
    intro c c' hc
    have h0 := hc
    obtain ⟨l, t, t', rfl, rfl, _⟩ := h0
    rw [chunkifyFrom, chunkifyFrom, if_neg (by simp), if_neg (by simp)]
    exact .cons hc .nil
  | same l a b _ ih =>
    intro c c' hc
    rw [chunkifyFrom, chunkifyFrom]
    by_cases hl : isTag l = true
    · rw [if_pos hl, if_pos hl]
      exact .cons hc (ih _ _ ⟨l, [], [], rfl, rfl, .nil⟩)
    · rw [if_neg hl, if_neg hl]
      obtain ⟨x, t, t', rfl, rfl, h1⟩ := hc
      exact ih _ _ ⟨x, t ++ [l], t' ++ [l], rfl, rfl, sameLines_append h1 (.same l _ _ .nil)⟩
  | left l a b hl _ ih =>
    intro c c' hc
    rw [chunkifyFrom, if_neg (by rw [(idleLine_tags hl).1]; simp)]
    obtain ⟨x, t, t', rfl, rfl, h1⟩ := hc
    refine ih _ _ ⟨x, t ++ [l], t', rfl, rfl, ?_⟩
    have := sameLines_append h1 (.left l _ _ hl .nil)
    rwa [List.append_nil] at this
  | right l a b hl _ ih =>
    intro c c' hc
    rw [chunkifyFrom.eq_2 c', if_neg (by rw [(idleLine_tags hl).1]; simp)]
    obtain ⟨x, t, t', rfl, rfl, h1⟩ := hc
    refine ih _ _ ⟨x, t, t' ++ [l], rfl, rfl, ?_⟩
    have := sameLines_append h1 (.right l _ _ hl .nil)
    rwa [List.append_nil] at this

theorem same_chunks {a b : List Bytes} (h : SameLines a b) : List.Forall₂ SameSection (chunkify a) (chunkify b) := by
  induction h with
  | nil => exact .nil
  | same l a b h ih =>
    rw [chunkify, chunkify]
    by_cases hl : isMThd l = true
    · rw [if_pos hl, if_pos hl]
      exact same_chunks_from h _ _ ⟨l, [], [], rfl, rfl, .nil⟩
    · rw [if_neg hl, if_neg hl]
      exact ih
  | left l a b hl _ ih => rwa [chunkify, if_neg (by rw [(idleLine_tags hl).2]; simp)]
  | right l a b hl _ ih => rwa [chunkify.eq_2 l, if_neg (by rw [(idleLine_tags hl).2]; simp)]

theorem same_holds {table : List (String × Lib.Manufacturer)} {t t' : List Bytes} (h : SameLines t t') : ∀ {es}, TrackHolds table t es → TrackHolds table t' es := by
  induction h with
  | nil => exact fun h => h
  | same l a b _ ih =>
    intro es h
    cases h with
    | skip _ _ _ h1 h2 => exact .skip l _ _ h1 (ih h2)
    | event _ _ e es h1 h2 h3 => exact .event l _ e es h1 h2 (ih h3)
  | left l a b hl _ ih =>
    intro es h
    cases h with
    | skip _ _ _ h1 h2 => exact ih h2
    | event _ _ e es h1 h2 h3 => exact absurd hl.1 h1
  | right l a b hl _ ih => exact fun h => .skip l _ _ hl.1 (ih h)

theorem forall2_snoc {α β : Type} {R : α → β → Prop} {x : α} : ∀ {a : List α} {b : List β}, List.Forall₂ R (a ++ [x]) b →
    ∃ b' y, b = b' ++ [y] ∧ List.Forall₂ R a b' ∧ R x y := by
  intro a
  induction a with
  | nil =>
    intro b h
    cases h with
    | cons h1 h2 =>
      cases h2
      exact ⟨[], _, rfl, .nil, h1⟩
  | cons z a ih =>
    intro b h
    cases h with
    | cons h1 h2 =>
      obtain ⟨b', y, rfl, h3, h4⟩ := ih h2
      exact ⟨_ :: b', y, rfl, .cons h1 h3, h4⟩

theorem same_stands {table : List (String × Lib.Manufacturer)} {ss : List (List Bytes)} {h : Option Header} {ts : List (List Event)}
    (hs : Stands table ss h ts) : ∀ {ss'}, List.Forall₂ SameSection ss ss' → Stands table ss' h ts := by
  induction hs with
  | nil =>
    intro ss' h
    cases h
    exact .nil
  | comment ss h ts l t _ hc ih =>
    intro ss' h
    obtain ⟨b, y, rfl, h1, x, u, u', e, rfl, h2⟩ := forall2_snoc h
    injection e with e1 e2
    subst e1 e2
    exact .comment _ _ _ _ _ (ih h1) hc
  | header ss h ts l t f d _ hc hm hl ih =>
    intro ss' h
    obtain ⟨b, y, rfl, h1, x, u, u', e, rfl, h2⟩ := forall2_snoc h
    injection e with e1 e2
    subst e1 e2
    exact .header _ _ _ _ _ _ _ (ih h1) hc hm hl
  | track ss h ts l t es es' _ hc hm ht hh hr ih =>
    intro ss' h
    obtain ⟨b, y, rfl, h1, x, u, u', e, rfl, h2⟩ := forall2_snoc h
    injection e with e1 e2
    subst e1 e2
    exact .track _ _ _ _ _ _ _ (ih h1) hc hm ht (same_holds h2 hh) hr

/-- **C171.** Two texts, without lines of 64 kB, whose lines are the same apart from blank lines and comments that do not name a chunk: if one is assembled
to a file, so is the other, to the same file. -/
theorem C171_same_file (table : List (String × Lib.Manufacturer)) (text text' : Bytes) (lines lines' : List Bytes) (hl : Lines text lines)
    (hl' : Lines text' lines') (h : SameLines lines lines') (hs : ShortLines text) (hs' : ShortLines text') (b : Bytes) :
    assembleText table text = .ok b ↔ assembleText table text' = .ok b := by
  have one : ∀ {text text' lines lines'}, Lines text lines → Lines text' lines' → SameLines lines lines' → ShortLines text' →
      assembleText table text = .ok b → assembleText table text' = .ok b := by
    intro text text' lines lines' hl hl' h hs' hb
    obtain ⟨_, ls, secs, hd, ts, chunks, h1, h2, h3, h4⟩ := (C135_assembled_file table text b).1 hb
    have := lines_unique h1 hl
    subst this
    have := chunked_unique _ _ _ h2 (chunkify_spec _)
    subst this
    exact (C135_assembled_file table text' b).2 ⟨hs', lines', _, hd, ts, chunks, hl', chunkify_spec _, same_stands h3 (same_chunks h), h4⟩
  exact ⟨one hl hl' h hs', one hl' hl (sameLines_symm h) hs⟩

/-! ### Particular changes -/

theorem short_lines {text : Bytes} (h : ShortLines text) : ∃ ls, Lines text ls := by
  obtain ⟨ls, _, h1, _⟩ := (C105_long_lines [] text).2 h
  exact ⟨ls, h1⟩

theorem lines_app {a b : Bytes} {la lb : List Bytes} (h : Lines a la) (ha : a = [] ∨ ∃ x, a = x ++ [10]) (h' : Lines b lb) : Lines (a ++ b) (la ++ lb) := by
  induction h with
  | nil => exact h'
  | last l hne hl =>
    rcases ha with rfl | ⟨x, rfl⟩
    · exact absurd rfl hne
    · exact absurd (by simp) hl
  | cons l rest ls hl hr ih =>
    rw [List.append_assoc, List.cons_append, List.cons_append]
    refine .cons l _ _ hl (ih ?_)
    rcases ha with ha | ⟨x, hx⟩
    · simp at ha
    · rcases List.eq_nil_or_concat rest with h0 | ⟨y, z, rfl⟩
      · exact Or.inl h0
      · refine Or.inr ⟨y, ?_⟩
        have := congrArg List.getLast? hx
        simp only [List.concat_eq_append, ← List.cons_append, ← List.append_assoc, List.getLast?_append, List.getLast?_singleton, Option.some_or,
          Option.some.injEq] at this
        rw [List.concat_eq_append, this]

theorem lines_of_prefix {a b : Bytes} {ls : List Bytes} (h : Lines (a ++ b) ls) (ha : a = [] ∨ ∃ x, a = x ++ [10]) :
    ∃ la lb, ls = la ++ lb ∧ Lines a la ∧ Lines b lb := by
  generalize ht : a ++ b = t at h
  induction h generalizing a with
  | nil =>
    obtain ⟨rfl, rfl⟩ := List.append_eq_nil_iff.1 ht
    exact ⟨[], [], rfl, .nil, .nil⟩
  | last l hne hl =>
    rcases ha with rfl | ⟨x, rfl⟩
    · rw [List.nil_append] at ht
      exact ⟨[], [chomp l], rfl, .nil, ht ▸ .last l hne hl⟩
    · exact absurd (by rw [← ht]; simp) hl
  | cons l rest ls hl hr ih =>
    rcases ha with rfl | ⟨x, rfl⟩
    · rw [List.nil_append] at ht
      exact ⟨[], _, rfl, .nil, ht ▸ .cons l rest ls hl hr⟩
    · have hsplit : ∃ y, x ++ [10] = l ++ 10 :: y ∧ y ++ b = rest ∧ (y = [] ∨ ∃ z, y = z ++ [10]) := by
        clear ih hr
        induction l generalizing x with
        | nil =>
          cases x with
          | nil =>
            simp only [List.nil_append, List.cons_append, List.cons.injEq, true_and] at ht
            exact ⟨[], by simp, by simpa using ht, Or.inl rfl⟩
          | cons c x =>
            simp only [List.nil_append, List.cons_append, List.cons.injEq] at ht
            exact ⟨x ++ [10], by simp [ht.1], ht.2, Or.inr ⟨x, rfl⟩⟩
        | cons d l ih =>
          cases x with
          | nil =>
            simp only [List.nil_append, List.cons_append, List.cons.injEq] at ht
            exact absurd (by rw [ht.1]; simp) hl
          | cons c x =>
            simp only [List.cons_append, List.cons.injEq] at ht
            obtain ⟨y, h1, h2, h3⟩ := ih (fun h => hl (by simp [h])) x ht.2
            exact ⟨y, by simp only [List.cons_append, ht.1, h1], h2, h3⟩
      obtain ⟨y, h1, h2, h3⟩ := hsplit
      obtain ⟨la, lb, e, g1, g2⟩ := ih h3 h2
      exact ⟨chomp l :: la, lb, by rw [e]; rfl, h1 ▸ .cons l y la hl g1, g2⟩

/-- **C171.** A blank line, or a comment that does not name a chunk, inserted at the beginning of a line. -/
theorem C171_line_inserted (table : List (String × Lib.Manufacturer)) (a c b : Bytes) (ha : a = [] ∨ ∃ x, a = x ++ [10]) (hc : 10 ∉ c)
    (hi : IdleLine (chomp c)) (hs : ShortLines (a ++ b)) (hs' : ShortLines (a ++ (c ++ 10 :: b))) (file : Bytes) :
    assembleText table (a ++ (c ++ 10 :: b)) = .ok file ↔ assembleText table (a ++ b) = .ok file := by
  obtain ⟨ls, hl⟩ := short_lines hs
  obtain ⟨la, lb, rfl, h1, h2⟩ := lines_of_prefix hl ha
  exact C171_same_file table _ _ _ _ (lines_app h1 ha (.cons c b lb hc h2)) hl
    (sameLines_append (sameLines_refl la) (.left _ _ _ hi (sameLines_refl lb))) hs' hs file

theorem chomp_free {l : Bytes} (h : 13 ∉ l) : chomp l = l := by
  unfold chomp
  rw [if_neg]
  intro hl
  exact h (List.mem_of_getLast? hl)

theorem withReturns_free {l : Bytes} (h : 10 ∉ l) : withReturns l = l := by
  induction l with
  | nil => rfl
  | cons c l ih =>
    unfold withReturns at ih ⊢
    rw [List.flatMap_cons, ih fun hl => h (by simp [hl]), if_neg fun hc => h (by simp [hc])]
    rfl

theorem lines_returns {text : Bytes} {ls : List Bytes} (h : Lines text ls) (hr : 13 ∉ text) : Lines (withReturns text) ls := by
  induction h with
  | nil => exact .nil
  | last l hne hl =>
    rw [withReturns_free hl]
    exact .last l hne hl
  | cons l rest ls hl _ ih =>
    have hrl : 13 ∉ l := fun h => hr (by simp [h])
    have e : withReturns (l ++ 10 :: rest) = (l ++ [13]) ++ 10 :: withReturns rest := by
      have := withReturns_free hl
      unfold withReturns at this ⊢
      rw [List.flatMap_append, this, List.flatMap_cons, if_pos rfl]
      simp
    have e' : chomp l = chomp (l ++ [13]) := by
      rw [chomp_free hrl]
      simp [chomp]
    rw [e, e']
    refine .cons _ _ _ ?_ (ih fun h => hr (by simp [h]))
    simp [hl]

/-- **C171.** Newlines with carriage returns instead of plain ones. -/
theorem C171_line_ends (table : List (String × Lib.Manufacturer)) (text : Bytes) (hr : 13 ∉ text) (hs : ShortLines text)
    (hs' : ShortLines (withReturns text)) (file : Bytes) :
    assembleText table (withReturns text) = .ok file ↔ assembleText table text = .ok file := by
  obtain ⟨ls, hl⟩ := short_lines hs
  exact C171_same_file table _ _ _ _ (lines_returns hl hr) hl (sameLines_refl ls) hs' hs file

theorem lines_ended {text : Bytes} {ls : List Bytes} (h : Lines text ls) (hne : text ≠ []) (hl : text.getLast? ≠ some 10) : Lines (text ++ [10]) ls := by
  induction h with
  | nil => exact absurd rfl hne
  | last l _ h => exact .cons l [] [] h .nil
  | cons l rest ls h _ ih =>
    rw [List.append_assoc, List.cons_append]
    refine .cons l _ _ h (ih ?_ ?_)
    · rintro rfl
      simp at hl
    · intro h0
      apply hl
      rw [List.getLast?_append, List.getLast?_cons, h0]
      rfl

/-- **C171.** A newline at the end of the text, or none. -/
theorem C171_last_newline (table : List (String × Lib.Manufacturer)) (text : Bytes) (hne : text ≠ []) (hl : text.getLast? ≠ some 10)
    (hs : ShortLines text) (hs' : ShortLines (text ++ [10])) (file : Bytes) :
    assembleText table (text ++ [10]) = .ok file ↔ assembleText table text = .ok file := by
  obtain ⟨ls, h⟩ := short_lines hs
  exact C171_same_file table _ _ _ _ (lines_ended h hne hl) h (sameLines_refl ls) hs' hs file

/-- **C171.** The same with the program: two files of text with the same lines, apart from lines that do not count. -/
theorem C171_two_runs (w w' : World) (args argv args' argv' : List Bytes) (s s' : List (Bytes × FlagValue)) (r r' : List Bytes)
    (hi : Invokes .assemble args argv) (hl : CommandLine (options .assemble) args s r)
    (hi' : Invokes .assemble args' argv') (hl' : CommandLine (options .assemble) args' s' r')
    (text text' : Bytes) (hr : r.headD [] ≠ []) (hrd : w.read (r.headD []) = some text) (hext : extPath (r.headD []) ≠ str ".json")
    (hr' : r'.headD [] ≠ []) (hrd' : w'.read (r'.headD []) = some text') (hext' : extPath (r'.headD []) ≠ str ".json")
    (lines lines' : List Bytes) (h : Lines text lines) (h' : Lines text' lines') (hsame : SameLines lines lines') (hs : ShortLines text)
    (hs' : ShortLines text') (out out' : Bytes) (ho : Output s out) (hc : w.create out = true) (ho' : Output s' out') (hc' : w'.create out' = true)
    (file : Bytes) (hrun : assembleText Lib.manufacturers text = .ok file) :
    midiasm w argv = ⟨[(out, file)], [], .success⟩ ∧ midiasm w' argv' = ⟨[(out', file)], [], .success⟩ := by
  have h2 := (C171_same_file Lib.manufacturers text text' lines lines' h h' hsame hs hs' file).1 hrun
  constructor
  · rw [midiasm_runs hi hl, does_assemble hr hrd, if_neg hext, hrun]
    exact save_ok_out ho hc
  · rw [midiasm_runs hi' hl', does_assemble hr' hrd', if_neg hext', h2]
    exact save_ok_out ho' hc'

/-! ### Examples -/

/-- C171: a comment and a blank line that do not count. -/
example : IdleLine (str "%% the melody") ∧ IdleLine (str "  \t ") := by
  have no : ∀ l : Bytes, contains l (str "MThd") = false → contains l (str "MTrk") = false → ¬ Spec.Starts l := by
    intro l h1 h2 h
    rcases h with h | h
    · rw [(contains_iff _ _).2 h] at h1; cases h1
    · rw [(contains_iff _ _).2 h] at h2; cases h2
  exact ⟨⟨Or.inl ⟨str " the melody", by decide +kernel⟩, no _ (by decide +kernel) (by decide +kernel)⟩,
    ⟨Or.inr (by decide +kernel), no _ (by decide +kernel) (by decide +kernel)⟩⟩

/-- A text of a header, a track, a comment and an event. -/
def commented : Bytes := str "MThd format:0 metrical-time:96 ppqn\nMTrk\ndelta:0 Text x\n%% the MTrk ends\ndelta:0 EndOfTrack\n"

/-- The same text without the comment. -/
def uncommented : Bytes := str "MThd format:0 metrical-time:96 ppqn\nMTrk\ndelta:0 Text x\ndelta:0 EndOfTrack\n"

/-- **C171.** That the comment does not name a chunk is necessary: what follows such a comment is lost. -/
theorem C171_comment_with_tag : ∃ a c b file, commented = a ++ (c ++ 10 :: b) ∧ uncommented = a ++ b ∧ 10 ∉ c ∧ Empty (chomp c) ∧
    assembleText Lib.manufacturers uncommented = .ok file ∧ assembleText Lib.manufacturers commented ≠ .ok file := by
  obtain ⟨f, h1, h2⟩ := Outcome.of_test (o := assembleText Lib.manufacturers uncommented) (p := fun b => decide (b.length = 31)) (by decide +kernel)
  obtain ⟨f', h1', h2'⟩ := Outcome.of_test (o := assembleText Lib.manufacturers commented) (p := fun b => decide (b.length = 27)) (by decide +kernel)
  refine ⟨str "MThd format:0 metrical-time:96 ppqn\nMTrk\ndelta:0 Text x\n", str "%% the MTrk ends", str "delta:0 EndOfTrack\n", f, by decide +kernel,
    by decide +kernel, by decide +kernel, Or.inl ⟨str " the MTrk ends", by decide +kernel⟩, h1, ?_⟩
  rw [h1']
  intro h
  injection h with h
  subst h
  simp only [decide_eq_true_eq] at h2 h2'
  omega

end Midiasm
