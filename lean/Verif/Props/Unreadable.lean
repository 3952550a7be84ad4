import Verif.Lemmas.Fate
import Verif.Props.Printed

/-!
Property C56: printed events that cannot be read back.
-/

set_option linter.unusedSimpArgs false

namespace Midiasm
open Spec

/-- A match of a note line has a letter, perhaps an accidental, and a digit before a comma. -/
theorem note_comma (tag : String) (line : Bytes) (gs : List Bytes) (h : findSubmatch (notePatternOf tag) line = some gs) :
    ∃ A x acc dg B, line = A ++ ([x] ++ (acc ++ [dg])) ++ 44 :: B ∧ x ≠ 45 ∧ (acc = [] ∨ acc = str "♯" ∨ acc = str "♭") := by
  obtain ⟨a, u, v, o, hl, hr⟩ := findSubmatch_runs _ _ _ h
  unfold notePatternOf channelPattern at hr
  simp only [List.append_assoc] at hr
  obtain ⟨u0, v0, d', hu0, hq⟩ := (show ∃ u' v' d, u = u' ++ v' ∧ Runs _ ⟨[d], none⟩ v' _ from by
    unfold deltaPattern at hr
    simp only [List.append_assoc] at hr
    obtain ⟨u1, v1, c1, rfl, h1, h⟩ := runs_append _ _ _ _ _ hr
    obtain ⟨_, rfl⟩ := runs_ilit _ h1
    obtain ⟨u2, v2, c2, rfl, h2, h⟩ := runs_append _ _ _ _ _ h
    obtain ⟨_, _, rfl⟩ := runs_number h2
    obtain ⟨u3, v3, c3, rfl, h3, h⟩ := runs_append _ _ _ _ _ h
    obtain ⟨_, rfl⟩ := runs_star h3
    exact ⟨u1 ++ (u2 ++ u3), v3, _, by simp, h⟩)
  clear hr
  subst hu0
  obtain ⟨u1, v1, c1, rfl, h1, hr⟩ := runs_append _ _ _ _ _ hq
  obtain ⟨_, rfl⟩ := runs_ilit _ h1
  obtain ⟨u2, v2, c2, rfl, h2, hr⟩ := runs_append _ _ _ _ _ hr
  obtain ⟨_, _, rfl⟩ := runs_plus h2
  obtain ⟨u3, v3, c3, rfl, h3, hr⟩ := runs_append _ _ _ _ _ hr
  obtain ⟨_, rfl⟩ := runs_ilit _ h3
  obtain ⟨u4, v4, c4, rfl, h4, hr⟩ := runs_append _ _ _ _ _ hr
  obtain ⟨_, _, rfl⟩ := runs_number h4
  obtain ⟨u5, v5, c5, rfl, h5, hr⟩ := runs_append _ _ _ _ _ hr
  obtain ⟨_, _, rfl⟩ := runs_plus h5
  obtain ⟨u6, v6, c6, rfl, h6, hr⟩ := runs_append _ _ _ _ _ hr
  obtain ⟨_, rfl⟩ := runs_ilit _ h6
  obtain ⟨u7, v7, c7, rfl, h7, hr⟩ := runs_append _ _ _ _ _ hr
  obtain ⟨w1, r1, e1, rfl, g1, h7⟩ := runs_cons h7
  obtain ⟨rfl, rfl⟩ := run_start g1
  obtain ⟨w2, r2, e2, rfl, g2, h7⟩ := runs_cons h7
  obtain ⟨tx, rfl, px, rfl⟩ := run_chr g2
  obtain ⟨w3, r3, e3, rfl, g3, h7⟩ := runs_cons h7
  obtain ⟨w4, r4, e4, rfl, g4, h7⟩ := runs_cons h7
  obtain ⟨td, rfl, pd, rfl⟩ := run_chr g4
  obtain ⟨w5, r5, e5, rfl, g5, h7⟩ := runs_cons h7
  obtain ⟨rfl, rfl⟩ := run_stop g5
  obtain ⟨rfl, rfl⟩ := runs_nil h7
  obtain ⟨x, rfl, hx⟩ : ∃ x, tx = [x] ∧ x ≠ 45 := by
    unfold keyTok at px
    match tx, px with
    | [b], px => exact ⟨b, rfl, by intro e; subst e; revert px; decide⟩
  obtain ⟨dg, rfl, _⟩ := digitTok_byte pd
  have hacc : w3.flatten = [] ∨ w3.flatten = str "♯" ∨ w3.flatten = str "♭" := by
    rcases run_opt g3 with ⟨rfl, _⟩ | ⟨t, rfl, pt, _⟩
    · exact Or.inl rfl
    · right
      unfold accidentalTok at pt
      simpa using pt
  obtain ⟨u8, v8, c8, rfl, h8, hr⟩ := runs_append _ _ _ _ _ hr
  have hcomma : u8.flatten = [44] := by
    obtain ⟨f8, _⟩ := runs_chrs ((str ",").map foldTok) _ u8 c8 (by
      rw [List.map_map]; exact h8)
    exact fits_fold (str ",") (by decide +kernel) u8 f8
  refine ⟨a.flatten ++ (u0.flatten ++ (u1.flatten ++ (u2.flatten ++ (u3.flatten ++ (u4.flatten ++ (u5.flatten ++ u6.flatten)))))), x, w3.flatten, dg,
    v8.flatten ++ v.flatten, ?_, hx, hacc⟩
  rw [← toks_flatten line, hl]
  simp only [List.flatten_append, hcomma, List.append_assoc]
  simp

theorem split_unique {x : UInt8} {a b p q : Bytes} (h : a ++ x :: b = p ++ x :: q) (hp : x ∉ p) (hq : x ∉ q) : a = p := by
  rcases List.append_eq_append_iff.mp h with ⟨c, h1, h2⟩ | ⟨c, h1, h2⟩
  · cases c with
    | nil => simp [h1]
    | cons y c =>
      exfalso
      simp only [List.cons_append, List.cons.injEq] at h2
      exact hp (by rw [h1, ← h2.1]; simp)
  · cases c with
    | nil => simpa using h1
    | cons y c =>
      exfalso
      simp only [List.cons_append, List.cons.injEq] at h2
      exact hq (by rw [h2.2]; simp)

theorem low_names (flats : Prop) (name : String) (n : Nat) (offset : Int) (ho : offset = 1 ∨ offset = 2) (hneg : (n / 12 : Nat) < offset)
    (h : Names flats offset name n) : (∃ w dg, str name = w ++ [45, dg]) ∧ 44 ∉ str name ∧ ∀ c ∈ str name, c ∈ noteAlphabet := by
  obtain ⟨p, rfl, hp, _, _⟩ := h
  have ht : ∀ p ∈ pitchNames, ∀ o ∈ ([-1, -2] : List Int), ((str (p ++ toString o)).reverse.drop 1).head? = some 45 ∧ (str (p ++ toString o)).length ≥ 2 ∧
      44 ∉ str (p ++ toString o) ∧ ∀ c ∈ str (p ++ toString o), c ∈ noteAlphabet := by
    decide +kernel
  have hm := pitchClass_mem p _ hp
  have hoct : ((n / 12 : Nat) - offset : Int) ∈ ([-1, -2] : List Int) := by
    simp only [List.mem_cons, List.not_mem_nil, or_false]
    omega
  obtain ⟨h1, h2, h3, h4⟩ := ht p hm _ hoct
  refine ⟨?_, h3, h4⟩
  generalize str (p ++ toString ((n / 12 : Nat) - offset : Int)) = s at h1 h2
  have : s = s.reverse.reverse := by simp
  generalize s.reverse = r at this h1
  subst this
  match r, h1 with
  | a :: b :: r, h1 =>
    simp at h1
    subst h1
    exact ⟨r.reverse, a, by simp⟩

/-- C56: the line printed for a note below octave 0 (with middle C at octave 4 or 3) is never read back. -/
theorem C56_low_notes_fails (table : List (String × Lib.Manufacturer)) (e : Event) (line : Bytes) (hp : printEvent e = .ok line) (ch v : UInt8)
    (n : NoteVal) (hb : e.body = .noteOn ch n v ∨ e.body = .noteOff ch n v) (flats : Prop) (offset : Int) (ho : offset = 1 ∨ offset = 2)
    (hneg : (n.value.toNat / 12 : Nat) < offset) (hn : Names flats offset n.name n.value.toNat) : readEvent table line = .err .other := by
  obtain ⟨⟨w, dg, hw⟩, h44, halpha⟩ := low_names flats n.name n.value.toNat offset ho hneg hn
  obtain ⟨pre, k, hpre, rfl⟩ := printEvent_lineOf e line hp
  have hfields : shownFields e.body =
      str "channel:" ++ (pad 2 (dec ch.toNat) ++ ([32] ++ (str "note:" ++ (str n.name ++ (str ", velocity:" ++ dec v.toNat))))) := by
    rcases hb with hb | hb <;> rw [hb] <;> rfl
  have hfree : ∀ kw ∈ keywords.take (caseIndex e.body), contains (shownFields e.body) (str kw) = false := by
    intro kw hk
    rw [hfields]
    exact contains_note ch v n.name halpha kw (words kw (List.mem_append_left _ (List.mem_of_mem_take hk)))
  rw [readEvent_line table pre e.delta k e.body hpre hfree]
  -- the only comma of the line
  obtain ⟨gap, hg, _, hbody⟩ := printBody_fields e.body
  have hline : ∃ P Q, 44 ∉ P ∧ 44 ∉ Q ∧ lineOf pre e.delta k e.body = (P ++ str n.name) ++ 44 :: Q := by
    have e1 : str ", velocity:" = 44 :: str " velocity:" := by decide +kernel
    refine ⟨pre ++ (str "delta:" ++ (dec e.delta.toNat ++ (List.replicate (k + 2) 32 ++ (hex2 (shownByte e.body) ++ ([32] ++ (str e.body.tag ++ (gap ++
      (str "channel:" ++ (pad 2 (dec ch.toNat) ++ ([32] ++ str "note:")))))))))), str " velocity:" ++ dec v.toNat, ?_, ?_, ?_⟩
    · have hd : ∀ m, 44 ∉ dec m := fun m h => absurd (dec_alphabet m _ h) (by decide +kernel)
      simp only [List.mem_append, not_or]
      refine ⟨fun h => absurd (hpre _ h) (by decide +kernel), by decide +kernel, hd _, ?_, ?_, by decide, ?_, ?_, by decide +kernel, ?_, by decide, by decide +kernel⟩
      · intro h; exact absurd (List.eq_of_mem_replicate h) (by decide)
      · exact all8 (P := fun b => 44 ∉ hex2 b) (by decide +kernel) _
      · rcases hb with hb | hb <;> rw [hb] <;> simp only [Body.tag] <;> decide +kernel
      · intro h; exact absurd (hg _ h) (by decide)
      · obtain ⟨j, hj⟩ := pad_eq 2 (dec ch.toNat)
        rw [hj]
        intro h
        rcases List.mem_append.mp h with h | h
        · exact hd _ h
        · exact absurd (List.eq_of_mem_replicate h) (by decide)
    · intro h
      rcases List.mem_append.mp h with h | h
      · exact absurd h (by decide +kernel)
      · exact absurd (dec_alphabet _ _ h) (by decide +kernel)
    · unfold lineOf
      rw [hbody, hfields, e1]
      simp only [List.append_assoc, List.cons_append]
  obtain ⟨P, Q, hP, hQ, hl⟩ := hline
  have hnone : ∀ tag, findSubmatch (notePatternOf tag) (lineOf pre e.delta k e.body) = none := by
    intro tag
    cases hf : findSubmatch (notePatternOf tag) (lineOf pre e.delta k e.body) with
    | none => rfl
    | some gs =>
      exfalso
      obtain ⟨A, x, acc, d', B, h1, hx, hacc⟩ := note_comma tag _ _ hf
      rw [hl] at h1
      have hs := split_unique h1.symm (by simp [hP, h44]) hQ
      rw [hw] at hs
      have h2 := congrArg (fun l => (l.reverse.drop 1).head?) hs
      have s1 : str "♯" = [226, 153, 175] := by decide +kernel
      have s2 : str "♭" = [226, 153, 173] := by decide +kernel
      rcases hacc with rfl | rfl | rfl
      · simp at h2; exact hx h2
      · rw [s1] at h2; simp at h2
      · rw [s2] at h2; simp at h2
  rcases hb with hb | hb
  · rw [hb] at hnone ⊢
    simp only [readerOf, readNoteOn, hnone]
    rfl
  · rw [hb] at hnone ⊢
    simp only [readerOf, readNoteOff, hnone]
    rfl

example : Names False 1 "C♯-1" 1 := ⟨"C♯", by decide +kernel, by decide +kernel, by simp, by decide +kernel⟩

end Midiasm
