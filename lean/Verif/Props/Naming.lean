import Verif.Props.CommandsExamples
import Verif.Lemmas.AlikeJson

/-!
The option `--C4`.
-/

set_option linter.unusedSimpArgs false

namespace Midiasm
open Spec

/-! ### C101: MIDI files do not depend on the naming of notes -/

theorem flagValue_same {option : String} {s s' : List (Bytes × FlagValue)} (h : SameBut option s s') (name : String) (hn : name ≠ option) :
    flagValue s (str name) = flagValue s' (str name) := by
  apply Option.ext
  intro x
  rw [flagValue_given, flagValue_given]
  exact h name hn x

theorem stringFlag_same {option : String} {s s' : List (Bytes × FlagValue)} (h : SameBut option s s') (name : String) (hn : name ≠ option) :
    stringFlag s name = stringFlag s' name := by
  rw [stringFlag, stringFlag, flagValue_same h name hn]

theorem intFlag_same {option : String} {s s' : List (Bytes × FlagValue)} (h : SameBut option s s') (name : String) (hn : name ≠ option) :
    intFlag s name = intFlag s' name := by
  rw [intFlag, intFlag, flagValue_same h name hn]

theorem boolFlag_same {option : String} {s s' : List (Bytes × FlagValue)} (h : SameBut option s s') (name : String) (hn : name ≠ option) :
    boolFlag s name = boolFlag s' name := by
  rw [boolFlag, boolFlag, flagValue_same h name hn]

theorem validate_alike {a b : SMF} (h : a.nameless = b.nameless) : Outcome.Rel (fun _ _ => True) (validate a) (validate b) := by
  simp only [SMF.nameless, SMF.mk.injEq] at h
  obtain ⟨h1, h2⟩ := h
  have hl : a.tracks.length = b.tracks.length := by simpa using congrArg List.length h2
  unfold validate
  rw [h1]
  cases b.mthd with
  | none => trivial
  | some m =>
    simp only
    split
    · refine Outcome.Rel.bind (R := fun _ _ => True) ?_ (fun a b _ => trivial)
      unfold validateFormat1
      cases ha : a.tracks <;> cases hb : b.tracks <;> simp_all [Outcome.Rel]
    · trivial

theorem load_alike (w : World) (mc mc' : MiddleC) (f : Bytes) :
    Outcome.Rel (fun a b => SMF.nameless a = SMF.nameless b) (load w mc f) (load w mc' f) := by
  unfold load
  split
  · rfl
  · refine Outcome.Rel.bind (decode_alike mc mc' _ _) fun a b h => ?_
    exact Outcome.Rel.bind (validate_alike h) fun _ _ _ => h

theorem withFile_alike (w : World) (mc mc' : MiddleC) (f : Bytes) (g g' : SMF → RunResult) (h : ∀ a b, SMF.nameless a = SMF.nameless b → g a = g' b) :
    withFile w mc f g = withFile w mc' f g' := by
  have hl := load_alike w mc mc' f
  unfold withFile
  cases h1 : load w mc f <;> cases h2 : load w mc' f <;> rw [h1, h2] at hl <;> first
    | (cases hl; done)
    | (simp only; exact h _ _ hl)
    | rfl

/-- C101: `--C4` makes no difference to assembling and transposing: the same files, the same ending. -/
theorem C101_same_files (w : World) (c : Command) (hc : c ∈ [.assemble, .transpose, .humanise, .help, .version]) (args argv args' argv' : List Bytes)
    (s s' : List (Bytes × FlagValue)) (r r' : List Bytes) (hi : Invokes c args argv) (hl : CommandLine (options c) args s r)
    (hi' : Invokes c args' argv') (hl' : CommandLine (options c) args' s' r') (hs : SameBut "C4" s s') (hr : r.head? = r'.head?) :
    midiasm w argv = midiasm w argv' := by
  have hf : r.headD [] = r'.headD [] := by
    rw [List.headD_eq_head?_getD, List.headD_eq_head?_getD, hr]
  rw [midiasm_runs hi hl, midiasm_runs hi' hl']
  simp only [List.mem_cons, List.not_mem_nil, or_false] at hc
  rcases hc with rfl | rfl | rfl | rfl | rfl
  · simp only [execute, runAssemble, hf, stringFlag_same hs "out" (by decide)]
    split
    · rfl
    · rename_i text _
      congr 1
      split
      · unfold assembleJsonText
        split
        · rfl
        · exact assembleJson_alike _ _ _
      · rfl
  · simp only [execute, runTranspose, hf, stringFlag_same hs "out" (by decide), intFlag_same hs "semitones" (by decide)]
    apply withFile_alike
    intro a b h
    rw [transposeExecute_alike _ _ _ a b h]
  · simp only [execute, runHumanise, hf]
    exact withFile_alike _ _ _ _ _ _ fun _ _ _ => rfl
  · simp only [execute, hf]
  · simp only [execute]

theorem sameButC4_cons (s : List (Bytes × FlagValue)) (v : FlagValue) : SameBut "C4" ((str "C4", v) :: s) s := by
  intro name hn x
  constructor
  · rintro ⟨b, a, hb, ha⟩
    cases b with
    | nil =>
      simp only [List.nil_append, List.cons.injEq, Prod.mk.injEq] at hb
      exact absurd (str_inj hb.1.1.symm) hn
    | cons q b =>
      simp only [List.cons_append, List.cons.injEq] at hb
      exact ⟨b, a, hb.2, ha⟩
  · rintro ⟨b, a, rfl, ha⟩
    exact ⟨_ :: b, a, rfl, ha⟩

/-- C101 for `--C4` put right after the command. -/
theorem C101_option (w : World) (c : Command) (hc : c ∈ [.assemble, .transpose, .humanise, .help, .version]) (args : List Bytes) :
    midiasm w (str (commandName c) :: str "--C4" :: args) = midiasm w (str (commandName c) :: args) := by
  have hp : parseFlags (commandFlags c) (str "--C4" :: args) = (parseFlags (commandFlags c) args).cons (str "C4", .bool true) := by
    have := parse_option (options_writable c) (name := "C4") (kind := .bool) (by simp [options]) (a := str "--C4") (Or.inr (by decide +kernel)) []
      none (by decide +kernel) args
    simpa [commandFlags_options] using this
  cases h : parseFlags (commandFlags c) args with
  | ok s r =>
    refine C101_same_files w c hc (str "--C4" :: args) _ args _ ((str "C4", .bool true) :: s) s r r (Or.inl rfl) ?_ (Or.inl rfl) ((parse_iff _ _ _ _).mp h)
      ?_ rfl
    · rw [← parse_iff, hp, h]
      rfl
    · exact sameButC4_cons s _
  | help => rw [midiasm_invoked (Or.inl rfl), midiasm_invoked (Or.inl rfl), hp, h]; rfl
  | bad => rw [midiasm_invoked (Or.inl rfl), midiasm_invoked (Or.inl rfl), hp, h]; rfl

/-- Options that differ in `--C4`, and a transposition where the names of the decoded notes differ. -/
example : SameBut "C4" [(str "C4", .bool true), (str "semitones", .int 3)] [(str "semitones", .int 3)] ∧
    (midiasm demo [str "transpose", str "--C4", str "--semitones", str "3", str "--out=x", str "in.mid"]).files.length = 1 ∧
    ((midiasm demo [str "in.mid"]).stdout ≠ (midiasm demo [str "--C4", str "in.mid"]).stdout) := by
  exact ⟨sameButC4_cons _ _, by decide +kernel, by decide +kernel⟩

end Midiasm
