import Verif.Props.Crashes
import Verif.Props.JsonCrashes

/-!
Property C160: when the command `assemble` crashes or does not end, from the bytes of its input; and which runs of the program end.
-/

set_option linter.unusedSimpArgs false

namespace Midiasm
open Spec

/-- The file named crashes the assembler: as JSON if its name ends in `.json`, as text otherwise. -/
def InputCrashes (w : World) (file : Bytes) : Prop :=
  file ≠ [] ∧ ∃ text, w.read file = some text ∧
    ((str ".json" <:+ file ∧ BeginsWith DocumentCrashes text) ∨ (¬ str ".json" <:+ file ∧ TextCrashes Lib.manufacturers text))

/-- The assembler does not finish the file named. -/
def InputHangs (w : World) (file : Bytes) : Prop :=
  file ≠ [] ∧ ∃ text, w.read file = some text ∧
    ((str ".json" <:+ file ∧ BeginsWith DocumentHangs text) ∨ (¬ str ".json" <:+ file ∧ TextHangs Lib.manufacturers text))

theorem save_stops (w : World) (out : Bytes) (o : Outcome Bytes) :
    ((save w out o).status = .panicked ↔ o = .panic) ∧ ((save w out o).status = .hanging ↔ o = .diverge) := by
  cases o with
  | ok b =>
    unfold save
    simp only
    repeat' split
    all_goals simp
  | err e => simp [save, statusOf]
  | panic => simp [save, statusOf]
  | diverge => simp [save, statusOf]

/-- **C160.** The command `assemble` crashes exactly on the inputs of `InputCrashes` and does not end exactly on those of `InputHangs`, and then
it has created nothing and printed nothing. -/
theorem C160_assemble (w : World) (args argv : List Bytes) (s : List (Bytes × FlagValue)) (r : List Bytes) (hi : Invokes .assemble args argv)
    (hl : CommandLine (options .assemble) args s r) :
    ((midiasm w argv).status = .panicked ↔ InputCrashes w (r.headD [])) ∧ ((midiasm w argv).status = .hanging ↔ InputHangs w (r.headD [])) ∧
    ((midiasm w argv).status ≠ .success → (midiasm w argv).files = [] ∧ (midiasm w argv).stdout = []) := by
  rw [midiasm_runs hi hl]
  simp only [execute, runAssemble, ← middleC.eq_def]
  cases hf : w.file (r.headD []) with
  | none =>
    refine ⟨⟨fun h => (by cases h), ?_⟩, ⟨fun h => (by cases h), ?_⟩, fun _ => ⟨rfl, rfl⟩⟩
    all_goals
      rintro ⟨h1, text, h2, _⟩
      rw [file_some.2 ⟨h1, h2⟩] at hf
      cases hf
  | some text =>
    simp only
    obtain ⟨hne, hr⟩ := file_some.1 hf
    rw [(save_stops w _ _).1, (save_stops w _ _).2]
    refine ⟨?_, ?_, ?_⟩
    · by_cases he : extPath (r.headD []) = str ".json"
      · rw [if_pos he, C159_json_crashes]
        have hj := (json_suffix _).1 he
        constructor
        · exact fun h => ⟨hne, text, hr, Or.inl ⟨hj, h⟩⟩
        · rintro ⟨_, text', h1, ⟨_, h⟩ | ⟨h, _⟩⟩
          · rw [hr] at h1
            injection h1 with h1
            rw [h1]
            exact h
          · exact absurd hj h
      · rw [if_neg he, C159_text_crashes]
        have hj : ¬ str ".json" <:+ r.headD [] := fun h => he ((json_suffix _).2 h)
        constructor
        · exact fun h => ⟨hne, text, hr, Or.inr ⟨hj, h⟩⟩
        · rintro ⟨_, text', h1, ⟨h, _⟩ | ⟨_, h⟩⟩
          · exact absurd h hj
          · rw [hr] at h1
            injection h1 with h1
            rw [h1]
            exact h
    · by_cases he : extPath (r.headD []) = str ".json"
      · rw [if_pos he, C159_json_hangs]
        have hj := (json_suffix _).1 he
        constructor
        · exact fun h => ⟨hne, text, hr, Or.inl ⟨hj, h⟩⟩
        · rintro ⟨_, text', h1, ⟨_, h⟩ | ⟨h, _⟩⟩
          · rw [hr] at h1
            injection h1 with h1
            rw [h1]
            exact h
          · exact absurd hj h
      · rw [if_neg he, C159_text_hangs]
        have hj : ¬ str ".json" <:+ r.headD [] := fun h => he ((json_suffix _).2 h)
        constructor
        · exact fun h => ⟨hne, text, hr, Or.inr ⟨hj, h⟩⟩
        · rintro ⟨_, text', h1, ⟨h, _⟩ | ⟨_, h⟩⟩
          · exact absurd h hj
          · rw [hr] at h1
            injection h1 with h1
            rw [h1]
            exact h
    · generalize (if extPath (r.headD []) = str ".json" then assembleJsonText (middleC s) text else assembleText Lib.manufacturers text) = o
      unfold save
      cases o <;> simp only
      · repeat' split
        all_goals simp
      all_goals simp

theorem parsed_invocation {c : Command} {args argv : List Bytes} (hi : Invokes c args argv) (w : World) :
    (∃ s r, CommandLine (options c) args s r) ∨ midiasm w argv = ⟨[], [], .helped⟩ ∨ midiasm w argv = ⟨[], [], .usage⟩ := by
  rw [midiasm_invoked hi]
  cases hpar : parseFlags (commandFlags c) args with
  | ok s r => exact Or.inl ⟨s, r, (parse_iff c args s r).mp hpar⟩
  | help => exact Or.inr (Or.inl rfl)
  | bad => exact Or.inr (Or.inr rfl)

/-- **C160.** A run of the program does not end exactly if it is one of the command `assemble` on such an input; any other run ends, whatever
the arguments are and whatever is in the files. -/
theorem C160_ends (w : World) (argv : List Bytes) : (midiasm w argv).status = .hanging ↔
    ∃ args s r, Invokes .assemble args argv ∧ CommandLine (options .assemble) args s r ∧ InputHangs w (r.headD []) := by
  obtain ⟨c, args, hi⟩ := invokes_exists argv
  constructor
  · intro h
    rcases parsed_invocation hi w with ⟨s, r, hl⟩ | h' | h'
    · by_cases hc : ReadsMidi c
      · have := (C158_crashes w c args argv s r hi hl hc).1
        rw [h] at this
        simp at this
      · cases c with
        | assemble => exact ⟨args, s, r, hi, hl, (C160_assemble w args argv s r hi hl).2.1.1 h⟩
        | help => rw [midiasm_runs hi hl] at h; cases h
        | version => rw [midiasm_runs hi hl] at h; cases h
        | _ => exact absurd (by simp [ReadsMidi]) hc
    · rw [h'] at h; cases h
    · rw [h'] at h; cases h
  · rintro ⟨args, s, r, hi, hl, h⟩
    exact (C160_assemble w args argv s r hi hl).2.1.2 h

/-- A text that the assembler does not survive. -/
def crashText : Bytes := str "MThd format:0 metrical-time:96 ppqn\nMTrk\ndelta:0 SMPTEOffset 25 0 0 25 0 0\n"

/-- A JSON text that the assembler does not finish. -/
def hangText : Bytes :=
  str "{\"header\":{\"tag\":\"MThd\",\"format\":0,\"PPQN\":96},\"tracks\":[{\"tag\":\"MTrk\",\"events\":[{\"event\":{\"tag\":\"TimeSignature\",\"denominator\":129}}]}]}"

/-- A directory with both. -/
def demoTexts : World := { demo with
  read := fun name => if name = str "a.txt" then some crashText else if name = str "b.json" then some hangText else none }

example : (midiasm demoTexts [str "assemble", str "a.txt"]).status = .panicked ∧ (midiasm demoTexts [str "assemble", str "b.json"]).status = .hanging := by
  have h1 : demoTexts.read (str "a.txt") = some crashText := by simp only [demoTexts, if_true]
  have h2 : demoTexts.read (str "b.json") = some hangText := by
    have h : ¬ str "b.json" = str "a.txt" := by decide +kernel
    simp only [demoTexts, if_neg h, if_true]
  constructor
  · refine (C160_assemble demoTexts [str "a.txt"] _ [] [str "a.txt"] (Or.inl rfl) (by_parse (by decide +kernel))).1.2 ?_
    exact ⟨by decide +kernel, _, h1, Or.inr ⟨by decide +kernel, (C159_text_crashes _ _).1 (by decide +kernel)⟩⟩
  · refine (C160_assemble demoTexts [str "b.json"] _ [] [str "b.json"] (Or.inl rfl) (by_parse (by decide +kernel))).2.1.2 ?_
    exact ⟨by decide +kernel, _, h2, Or.inl ⟨by decide +kernel, (C159_json_hangs .c3 _).1 (by decide +kernel)⟩⟩

end Midiasm
