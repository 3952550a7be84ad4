import Verif.Props.AssembleCrashes
import Verif.Props.Repeatable

/-!
C164: the result of a command depends on the content of the file named, not on its name, on other files or on further arguments.
-/

set_option linter.unusedSimpArgs false

namespace Midiasm
open Spec

/-- Everything but the content of files is the same. -/
def SameBesidesFiles (w w' : World) : Prop :=
  w.create = w'.create ∧ w.mkdirAll = w'.mkdirAll ∧ w.isDir = w'.isDir ∧ w.superuser = w'.superuser ∧ w.spare = w'.spare ∧ w.order = w'.order ∧
    w.templates = w'.templates

theorem same_besides {w w' : World} (h : SameBesidesFiles w w') : w' = { w with read := w'.read } := by
  obtain ⟨h1, h2, h3, h4, h5, h6, h7⟩ := h
  cases w
  cases w'
  simp only at h1 h2 h3 h4 h5 h6 h7
  subst h1 h2 h3 h4 h5 h6 h7
  rfl

theorem withFile_named {w : World} {read : Bytes → Option Bytes} {mc : MiddleC} {a b : Bytes} (h : w.file a = World.file { w with read := read } b)
    {f g : SMF → RunResult} (hf : ∀ smf, f smf = g smf) : withFile { w with read := read } mc b g = withFile w mc a f := by
  unfold withFile load
  rw [← h]
  simp only [hf]

theorem splitTracks_named (w : World) (read : Bytes → Option Bytes) (fresh : Bool) (p : Printer) (dir base : Bytes) (ts : List MTrk) :
    splitTracks { w with read := read } fresh p dir base ts = splitTracks w fresh p dir base ts := by
  induction ts with
  | nil => rfl
  | cons t ts ih =>
    simp only [splitTracks, ih]
    rfl

theorem separate_named (w : World) (read : Bytes → Option Bytes) (out : Bytes) (p : Printer) (smf : SMF) (file : Bytes) :
    separate { w with read := read } out p smf file = separate w out p smf file := by
  simp only [separate, splitTracks_named]
  rfl

theorem emit_named (w : World) (read : Bytes → Option Bytes) (out : Bytes) (text : Outcome Bytes) :
    emit { w with read := read } out text = emit w out text := rfl

theorem save_named (w : World) (read : Bytes → Option Bytes) (out : Bytes) (text : Outcome Bytes) :
    save { w with read := read } out text = save w out text := rfl

/-- **C164.** Two runs of a command with the same options give the same result if the files named have the same content, whatever the names of the
files, further arguments and the content of other files; except that the assembler looks whether the name ends in `.json`, and that the files of a
split disassembly without `--out` are named after the file. -/
theorem C164_content (w w' : World) (hw : SameBesidesFiles w w') (c : Command) (hc : c ≠ .help) (args argv args' argv' : List Bytes)
    (s : List (Bytes × FlagValue)) (r r' : List Bytes) (hi : Invokes c args argv) (hl : CommandLine (options c) args s r)
    (hi' : Invokes c args' argv') (hl' : CommandLine (options c) args' s r') (hr : r.headD [] ≠ []) (hr' : r'.headD [] ≠ [])
    (hsame : w.read (r.headD []) = w'.read (r'.headD []))
    (hj : c = .assemble → (str ".json" <:+ r.headD [] ↔ str ".json" <:+ r'.headD []))
    (hsplit : c = .disassemble → Given s "split" (.bool true) → NoText s "out" → r.headD [] = r'.headD [])
    (htemp : c = .disassemble → ∀ name, Given s "templates" (.string name) → w.read name = w'.read name) :
    midiasm w argv = midiasm w' argv' := by
  rw [midiasm_runs hi hl, midiasm_runs hi' hl']
  rw [same_besides hw] at hsame htemp ⊢
  generalize w'.read = read at hsame htemp ⊢
  have hfile : w.file (r.headD []) = World.file { w with read := read } (r'.headD []) := by
    unfold World.file
    rw [if_neg hr, if_neg hr', hsame]
  cases c with
  | help => exact absurd rfl hc
  | version => rfl
  | humanise => exact (withFile_named hfile fun _ => rfl).symm
  | export_ => exact (withFile_named hfile fun _ => rfl).symm
  | tsv => exact (withFile_named hfile fun _ => rfl).symm
  | transpose => exact (withFile_named hfile fun _ => rfl).symm
  | notes => exact (withFile_named hfile fun _ => rfl).symm
  | click => exact (withFile_named hfile fun _ => rfl).symm
  | assemble =>
    simp only [execute, runAssemble, ← hfile]
    cases w.file (r.headD []) with
    | none => rfl
    | some text =>
      have e : extPath (r.headD []) = str ".json" ↔ extPath (r'.headD []) = str ".json" := by
        rw [json_suffix, json_suffix, hj rfl]
      by_cases h : extPath (r.headD []) = str ".json"
      · simp only [if_pos h, if_pos (e.1 h)]
        rfl
      · simp only [if_neg h, if_neg fun g => h (e.2 g)]
        rfl
  | disassemble =>
    refine (withFile_named hfile fun smf => ?_).symm
    have hp : printerFor { w with read := read } (stringFlag s "templates") = printerFor w (stringFlag s "templates") := by
      unfold printerFor World.file
      split
      · rfl
      · rename_i ht
        rw [htemp rfl _ (stringFlag_given s _ ht)]
    simp only [hp]
    split
    · rfl
    · simp only [separate_named]
      by_cases hs : boolFlag s "split" = true
      · rw [if_pos hs, if_pos hs]
        by_cases ho : stringFlag s "out" = []
        · rw [hsplit rfl ((boolFlag_given _ _).1 hs) (out_empty.1 ho)]
        · rw [if_neg ho, if_neg ho]
      · rw [if_neg hs, if_neg hs]
        rfl

/-- C164: the same content under two names, in systems with different other files. -/
example : midiasm { demo with read := fun name => if name = str "a.mid" then some plainFile else none } [str (commandName .export_), str "a.mid"] =
    midiasm { demo with read := fun _ => some plainFile } [str (commandName .export_), str "b.mid", str "c.mid"] := by
  refine C164_content { demo with read := fun name => if name = str "a.mid" then some plainFile else none }
    { demo with read := fun _ => some plainFile } ⟨rfl, rfl, rfl, rfl, rfl, rfl, rfl⟩ .export_ (by simp) [str "a.mid"] _ [str "b.mid", str "c.mid"] _ [] [str "a.mid"]
    [str "b.mid", str "c.mid"] (Or.inl rfl) (by_parse (by decide +kernel)) (Or.inl rfl) (by_parse (by decide +kernel)) (by decide +kernel) (by decide +kernel)
    ?_ (by simp) (by simp) (by simp)
  show (if str "a.mid" = str "a.mid" then some plainFile else none) = some plainFile
  rw [if_pos rfl]

/-- The condition on names ending in `.json` is needed. -/
example : (midiasm { demo with read := fun _ => some crashText } [str "assemble", str "a.txt"]).status = .panicked ∧
    (midiasm { demo with read := fun _ => some crashText } [str "assemble", str "a.json"]).status ≠ .panicked := by
  constructor
  · refine (C160_assemble _ [str "a.txt"] _ [] [str "a.txt"] (Or.inl rfl) (by_parse (by decide +kernel))).1.2 ?_
    exact ⟨by decide +kernel, _, rfl, Or.inr ⟨by decide +kernel, (C159_text_crashes _ _).1 (by decide +kernel)⟩⟩
  · intro h
    obtain ⟨_, t, ht, h | h⟩ := (C160_assemble _ [str "a.json"] _ [] [str "a.json"] (Or.inl rfl) (by_parse (by decide +kernel))).1.1 h
    · injection ht with ht
      subst ht
      have := (C159_json_crashes .c3 _).2 h.2
      revert this
      decide +kernel
    · exact h.1 (by decide +kernel)

end Midiasm
