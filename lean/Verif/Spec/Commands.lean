import Verif.Spec.CommandLine

/-!
What the commands read and write, in terms of the options given.
-/

namespace Spec
open Midiasm

/-- The naming of notes chosen by the options. -/
def Naming (s : List (Bytes × FlagValue)) (mc : MiddleC) : Prop :=
  (mc = .c4 ∧ Given s "C4" (.bool true)) ∨ (mc = .c3 ∧ ¬ Given s "C4" (.bool true))

/-- There is a file of that name and it is the MIDI file `smf`. -/
def Decodes (w : World) (s : List (Bytes × FlagValue)) (file : Bytes) (smf : SMF) : Prop :=
  file ≠ [] ∧ ∃ bytes mc, w.read file = some bytes ∧ Naming s mc ∧ decode mc w.spare bytes = .ok smf

/-- A format 1 file without tracks. -/
def Trackless1 (smf : SMF) : Prop := ∃ m, smf.mthd = some m ∧ m.format.toNat = 1 ∧ smf.tracks = []

/-- No option of that name is given, or the text given is empty. -/
def NoText (s : List (Bytes × FlagValue)) (name : String) : Prop := ∀ v, Given s name (.string v) → v = []

/-- An output file is named. -/
def Output (s : List (Bytes × FlagValue)) (out : Bytes) : Prop := out ≠ [] ∧ Given s "out" (.string out)

/-- The directory of the files of a split disassembly: the one named, or the one of the MIDI file. -/
def SplitDirectory (s : List (Bytes × FlagValue)) (file dir : Bytes) : Prop :=
  Output s dir ∨ (NoText s "out" ∧ dir = dirPath file)

/-- The files a command may write: the output file or, when a disassembly is split, files with names ending in `.MThd` or `.MTrk` in the
directory for them. -/
def MayWrite (c : Command) (s : List (Bytes × FlagValue)) (file name : Bytes) : Prop :=
  (c ∈ [.disassemble, .assemble, .notes, .click, .export_, .transpose, .tsv] ∧ ¬ (c = .disassemble ∧ Given s "split" (.bool true)) ∧
    Output s name) ∨
  (c = .disassemble ∧ Given s "split" (.bool true) ∧ ∃ dir e, SplitDirectory s file dir ∧
    (str ".MThd" <:+ e ∨ str ".MTrk" <:+ e) ∧ name = joinPath dir e)

end Spec

namespace Spec
open Midiasm

/-- The name of a file without directory and without extension. -/
def Stem (path stem : Bytes) : Prop :=
  ∃ dir ext, path = dir ++ stem ++ ext ∧ (dir = [] ∨ ∃ d, dir = d ++ [47]) ∧ 47 ∉ stem ∧ stem ++ ext ≠ [] ∧
    ((ext = [] ∧ 46 ∉ stem) ∨ ∃ e, ext = 46 :: e ∧ 46 ∉ e ∧ 47 ∉ e)

/-- The file whose name the files of a split disassembly are named after: the one of the output if there is one. -/
def NamedAfter (s : List (Bytes × FlagValue)) (file x : Bytes) : Prop := Output s x ∨ (NoText s "out" ∧ x = file)

/-- The same options apart from one. -/
def SameBut (option : String) (s s' : List (Bytes × FlagValue)) : Prop := ∀ name, name ≠ option → ∀ x, Given s name x ↔ Given s' name x

/-- The commands that read a MIDI file. -/
def ReadsMidi (c : Command) : Prop := c ∈ [.disassemble, .notes, .click, .export_, .transpose, .tsv, .humanise]

/-- The number given with an option, zero if it is not given. -/
def Number (s : List (Bytes × FlagValue)) (name : String) (n : Int) : Prop :=
  Given s name (.int n) ∨ ((∀ m, ¬ Given s name (.int m)) ∧ n = 0)

/-- The text is printed or, if an output file is named, written to it. -/
structure Delivers (w : World) (s : List (Bytes × FlagValue)) (text : Bytes) (r : RunResult) : Prop where
  printed : NoText s "out" → r = ⟨[], text, .success⟩
  written : ∀ out, Output s out → w.create out = true → r = ⟨[(out, text)], [], .success⟩
  refused : ∀ out, Output s out → w.create out = false → r = ⟨[], [], .failed⟩

/-- The content is written to the output file, if one is named; nothing is printed. -/
structure Saves (w : World) (s : List (Bytes × FlagValue)) (content : Bytes) (r : RunResult) : Prop where
  lost : NoText s "out" → r = ⟨[], [], .success⟩
  written : ∀ out, Output s out → w.create out = true → r = ⟨[(out, content)], [], .success⟩
  refused : ∀ out, Output s out → w.create out = false → r = ⟨[], [], .failed⟩

end Spec
