import Verif.Spec.Commands

/-!
Reading a help text.
-/

namespace Spec
open Midiasm

/-- The lines of a text. -/
def linesIn (text : Bytes) : List Bytes := text.splitOnP fun b => b = 10

/-- The words of a text: what is between line ends, blanks and brackets. -/
def wordsIn (text : Bytes) : List Bytes := text.splitOnP fun b => b = 10 || b = 32 || b = 91 || b = 93

/-- The text names an option. -/
def NamesOption (text : Bytes) (name : String) : Prop := str ("--" ++ name) ∈ wordsIn text

/-- The commands that do something with a file. -/
def WithFiles (c : Command) : Prop := c ≠ .help ∧ c ≠ .version

/-- The arguments in an example: the line is indented and starts with the name of the program. -/
def Example (text : Bytes) (argv : List Bytes) : Prop := ∃ l ∈ linesIn text, ∃ rest, l = str "      midiasm " ++ rest ∧ argv = rest.splitOnP fun b => b = 32

end Spec
