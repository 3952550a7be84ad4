import Verif.Spec.Lines
import Verif.Spec.Pipeline

/-!
Texts that differ in blank lines and comments only.
-/

namespace Spec
open Midiasm

/-- A line that does not count: a comment or only white space, without the tag of a chunk. -/
def IdleLine (l : Bytes) : Prop := Empty l ∧ ¬ Starts l

/-- Lines that are the same in the same order, apart from lines that do not count. -/
inductive SameLines : List Bytes → List Bytes → Prop
  | nil : SameLines [] []
  | same (l a b) : SameLines a b → SameLines (l :: a) (l :: b)
  | left (l a b) : IdleLine l → SameLines a b → SameLines (l :: a) b
  | right (l a b) : IdleLine l → SameLines a b → SameLines a (l :: b)

/-- The text with a carriage return before each newline. -/
def withReturns (text : Bytes) : Bytes := text.flatMap fun c => if c = 10 then [13, 10] else [c]

end Spec
