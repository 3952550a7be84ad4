import Verif.Spec.CommandLine

/-!
The options that README.md lists.
-/

namespace Spec
open Midiasm

/-- The options of a command according to README.md:64-220; `help`, `version` and `humanise` have none there. -/
def documented : Command → List (String × FlagKind)
  | .disassemble => [("C4", .bool), ("debug", .bool), ("verbose", .bool), ("out", .string), ("split", .bool)]
  | .assemble => [("C4", .bool), ("debug", .bool), ("verbose", .bool), ("out", .string)]
  | .export_ => [("C4", .bool), ("debug", .bool), ("verbose", .bool), ("out", .string), ("json", .bool), ("transpose", .int)]
  | .notes => [("C4", .bool), ("debug", .bool), ("verbose", .bool), ("out", .string)]
  | .click => [("C4", .bool), ("debug", .bool), ("verbose", .bool), ("out", .string)]
  | .transpose => [("C4", .bool), ("debug", .bool), ("verbose", .bool), ("semitones", .int), ("out", .string)]
  | .tsv => [("C4", .bool), ("debug", .bool), ("verbose", .bool), ("out", .string), ("delimiter", .string), ("tabular", .bool)]
  | .humanise => []
  | .help => []
  | .version => []

end Spec
