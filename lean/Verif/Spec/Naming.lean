import Verif.Spec.View

/-!
Music an octave lower.
-/

namespace Spec

/-- The event with its note an octave lower. -/
def octaveLower : Content → Content
  | .noteOff ch k v => .noteOff ch (k - 12) v
  | .noteOn ch k v => .noteOn ch (k - 12) v
  | c => c

end Spec
