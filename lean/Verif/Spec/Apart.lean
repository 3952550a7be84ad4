import Verif.Spec.Disassembly

/-!
Events whose variable length quantities are of the size that the standard allows.
-/

namespace Spec

/-- What follows the status byte of a system exclusive event, or the type of a meta event: it starts with the length. -/
def lengthField (bs : List UInt8) : List UInt8 :=
  match bs.drop (deltaBytes bs) with
  | [] => []
  | s :: r => if s = 0xff then r.drop 1 else if s = 0xf0 ∨ s = 0xf7 then r else []

/-- The delta time and the length, if any, take at most four bytes each. -/
def ShortForm (bs : List UInt8) : Prop := deltaBytes bs ≤ 4 ∧ deltaBytes (lengthField bs) ≤ 4

end Spec
