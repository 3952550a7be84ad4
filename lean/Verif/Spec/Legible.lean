import Verif.Spec.Wire
import Mathlib.Data.List.Forall2

/-!
What a reader of an exported document can tell of the events.
-/

namespace Spec

/-- The characters that a reader sees of the bytes of a text: those that UTF-8 encodes, and the replacement character for a byte that no
character starts with. -/
inductive ReadsAs : List UInt8 → List Char → Prop
  | done : ReadsAs [] []
  | char (c : Char) (s : List UInt8) (cs : List Char) : ReadsAs s cs → ReadsAs (String.utf8EncodeChar c ++ s) (c :: cs)
  | bad (b : UInt8) (s : List UInt8) (cs : List Char) : (∀ c, ¬ String.utf8EncodeChar c <+: b :: s) → ReadsAs s cs → ReadsAs (b :: s) ('\uFFFD' :: cs)

/-- Events with the same fields, or texts of the same type that read as the same characters. -/
inductive SameShown : Content → Content → Prop
  | same (c : Content) : SameShown c c
  | text (type : Nat) (s s' : List UInt8) (cs : List Char) : ReadsAs s cs → ReadsAs s' cs → SameShown (.text type s) (.text type s')

/-- The same delta times, and events that a reader cannot tell apart. -/
def SameTracks (a b : List (List (Nat × Content))) : Prop := List.Forall₂ (List.Forall₂ fun x y => x.1 = y.1 ∧ SameShown x.2 y.2) a b

/-- A text, if it is one, is UTF-8. -/
def Legible : Content → Prop
  | .text _ s => ∃ cs : List Char, s = cs.flatMap String.utf8EncodeChar
  | _ => True

end Spec
