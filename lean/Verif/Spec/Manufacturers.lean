import Verif.Spec.Json

/-!
Manufacturer configurations.
-/

namespace Spec
open Midiasm

/-- IDs that stand for the same manufacturer: the first byte of a long ID does not count. -/
def SameMaker : Bytes → Bytes → Prop
  | [a], [b] => a = b
  | [_, b, c], [_, b', c'] => b = b' ∧ c = c'
  | _, _ => False

/-- A byte of a configured ID: a number, of which only the last eight bits count; zero for `null`.  If the ID is given several times
there are several values at the place of the byte, of which the last number counts. -/
def IdByte (vs : List Json) (b : UInt8) : Prop :=
  (∀ v ∈ vs, v = .null) ∧ b = 0 ∨
    ∃ before lit n after, vs = before ++ .num lit :: after ∧ (∀ v ∈ after, v = .null) ∧ Numeral lit n ∧ b = UInt8.ofNat n

/-- The ID of a configured manufacturer. -/
def IdOf (m : Json) (id : Bytes) : Prop := List.Forall₂ IdByte (stacked (lastArrays (valuesOf "id" m))) id

/-- The configuration has the manufacturers with these IDs. -/
def Configures (j : Json) (ids : List Bytes) : Prop :=
  (∃ ms, Last "manufacturers" j (.arr ms) ∧ List.Forall₂ IdOf ms ids) ∨
    ids = [] ∧ ((∀ v, ¬ Member "manufacturers" j v) ∨ Last "manufacturers" j .null)

/-- The last of the elements with a property. -/
def LastWith {α : Type} (p : α → Prop) (l : List α) (x : α) : Prop := ∃ a b, l = a ++ x :: b ∧ p x ∧ ∀ y ∈ b, ¬ p y

end Spec
