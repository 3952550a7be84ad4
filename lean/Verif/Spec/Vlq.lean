import Verif.Model.Go

/-!
Variable length quantities, specified independently of the code: base-128 digits, most significant first, bit 7 set on
every byte but the last.
-/

namespace Spec

/-- Value of a byte string read as base-128 digits (the low seven bits of each byte), most significant digit first. -/
def value128 (bs : List UInt8) : Nat := bs.foldl (fun n b => n * 128 + b.toNat % 128) 0

/-- Every byte but the last has bit 7 set and the last has it clear. -/
def Terminated (bs : List UInt8) : Prop :=
  ∃ init last, bs = init ++ [last] ∧ (∀ b ∈ init, 128 ≤ b.toNat) ∧ last.toNat < 128

/-- `bs` is a variable length quantity of value `n`, possibly with redundant leading digits. -/
def IsVLQ (bs : List UInt8) (n : Nat) : Prop := Terminated bs ∧ value128 bs = n

/-- The shortest form: no redundant leading zero digit. -/
def Canonical (bs : List UInt8) : Prop := bs.head? ≠ some 0x80

end Spec
