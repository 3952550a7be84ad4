import Verif.Model.Go
import Mathlib.Data.List.Forall2

/-!
Hexadecimal text and characters, specified independently of the code.  Only the byte encoding of string literals (`str`) is
shared with the model.
-/

namespace Spec
open Midiasm

/-- The character is the hexadecimal digit of value `v`, in upper or lower case. -/
def HexDigit (c : UInt8) (v : Nat) : Prop :=
  (str "0123456789ABCDEF")[v]? = some c ∨ (str "0123456789abcdef")[v]? = some c

/-- Tab, line feed, form feed, carriage return, blank. -/
def blanks : List UInt8 := [9, 10, 12, 13, 32]

/-- The text denotes the bytes: without blanks it consists of two digits per byte. -/
def HexText (s bs : Bytes) : Prop :=
  List.Forall₂ HexDigit (s.filter (fun c => decide (c ∉ blanks))) (bs.flatMap (fun b => [b.toNat / 16, b.toNat % 16]))

/-- The upper case hexadecimal digit of value `v`. -/
def upperDigit (v : Nat) : UInt8 := (str "0123456789ABCDEF").getD v 0

/-- Two upper case digits per byte, one blank between bytes. -/
def hexDisplay (bs : Bytes) : Bytes := List.intercalate [32] (bs.map (fun b => [upperDigit (b.toNat / 16), upperDigit (b.toNat % 16)]))

/-- A Unicode scalar value. -/
def Scalar (v : Nat) : Prop := v < 0xd800 ∨ (0xe000 ≤ v ∧ v < 0x110000)

/-- The bytes are the UTF-8 encoding of the characters. -/
def IsText (s : Bytes) (cs : List Char) : Prop := s = cs.flatMap String.utf8EncodeChar

end Spec
