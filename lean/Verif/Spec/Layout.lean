import Verif.Model.Go

/-!
The layout of a JSON text, checked byte by byte.
-/

namespace Spec
open Midiasm

/-- Outside strings, in a string, or after a backslash in a string. -/
inductive Part
  | code | string | escape
  deriving DecidableEq

/-- A closing bracket or brace. -/
def Closer (c : UInt8) : Prop := c = 93 ∨ c = 125

/-- After a line end: two blanks for each bracket or brace that is open, not counting one closed first thing on the line; then something. -/
def Level (depth : Nat) (rest : Bytes) : Prop :=
  ∃ c t, c ≠ 32 ∧ ((¬ Closer c ∧ rest = List.replicate (2 * depth) 32 ++ c :: t) ∨
    (Closer c ∧ rest = List.replicate (2 * (depth - 1)) 32 ++ c :: t))

/-- The text, after the byte `prev` and with `depth` brackets and braces open, is laid out in lines: a line end after every opening bracket and
brace, unless it is closed at once, after every comma and before every closing bracket and brace, nowhere else; lines indented by two blanks for
each level; one blank after each colon; no other blanks. -/
def LaidOut : Part → UInt8 → Nat → Bytes → Prop
  | part, _, depth, [] => part = .code ∧ depth = 0
  | .string, _, depth, c :: rest =>
      c ≠ 10 ∧ (if c = 34 then LaidOut .code c depth rest else if c = 92 then LaidOut .escape c depth rest else LaidOut .string c depth rest)
  | .escape, _, depth, c :: rest => c ≠ 10 ∧ LaidOut .string c depth rest
  | .code, prev, depth, c :: rest =>
      if c = 34 then LaidOut .string c depth rest
      else if c = 91 ∨ c = 123 then (rest.head? = some 10 ∨ rest.head? = some (c + 2)) ∧ LaidOut .code c (depth + 1) rest
      else if c = 93 ∨ c = 125 then (prev = 10 ∨ prev = 32 ∨ prev = c - 2) ∧ 0 < depth ∧ LaidOut .code c (depth - 1) rest
      else if c = 44 then rest.head? = some 10 ∧ LaidOut .code c depth rest
      else if c = 58 then (∃ x t, rest = 32 :: x :: t ∧ x ≠ 32 ∧ x ≠ 10) ∧ LaidOut .code c depth rest
      else if c = 32 then (prev = 10 ∨ prev = 32 ∨ prev = 58) ∧ LaidOut .code c depth rest
      else if c = 10 then Level depth rest ∧ ((prev = 91 ∨ prev = 123 ∨ prev = 44) ∨ ∃ x ∈ (rest.dropWhile (· = 32)).head?, Closer x) ∧
        LaidOut .code c depth rest
      else LaidOut .code c depth rest

/-- Text in UTF-8 without control characters other than line ends and without `<`, `>`, `&` and the two Unicode line separators. -/
def Safe (s : Bytes) : Prop :=
  ∃ cs : List Char, s = cs.flatMap String.utf8EncodeChar ∧
    ∀ c ∈ cs, (c = '\n' ∨ 32 ≤ c.val.toNat) ∧ c ∉ ['<', '>', '&', '\u2028', '\u2029']

end Spec
