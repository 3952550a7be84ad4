import Verif.Model.Json
import Verif.Spec.Text

/-!
JSON texts (RFC 8259), specified independently of the reader and the writer.
-/

namespace Spec
open Midiasm

/-- White space of JSON texts. -/
def Space (s : Bytes) : Prop := ∀ c ∈ s, c ∈ ([32, 9, 10, 13] : Bytes)

/-- Decimal digits, at least one. -/
def Digits (s : Bytes) : Prop := s ≠ [] ∧ ∀ c ∈ s, 48 ≤ c.toNat ∧ c.toNat ≤ 57

/-- A number. -/
def NumberText (s : Bytes) : Prop :=
  ∃ sign int frac exp, s = sign ++ int ++ frac ++ exp ∧ (sign = [] ∨ sign = str "-") ∧
    (int = str "0" ∨ (Digits int ∧ int.head? ≠ some 48)) ∧
    (frac = [] ∨ ∃ ds, frac = str "." ++ ds ∧ Digits ds) ∧
    (exp = [] ∨ ∃ e g ds, exp = e ++ g ++ ds ∧ (e = str "e" ∨ e = str "E") ∧ (g = [] ∨ g = str "+" ∨ g = str "-") ∧ Digits ds)

/-- Four hexadecimal digits. -/
def Hex4 (n : Nat) (s : Bytes) : Prop :=
  ∃ a b c d, s = [a, b, c, d] ∧ n < 65536 ∧ HexDigit a (n / 4096) ∧ HexDigit b (n / 256 % 16) ∧ HexDigit c (n / 16 % 16) ∧ HexDigit d (n % 16)

/-- One character of a string: as it is, or escaped. -/
def CharText (r : Nat) (s : Bytes) : Prop :=
  (∃ c : Char, c.val.toNat = r ∧ s = String.utf8EncodeChar c ∧ 32 ≤ r ∧ r ≠ 34 ∧ r ≠ 92) ∨
  (r, s) ∈ ([(34, str "\\\""), (92, str "\\\\"), (47, str "\\/"), (8, str "\\b"), (12, str "\\f"), (10, str "\\n"), (13, str "\\r"),
    (9, str "\\t")] : List (Nat × Bytes)) ∨
  (Scalar r ∧ ∃ h, s = str "\\u" ++ h ∧ Hex4 r h) ∨
  (0x10000 ≤ r ∧ r < 0x110000 ∧ ∃ h l, s = str "\\u" ++ h ++ str "\\u" ++ l ∧ Hex4 (0xd800 + (r - 0x10000) / 1024) h ∧
    Hex4 (0xdc00 + (r - 0x10000) % 1024) l)

/-- What a reader replaces: a byte that is not part of a character, or half of a surrogate pair, both by the replacement character. -/
def Replaced (r : Nat) (s : Bytes) : Prop :=
  r = 0xfffd ∧ ((∃ b : UInt8, s = [b] ∧ 128 ≤ b.toNat) ∨ ∃ n h, s = str "\\u" ++ h ∧ Hex4 n h ∧ 0xd800 ≤ n ∧ n < 0xe000)

/-- The characters of a string. -/
def Chars : List Nat → Bytes → Prop
  | [], s => s = []
  | r :: rs, s => ∃ a t, s = a ++ t ∧ CharText r a ∧ Chars rs t

/-- The characters that a lenient reader makes of a string: where no character begins, something may be replaced. -/
def CharsRead : List Nat → Bytes → Prop
  | [], s => s = []
  | r :: rs, s => ∃ a t, s = a ++ t ∧ (CharText r a ∨ (∀ r' a' t', s = a' ++ t' → ¬ CharText r' a') ∧ Replaced r a) ∧ CharsRead rs t

/-- A string with its quotes, its characters as `C` tells. -/
def StringText (C : List Nat → Bytes → Prop) (rs : List Nat) (s : Bytes) : Prop := ∃ t, s = [34] ++ t ++ [34] ∧ C rs t

mutual
/-- The text `s` represents the value. -/
def JsonText (C : List Nat → Bytes → Prop) : Json → Bytes → Prop
  | .null, s => s = str "null"
  | .bool b, s => s = if b then str "true" else str "false"
  | .num lit, s => s = lit ∧ NumberText lit
  | .str rs, s => StringText C rs s
  | .arr l, s => ∃ t, s = [91] ++ t ++ [93] ∧ ElementsText C l t
  | .obj ms, s => ∃ t, s = [123] ++ t ++ [125] ∧ MembersText C ms t
/-- The elements of an array, separated by commas. -/
def ElementsText (C : List Nat → Bytes → Prop) : List Json → Bytes → Prop
  | [], t => Space t
  | j :: js, t => ∃ a s b, Space a ∧ Space b ∧ JsonText C j s ∧
      ((js = [] ∧ t = a ++ s ++ b) ∨ (js ≠ [] ∧ ∃ t', ElementsText C js t' ∧ t = a ++ s ++ b ++ [44] ++ t'))
/-- The members of an object, separated by commas. -/
def MembersText (C : List Nat → Bytes → Prop) : List (List Nat × Json) → Bytes → Prop
  | [], t => Space t
  | (k, j) :: ms, t => ∃ a n b c s d, Space a ∧ Space b ∧ Space c ∧ Space d ∧ StringText C k n ∧ JsonText C j s ∧
      ((ms = [] ∧ t = a ++ n ++ b ++ [58] ++ c ++ s ++ d) ∨
        (ms ≠ [] ∧ ∃ t', MembersText C ms t' ∧ t = a ++ n ++ b ++ [58] ++ c ++ s ++ d ++ [44] ++ t'))
end

mutual
/-- How many arrays and objects are inside each other. -/
def nesting : Json → Nat
  | .arr l => 1 + nestingElements l
  | .obj ms => 1 + nestingMembers ms
  | _ => 0
/-- The nesting of the elements. -/
def nestingElements : List Json → Nat
  | [] => 0
  | j :: js => max (nesting j) (nestingElements js)
/-- The nesting of the members. -/
def nestingMembers : List (List Nat × Json) → Nat
  | [] => 0
  | (_, j) :: ms => max (nesting j) (nestingMembers ms)
end

end Spec
