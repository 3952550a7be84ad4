import Verif.Spec.Pipeline
import Verif.Spec.ReadBack
import Verif.Model.Text

/-!
Lines of a text, and the lines that make the text assembler panic or loop, specified independently of the code.
-/

namespace Spec
open Midiasm

/-- The line without one carriage return at its end. -/
def chomp (l : Bytes) : Bytes := if l.getLast? = some 13 then l.dropLast else l

/-- The lines of a text: the stretches between newlines, without carriage return at the end. -/
inductive Lines : Bytes → List Bytes → Prop
  | nil : Lines [] []
  | last (l) : l ≠ [] → 10 ∉ l → Lines l [chomp l]
  | cons (l rest ls) : 10 ∉ l → Lines rest ls → Lines (l ++ 10 :: rest) (chomp l :: ls)

/-- White space of Unicode. -/
def whiteSpace : List Nat := [9, 10, 11, 12, 13, 32, 0x85, 0xa0, 0x1680, 0x2000, 0x2001, 0x2002, 0x2003, 0x2004, 0x2005, 0x2006, 0x2007,
  0x2008, 0x2009, 0x200a, 0x2028, 0x2029, 0x202f, 0x205f, 0x3000]

/-- A comment. -/
def Comment (l : Bytes) : Prop := str "%%" <+: l

/-- A line that holds no event: a comment, or only white space. -/
def Empty (l : Bytes) : Prop := Comment l ∨ ∀ r ∈ runes l, r ∈ whiteSpace

/-- The value of a string of digits. -/
def Numeral (s : Bytes) (n : Nat) : Prop :=
  s ≠ [] ∧ (∀ b ∈ s, 48 ≤ b.toNat ∧ b.toNat ≤ 57) ∧ s.foldl (fun a b => 10 * a + (b.toNat - 48)) 0 = n

/-- Numbers separated by white space. -/
def Columns : List Nat → Bytes → Prop
  | [], s => s = []
  | [n], s => Numeral s n
  | n :: ns, s => ∃ a w b, s = a ++ (w ++ b) ∧ Numeral a n ∧ w ≠ [] ∧ (∀ c ∈ w, c ∈ ([9, 10, 12, 13, 32] : Bytes)) ∧ Columns ns b

/-- A line of an SMPTE offset out of range: hour, minute, second or frame. -/
def BadOffset (l : Bytes) : Prop :=
  FirstOf keywords (Occurs · l) "SMPTEOffset" ∧ ∃ h m s r f ff t, Columns [h, m, s, r, f, ff] t ∧ t <:+: l ∧
    (24 < h ∨ 59 < m ∨ 59 < s ∨ r ≤ f)

/-- A line of a time signature with a denominator from 129 to 255. -/
def BadTime (l : Bytes) : Prop :=
  FirstOf keywords (Occurs · l) "TimeSignature" ∧ ∃ d, 129 ≤ d ∧ d ≤ 255 ∧ str "/" ++ (dec d ++ str ",") <:+: l

/-- A track without events. -/
def NoEvents (chunk : List Bytes) : Prop :=
  ∃ l t, chunk = l :: t ∧ str "MTrk" <:+: l ∧ ¬ Comment l ∧ ∀ x ∈ t, Empty x

/-- The first line that contains `MThd` is a comment. -/
def HeaderComment (lines : List Bytes) : Prop :=
  ∃ a l b, lines = a ++ l :: b ∧ (∀ x ∈ a, ¬ str "MThd" <:+: x) ∧ str "MThd" <:+: l ∧ Comment l

end Spec
