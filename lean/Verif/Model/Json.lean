import Verif.Model.Regex

/-!
JSON values and their conversion to Go variables (Go standard library `encoding/json`).

A value is the tree of a JSON text: strings as Unicode code points, numbers as written.  What `json.Unmarshal` does with a value
depends on the type of the variable: the functions below take the current value of the variable and the JSON value.  The first error
does not stop `Unmarshal`, but the result is discarded on every error, so the functions stop at the first one.
-/

namespace Midiasm

/-- A JSON value.  Members of an object in the order of the text, repeated names included. -/
inductive Json where
  | null
  | bool (b : Bool)
  | num (lit : Bytes)
  | str (s : List Nat)
  | arr (l : List Json)
  | obj (ms : List (List Nat × Json))

/-- `foldRune` of `encoding/json`, for the comparison with names of ASCII characters: letters in upper case, and the two other
characters whose case folding is an ASCII letter (long s, Kelvin sign).  Simplification: other characters are left as they are; they
never fold to ASCII. -/
def foldRune (r : Nat) : Nat :=
  if 97 ≤ r ∧ r ≤ 122 then r - 32 else if r = 0x17f then 83 else if r = 0x212a then 75 else r

/-- The name of a member is that of a field, regardless of case.  `encoding/json` prefers an exact match; no struct here has two fields
whose names differ in case only, so the result is the same. -/
def keyIs (name : String) (key : List Nat) : Bool := key.map foldRune == (runes (str name)).map foldRune

/-- Decoding into one field of a struct variable: all members with that name in turn.  `null` leaves the struct as it is; other values
than objects are errors. -/
def field {α : Type} (d : α → Json → Outcome α) (name : String) (cur : α) : Json → Outcome α
  | .null => .ok cur
  | .obj ms => (ms.filter fun m => keyIs name m.1).foldlM (fun a m => d a m.2) cur
  | _ => .err .other

/-- An unsigned integer of `bits` bits. -/
def uintJson (bits : Nat) (cur : Nat) : Json → Outcome Nat
  | .null => .ok cur
  | .num lit => parseUint lit bits
  | _ => .err .other

/-- An `int8`. -/
def int8Json (cur : Int) : Json → Outcome Int
  | .null => .ok cur
  | .num lit => parseInt8 lit
  | _ => .err .other

/-- A `string`. -/
def stringJson (cur : Bytes) : Json → Outcome Bytes
  | .null => .ok cur
  | .str s => .ok (ofRunes s)
  | _ => .err .other

/-- A `bool`. -/
def boolJson (cur : Bool) : Json → Outcome Bool
  | .null => .ok cur
  | .bool b => .ok b
  | _ => .err .other

/-- A pointer to a value that is `zero` when it is allocated. -/
def ptrJson {α : Type} (d : α → Json → Outcome α) (zero : α) (cur : Option α) : Json → Outcome (Option α)
  | .null => .ok none
  | j => do .ok (some (← d (cur.getD zero) j))

/-- A slice: its elements, and what is left behind them in its array.  Behind that the array, as far as it goes, has zero values; how far
it goes makes no difference, as it is extended with zero values if need be. -/
structure Slice (α : Type) where
  els : List α
  behind : List α

/-- The elements of an array that is decoded into the cells of a slice.  An element is decoded into what is in the cell, from an earlier
member of the same name; cells that are not used stay behind the slice (`array` of `encoding/json`). -/
def elementsJson {α : Type} (d : α → Json → Outcome α) (zero : α) : List α → List Json → Outcome (Slice α)
  | cells, [] => .ok ⟨[], cells⟩
  | cells, j :: js => do
    let a ← d (cells.headD zero) j
    let s ← elementsJson d zero cells.tail js
    .ok ⟨a :: s.els, s.behind⟩

/-- A slice.  `null` and an empty array make a new one. -/
def sliceJson {α : Type} (d : α → Json → Outcome α) (zero : α) (cur : Slice α) : Json → Outcome (Slice α)
  | .null => .ok ⟨[], []⟩
  | .arr [] => .ok ⟨[], []⟩
  | .arr (j :: js) => elementsJson d zero (cur.els ++ cur.behind) (j :: js)
  | _ => .err .other

/-- A `json.RawMessage`. -/
def rawJson (_ : Option Json) (j : Json) : Outcome (Option Json) := .ok (some j)

/-- A `[]json.RawMessage`: nothing is left of the earlier content of a cell, so only the elements count. -/
def rawsJson (_ : List Json) : Json → Outcome (List Json)
  | .null => .ok []
  | .arr l => .ok l
  | _ => .err .other

/-! ### Values written by `json.Marshal` -/

/-- An unsigned number. -/
def jnum (n : Nat) : Json := .num (dec n)

/-- A signed number. -/
def jint (n : Int) : Json := .num (if n < 0 then 45 :: dec n.natAbs else dec n.natAbs)

/-- A string: bytes that are not UTF-8 are replaced. -/
def jstr (s : Bytes) : Json := .str (runes s)

/-- Stands for a byte that is not UTF-8, until the string is written: no character. -/
def noRune : Nat := 0x110000

/-- The characters of a string with fuel; a byte that is not UTF-8 becomes `bad` (`utf8.DecodeRuneInString` gives the replacement character
and the size 1, which for the replacement character itself is 3). -/
def runesWithAux (bad : Nat) : Nat → Bytes → List Nat
  | 0, _ => []
  | _, [] => []
  | fuel + 1, b :: rest =>
      (if (decodeRune b rest).1 = runeError ∧ (decodeRune b rest).2 = 0 then bad else (decodeRune b rest).1) ::
        runesWithAux bad fuel (rest.drop (decodeRune b rest).2)

/-- The characters of a string; a byte that is not UTF-8 becomes `bad`. -/
def runesWith (bad : Nat) (s : Bytes) : List Nat := runesWithAux bad s.length s

/-- A string, a byte that is not UTF-8 as `bad`. -/
def jstrWith (bad : Nat) (s : Bytes) : Json := .str (runesWith bad s)

/-- A struct. -/
def jobj (ms : List (String × Json)) : Json := .obj (ms.map fun m => (runes (str m.1), m.2))

end Midiasm
