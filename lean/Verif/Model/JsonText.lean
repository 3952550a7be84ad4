import Verif.Model.Json
import Verif.Model.AssembleJson

/-!
JSON texts (Go standard library `encoding/json`): what `json.MarshalIndent` writes and what `json.Decoder` reads.
-/

namespace Midiasm

/-! ### Writing -/

/-- A lower case hexadecimal digit. -/
def lowerHex (n : Nat) : UInt8 := UInt8.ofNat (if n < 10 then 48 + n else 87 + n)

/-- `\uXXXX`. -/
def unicodeEscape (r : Nat) : Bytes :=
  [92, 117, lowerHex (r / 4096 % 16), lowerHex (r / 256 % 16), lowerHex (r / 16 % 16), lowerHex (r % 16)]

/-- One character of a string (`appendString` with HTML escaping): a byte that is not UTF-8 is written as the escape of the replacement
character.  Simplification: backspace and form feed are written as by Go 1.22 and later. -/
def writeRune (r : Nat) : Bytes :=
  if r = 34 then [92, 34]
  else if r = 92 then [92, 92]
  else if r = 8 then [92, 98]
  else if r = 12 then [92, 102]
  else if r = 10 then [92, 110]
  else if r = 13 then [92, 114]
  else if r = 9 then [92, 116]
  else if r < 32 ∨ r = 60 ∨ r = 62 ∨ r = 38 ∨ r = 0x2028 ∨ r = 0x2029 then unicodeEscape r
  else if r = noRune then unicodeEscape runeError
  else encodeRune r

/-- A string. -/
def writeString (s : List Nat) : Bytes := [34] ++ s.flatMap writeRune ++ [34]

/-- A new line and the indentation. -/
def newline (depth : Nat) : Bytes := 10 :: List.replicate (2 * depth) 32

mutual
/-- A value at the given depth: `json.MarshalIndent(v, "", "  ")`. -/
def writeJson (depth : Nat) : Json → Bytes
  | .null => str "null"
  | .bool b => if b then str "true" else str "false"
  | .num lit => lit
  | .str s => writeString s
  | .arr [] => str "[]"
  | .arr (j :: js) => [91] ++ newline (depth + 1) ++ writeJson (depth + 1) j ++ writeElements (depth + 1) js ++ newline depth ++ [93]
  | .obj [] => str "{}"
  | .obj ((k, j) :: ms) =>
      [123] ++ newline (depth + 1) ++ writeString k ++ [58, 32] ++ writeJson (depth + 1) j ++ writeMembers (depth + 1) ms ++ newline depth ++ [125]
/-- The elements of an array after the first. -/
def writeElements (depth : Nat) : List Json → Bytes
  | [] => []
  | j :: js => [44] ++ newline depth ++ writeJson depth j ++ writeElements depth js
/-- The members of an object after the first. -/
def writeMembers (depth : Nat) : List (List Nat × Json) → Bytes
  | [] => []
  | (k, j) :: ms => [44] ++ newline depth ++ writeString k ++ [58, 32] ++ writeJson depth j ++ writeMembers depth ms
end

/-- `Export.Export` (ops/export/export.go:15-24): the text written. -/
def exportText (smf : SMF) : Bytes := writeJson 0 (exportJsonWith noRune smf)

/-! ### Reading -/

/-- White space. -/
def jsonSpace (c : UInt8) : Bool := c = 32 || c = 9 || c = 10 || c = 13

/-- Skips white space. -/
def skipSpace (s : Bytes) : Bytes := s.dropWhile jsonSpace

/-- Value of a hexadecimal digit. -/
def hexNat (c : UInt8) : Option Nat := (hexValue c).map (·.toNat)

/-- Four hexadecimal digits (`getu4`). -/
def readHex4 : Bytes → Option (Nat × Bytes)
  | a :: b :: c :: d :: rest => do
    let a ← hexNat a
    let b ← hexNat b
    let c ← hexNat c
    let d ← hexNat d
    some (((a * 16 + b) * 16 + c) * 16 + d, rest)
  | _ => none

/-- The escape after `\u`: surrogates must come in pairs, otherwise they are replaced (`unquoteBytes`). -/
def readUnicode (s : Bytes) : Option (Nat × Bytes) := do
  let (r, rest) ← readHex4 s
  if 0xd800 ≤ r ∧ r < 0xe000 then
    match rest with
    | 92 :: 117 :: rest' =>
      match readHex4 rest' with
      | some (r', rest'') =>
        if r < 0xdc00 ∧ 0xdc00 ≤ r' ∧ r' < 0xe000 then some ((r - 0xd800) * 1024 + (r' - 0xdc00) + 0x10000, rest'') else some (runeError, rest)
      | none => some (runeError, rest)
    | _ => some (runeError, rest)
  else some (r, rest)

/-- A character of a string: the character and what follows; `none` at the end or on an error. -/
def readChar : Bytes → Option (Nat × Bytes)
  | [] => none
  | c :: rest =>
    if c = 92 then
      match rest with
      | e :: rest' =>
        if e = 34 ∨ e = 92 ∨ e = 47 then some (e.toNat, rest')
        else if e = 98 then some (8, rest')
        else if e = 102 then some (12, rest')
        else if e = 110 then some (10, rest')
        else if e = 114 then some (13, rest')
        else if e = 116 then some (9, rest')
        else if e = 117 then readUnicode rest'
        else none
      | [] => none
    else if c < 32 then none
    else some ((decodeRune c rest).1, rest.drop (decodeRune c rest).2)

/-- The rest of a string after the quote.  `fuel` is the length of the text. -/
def readStringLoop : Nat → Bytes → Option (List Nat × Bytes)
  | 0, _ => none
  | fuel + 1, s =>
    match s with
    | 34 :: rest => some ([], rest)
    | _ => do
      let (r, rest) ← readChar s
      let (rs, rest) ← readStringLoop fuel rest
      some (r :: rs, rest)

/-- A string with its quotes. -/
def readString (s : Bytes) : Option (List Nat × Bytes) :=
  match s with
  | 34 :: rest => readStringLoop rest.length rest
  | _ => none

/-- A decimal digit. -/
def isDigit (c : UInt8) : Bool := 48 ≤ c && c ≤ 57

/-- Digits, at least one. -/
def readDigits (s : Bytes) : Option (Bytes × Bytes) :=
  match s.takeWhile isDigit with
  | [] => none
  | ds => some (ds, s.dropWhile isDigit)

/-- The integer part of a number: no zeros in front. -/
def readInteger (s : Bytes) : Option (Bytes × Bytes) :=
  match s with
  | 48 :: rest => some ([48], rest)
  | _ => readDigits s

/-- The fraction of a number, if there is one. -/
def readFraction (s : Bytes) : Option (Bytes × Bytes) :=
  match s with
  | 46 :: rest => (readDigits rest).map fun (ds, rest) => (46 :: ds, rest)
  | _ => some ([], s)

/-- The exponent of a number, if there is one. -/
def readExponent (s : Bytes) : Option (Bytes × Bytes) :=
  match s with
  | c :: rest =>
    if c = 69 ∨ c = 101 then
      match rest with
      | g :: rest' =>
        if g = 43 ∨ g = 45 then (readDigits rest').map fun (ds, rest) => (c :: g :: ds, rest)
        else (readDigits rest).map fun (ds, rest) => (c :: ds, rest)
      | [] => none
    else some ([], s)
  | [] => some ([], s)

/-- A number: the literal. -/
def readNumber (s : Bytes) : Option (Bytes × Bytes) := do
  let (sign, rest) := match s with | 45 :: rest => (([45] : Bytes), rest) | _ => ([], s)
  let (i, rest) ← readInteger rest
  let (f, rest) ← readFraction rest
  let (e, rest) ← readExponent rest
  some (sign ++ i ++ f ++ e, rest)

mutual
/-- A value at the start of the text; at most `depth` arrays and objects inside each other. -/
def readValue : Nat → Nat → Bytes → Option (Json × Bytes)
  | 0, _, _ => none
  | fuel + 1, depth, s =>
    match s with
    | [] => none
    | c :: rest =>
      if c = 110 then (if (str "ull").isPrefixOf rest then some (.null, rest.drop 3) else none)
      else if c = 116 then (if (str "rue").isPrefixOf rest then some (.bool true, rest.drop 3) else none)
      else if c = 102 then (if (str "alse").isPrefixOf rest then some (.bool false, rest.drop 4) else none)
      else if c = 34 then (readString s).map fun (rs, rest) => (.str rs, rest)
      else if c = 91 then
        match depth with
        | 0 => none
        | depth + 1 =>
          match skipSpace rest with
          | 93 :: rest => some (.arr [], rest)
          | rest => (readElements fuel depth rest).map fun (l, rest) => (.arr l, rest)
      else if c = 123 then
        match depth with
        | 0 => none
        | depth + 1 =>
          match skipSpace rest with
          | 125 :: rest => some (.obj [], rest)
          | rest => (readMembers fuel depth rest).map fun (l, rest) => (.obj l, rest)
      else (readNumber s).map fun (lit, rest) => (.num lit, rest)
/-- The elements of an array and the bracket. -/
def readElements : Nat → Nat → Bytes → Option (List Json × Bytes)
  | 0, _, _ => none
  | fuel + 1, depth, s => do
    let (j, rest) ← readValue fuel depth s
    match skipSpace rest with
    | 44 :: rest => do
      let (js, rest) ← readElements fuel depth (skipSpace rest)
      some (j :: js, rest)
    | 93 :: rest => some ([j], rest)
    | _ => none
/-- The members of an object and the brace. -/
def readMembers : Nat → Nat → Bytes → Option (List (List Nat × Json) × Bytes)
  | 0, _, _ => none
  | fuel + 1, depth, s => do
    let (k, rest) ← readString s
    match skipSpace rest with
    | 58 :: rest => do
      let (j, rest) ← readValue fuel depth (skipSpace rest)
      match skipSpace rest with
      | 44 :: rest => do
        let (ms, rest) ← readMembers fuel depth (skipSpace rest)
        some ((k, j) :: ms, rest)
      | 125 :: rest => some ([(k, j)], rest)
      | _ => none
    | _ => none
end

/-- The first value of a text, as `json.Decoder.Decode` reads it: nesting up to 10000, what follows is not looked at.  Go rejects some
texts that start with a number, string, `true`, `false` or `null` because of what follows; decoding such a value into a struct never gives
a file either way. -/
def readJson (text : Bytes) : Option Json := (readValue (text.length + 1) 10000 (skipSpace text)).map (·.1)

/-- `JSONAssembler.Assemble` (ops/assemble/json.go:34-75) of a reader that yields exactly `text`. -/
def assembleJsonText (mc : MiddleC) (text : Bytes) : Outcome Bytes :=
  match readJson text with
  | none => .err .other
  | some j => assembleJson mc j

end Midiasm
