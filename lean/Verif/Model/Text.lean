import Verif.Model.Go

/-!
Strings: formatting of numbers, hexadecimal strings (midi/lib/hex.go), UTF-8 and the column functions of the
disassembler (ops/disassemble/disassemble.go).
-/

namespace Midiasm

/-- Digits of a number, most significant first; `fuel` larger than the number is enough. -/
def decAux : Nat → Nat → Bytes
  | 0, _ => []
  | fuel + 1, n => if n < 10 then [UInt8.ofNat (48 + n)] else decAux fuel (n / 10) ++ [UInt8.ofNat (48 + n % 10)]

/-- `fmt` verb `%v` (and `%d`) of an unsigned integer (Go standard library). -/
def dec (n : Nat) : Bytes := decAux (n + 1) n

/-- `fmt` verb `%02v` of an unsigned integer (Go standard library). -/
def dec2 (n : Nat) : Bytes := if n < 10 then 48 :: dec n else dec n

/-- An upper case hexadecimal digit. -/
def hexDigit (n : UInt8) : UInt8 := if n < 10 then 48 + n else 55 + n

/-- `fmt` verb `%02X` of a byte (Go standard library). -/
def hex2 (b : UInt8) : Bytes := [hexDigit (b >>> 4), hexDigit (b &&& 0x0f)]

/-- ASCII white space as removed by `strings.TrimSpace` (Go standard library). -/
def isSpace (b : UInt8) : Bool := b = 32 || (9 ≤ b && b ≤ 13)

/-- `strings.TrimSpace` (Go standard library) of a string of ASCII characters. -/
def trimSpace (s : Bytes) : Bytes := ((s.dropWhile isSpace).reverse.dropWhile isSpace).reverse

/-- `Hex.String` (midi/lib/hex.go:22-29). -/
def hexString (bytes : Bytes) : Bytes := trimSpace (bytes.flatMap (fun b => hex2 b ++ [32]))

/-- `\s` of Go regular expressions: tab, line feed, form feed, carriage return, blank. -/
def reSpace (b : UInt8) : Bool := b = 9 || b = 10 || b = 12 || b = 13 || b = 32

/-- `fromHexChar` of encoding/hex (Go standard library). -/
def hexValue (c : UInt8) : Option UInt8 :=
  if 48 ≤ c && c ≤ 57 then some (c - 48)
  else if 97 ≤ c && c ≤ 102 then some (c - 97 + 10)
  else if 65 ≤ c && c ≤ 70 then some (c - 65 + 10)
  else none

/-- `hex.DecodeString` (Go standard library): two digits per byte; an odd length is an error. -/
def hexDecode : Bytes → Outcome Bytes
  | [] => .ok []
  | [_] => .err .other
  | a :: b :: rest =>
      match hexValue a, hexValue b with
      | some x, some y => do
          let bs ← hexDecode rest
          .ok ((x <<< 4 ||| y) :: bs)
      | _, _ => .err .other

/-- `ParseHex` (midi/lib/hex.go:13-20): white space is removed by a regular expression. -/
def parseHex (s : Bytes) : Outcome Bytes := hexDecode (s.filter (fun b => !reSpace b))

/-! ### UTF-8 (Go standard library `unicode/utf8`) -/

/-- A UTF-8 continuation byte. -/
def isCont (b : UInt8) : Bool := 0x80 ≤ b && b ≤ 0xbf

/-- The replacement character. -/
def runeError : Nat := 0xfffd

/-- `utf8.DecodeRune` on a non-empty string starting with `b0`: the rune and the number of bytes after the first that belong
to it. -/
def decodeRune (b0 : UInt8) (rest : Bytes) : Nat × Nat :=
  if b0 < 0x80 then (b0.toNat, 0)
  else if b0 < 0xc2 then (runeError, 0)
  else if b0 < 0xe0 then
    match rest with
    | b1 :: _ => if isCont b1 then (b0.toNat % 32 * 64 + b1.toNat % 64, 1) else (runeError, 0)
    | _ => (runeError, 0)
  else if b0 < 0xf0 then
    match rest with
    | b1 :: b2 :: _ =>
        if (if b0 = 0xe0 then 0xa0 ≤ b1 && b1 ≤ 0xbf else if b0 = 0xed then 0x80 ≤ b1 && b1 ≤ 0x9f else isCont b1) && isCont b2
        then (b0.toNat % 16 * 4096 + b1.toNat % 64 * 64 + b2.toNat % 64, 2) else (runeError, 0)
    | _ => (runeError, 0)
  else if b0 < 0xf5 then
    match rest with
    | b1 :: b2 :: b3 :: _ =>
        if (if b0 = 0xf0 then 0x90 ≤ b1 && b1 ≤ 0xbf else if b0 = 0xf4 then 0x80 ≤ b1 && b1 ≤ 0x8f else isCont b1) &&
            isCont b2 && isCont b3
        then (b0.toNat % 8 * 262144 + b1.toNat % 64 * 4096 + b2.toNat % 64 * 64 + b3.toNat % 64, 3) else (runeError, 0)
    | _ => (runeError, 0)
  else (runeError, 0)

/-- `[]rune(s)` with fuel; the length of the string is enough. -/
def runesAux : Nat → Bytes → List Nat
  | 0, _ => []
  | _, [] => []
  | fuel + 1, b :: rest => (decodeRune b rest).1 :: runesAux fuel (rest.drop (decodeRune b rest).2)

/-- `[]rune(s)`. -/
def runes (s : Bytes) : List Nat := runesAux s.length s

/-- `utf8.AppendRune` for the runes of a decoded string: Unicode scalar values. -/
def encodeRune (v : Nat) : Bytes :=
  if v ≤ 0x7f then [UInt8.ofNat v]
  else if v ≤ 0x7ff then [UInt8.ofNat (v / 64 % 32 + 192), UInt8.ofNat (v % 64 + 128)]
  else if v ≤ 0xffff then
    [UInt8.ofNat (v / 4096 % 16 + 224), UInt8.ofNat (v / 64 % 64 + 128), UInt8.ofNat (v % 64 + 128)]
  else
    [UInt8.ofNat (v / 262144 % 8 + 240), UInt8.ofNat (v / 4096 % 64 + 128), UInt8.ofNat (v / 64 % 64 + 128),
      UInt8.ofNat (v % 64 + 128)]

/-- `string(runes)`. -/
def ofRunes (rs : List Nat) : Bytes := rs.flatMap encodeRune

/-! ### Columns -/

/-- `ellipsize` (ops/disassemble/disassemble.go:74-85) of a value that formats as `s`. -/
def ellipsize (s : Bytes) (length : Int) : Bytes :=
  if length ≤ 0 then []
  else if ((runes s).length : Int) ≤ length then ofRunes (runes s)
  else ofRunes ((runes s).take (length.toNat - 1)) ++ str "…"

/-- `pad` (ops/disassemble/disassemble.go:87-94) of a value that formats as `s`. -/
def pad (width : Int) (s : Bytes) : Bytes :=
  if width < ((runes s).length : Int) then s
  else s ++ List.replicate (width - (runes s).length).toNat 32

/-- The loop of `valign` (ops/disassemble/disassemble.go:99-106): the number of bytes up to the first one without bit 7; the
index runs out of range when there is none. -/
def valignLoop : Bytes → Nat → Outcome Nat
  | [], _ => .panic
  | b :: rest, ix => if b &&& 0x80 = 0 then .ok (ix + 1) else valignLoop rest (ix + 1)

/-- `valign` (ops/disassemble/disassemble.go:96-119) with an explicit width. -/
def valign (bytes : Bytes) (width : Nat) : Outcome Bytes := do
  let ix ← valignLoop bytes 0
  .ok ((if width > ix then (List.replicate (width - ix) (str "   ")).flatten else []) ++ hexString bytes)

/-! ### Substrings -/

/-- `strings.Contains(s, sub)` (Go standard library). -/
def contains (s sub : Bytes) : Bool :=
  match s with
  | [] => sub.isEmpty
  | c :: rest => sub.isPrefixOf (c :: rest) || contains rest sub

end Midiasm
