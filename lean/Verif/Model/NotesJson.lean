import Verif.Model.NotesPrint
import Verif.Model.JsonText

/-!
The JSON listing of the extracted notes (ops/notes/notes.go:294-337), with the floating point numbers of the times.
-/

namespace Midiasm

/-! ### Floating point numbers -/

/-- A `float64` that is not negative and below 2^53: the number `m / 2^q`.  The numbers made by `toFloat` are zero (`m = q = 0`) or have
`2^52 ≤ m < 2^53`; subnormal numbers do not occur. -/
structure Float64 where
  m : Nat
  q : Nat
  deriving DecidableEq, Repr

/-- The integer nearest to `a / b`, the even one if there are two. -/
def roundEven (a b : Nat) : Nat :=
  if 2 * (a % b) < b then a / b
  else if b < 2 * (a % b) then a / b + 1
  else if a / b % 2 = 0 then a / b
  else a / b + 1

/-- The number of binary places with which the mantissa of `a / b` has 53 bits. -/
def binaryPlaces (a b : Nat) : Nat :=
  let q := 52 + b.log2 - a.log2
  if b * 2 ^ 52 ≤ a * 2 ^ q then q else q + 1

/-- The `float64` nearest to `a / b`, for a quotient below 2^53: what every arithmetic operation gives for the exact result (IEEE 754, round
to nearest, ties to even). -/
def toFloat (a b : Nat) : Float64 :=
  if a = 0 then ⟨0, 0⟩
  else
    let q := binaryPlaces a b
    let m := roundEven (a * 2 ^ q) b
    if m = 2 ^ 53 then ⟨2 ^ 52, q - 1⟩ else ⟨m, q⟩

/-- The sum of two `float64`. -/
def Float64.add (x y : Float64) : Float64 := toFloat (x.m * 2 ^ y.q + y.m * 2 ^ x.q) (2 ^ (x.q + y.q))

/-- `time.Duration.Seconds` (Go standard library) for `d` nanoseconds: `float64(sec) + float64(nsec)/1e9`.  The conversions of the two integers
are exact. -/
def durationSeconds (d : Nat) : Float64 := (toFloat (d / 1000000000) 1).add (toFloat (d % 1000000000) 1000000000)

/-- The last `n` decimal digits of a number. -/
def lastDigits : Nat → Nat → Bytes
  | 0, _ => []
  | n + 1, c => lastDigits n (c / 10) ++ [UInt8.ofNat (48 + c % 10)]

/-- The number `c / 10^j` written with `j` decimals. -/
def decimalText (c j : Nat) : Bytes :=
  if j = 0 then dec c else dec (c / 10 ^ j) ++ 46 :: lastDigits j c

/-- `strconv.FormatFloat(v, 'f', -1, 64)` (Go standard library): the fewest digits that identify the number.  The algorithm of the library is
not modelled, but its documented result: decimals are added until one of the two numbers around `v` has `v` as its nearest
`float64`; of two such numbers the one nearer to `v` is taken.  (All numbers below 2^53 need every digit before the point.) -/
def shortestLoop (v : Float64) : Nat → Nat → Bytes
  | 0, _ => []
  | fuel + 1, j =>
    let c := v.m * 10 ^ j / 2 ^ v.q
    if toFloat c (10 ^ j) = v ∧ (toFloat (c + 1) (10 ^ j) ≠ v ∨ 2 * (v.m * 10 ^ j) ≤ (2 * c + 1) * 2 ^ v.q) then decimalText c j
    else if toFloat (c + 1) (10 ^ j) = v then decimalText (c + 1) j
    else shortestLoop v fuel (j + 1)

/-- A `float64` as `encoding/json` writes it: times are zero or between 10^-6 and 10^21, so the format is `f`.  Every number is found with
at most 20 decimals (`Props/NotesJson`). -/
def formatFloat (v : Float64) : Bytes := shortestLoop v 1100 0

/-- The JSON number for a time: `Truncate(time.Millisecond).Seconds()` (ops/notes/notes.go:309-323).  The operations on negative numbers mirror
those on positive ones. -/
def secondsJson (d : Int) : Json :=
  let t := truncateMs d
  .num (if t < 0 then 45 :: formatFloat (durationSeconds t.natAbs) else formatFloat (durationSeconds t.natAbs))

/-! ### Notes -/

/-- One note (ops/notes/notes.go:295-303, 313-321). -/
def noteJsonValue (n : Note) : Json :=
  jobj [("channel", jnum n.channel.toNat), ("midi-note", jnum n.note.toNat), ("note", jstr (str n.formattedNote)),
    ("velocity", jnum n.velocity.toNat), ("start", secondsJson n.start), ("end", secondsJson n.end_), ("duration", secondsJson n.duration)]

/-- The document (ops/notes/notes.go:305-307): a slice to which nothing has been appended is `null`. -/
def notesJsonValue (notes : List Note) : Json :=
  jobj [("notes", match notes with
    | [] => .null
    | ns => .arr (ns.map noteJsonValue))]

/-- `export` (ops/notes/notes.go:294-337): the text written. -/
def notesJsonText (notes : List Note) : Bytes := writeJson 0 (notesJsonValue notes)

end Midiasm
