import Verif.Model.Notes
import Verif.Model.Tsv

/-!
Printing of the extracted notes (ops/notes/notes.go:282-292).
-/

namespace Midiasm

/-- `time.Duration.Truncate(time.Millisecond)` (Go standard library). -/
def truncateMs (d : Int) : Int := d - d.tmod 1000000

/-- The loop of `fmtFrac` of package `time` (Go standard library): `prec` digits from the right, zeros at the end left out.  Returns
whether a digit was written, the digits and the remaining number. -/
def fmtFracLoop : Nat → Nat → Bool → Bytes → Bool × Bytes × Nat
  | 0, v, shown, acc => (shown, acc, v)
  | prec + 1, v, shown, acc =>
    let shown := shown || v % 10 != 0
    fmtFracLoop prec (v / 10) shown (if shown then UInt8.ofNat (48 + v % 10) :: acc else acc)

/-- `fmtFrac` of package `time` (Go standard library): the fraction with its point, if there is one, and the integer part. -/
def fmtFrac (v prec : Nat) : Bytes × Nat :=
  let (shown, digits, v) := fmtFracLoop prec v false []
  (if shown then 46 :: digits else digits, v)

/-- `time.Duration.format` for the absolute value `u` (Go standard library). -/
def formatDuration (u : Nat) : Bytes :=
  if u < 1000000000 then
    if u = 0 then str "0s"
    else if u < 1000 then
      let (f, v) := fmtFrac u 0
      dec v ++ f ++ str "ns"
    else if u < 1000000 then
      let (f, v) := fmtFrac u 3
      dec v ++ f ++ str "µs"
    else
      let (f, v) := fmtFrac u 6
      dec v ++ f ++ str "ms"
  else
    let (f, v) := fmtFrac u 9
    let seconds := dec (v % 60) ++ f ++ str "s"
    let minutes := v / 60
    if minutes > 0 then
      let text := dec (minutes % 60) ++ str "m" ++ seconds
      let hours := minutes / 60
      if hours > 0 then dec hours ++ str "h" ++ text else text
    else seconds

/-- `time.Duration.String` (Go standard library). -/
def durationString (d : Int) : Bytes := if d < 0 then 45 :: formatDuration d.natAbs else formatDuration d.natAbs

/-- One line of `print` (ops/notes/notes.go:284-288). -/
def printNote (n : Note) : Bytes :=
  padRight 4 (str n.formattedNote) ++ str " channel:" ++ padRight 2 (dec n.channel.toNat) ++ str "  note:" ++ hex2 n.note ++
    str "  velocity:" ++ padRight 3 (dec n.velocity.toNat) ++ str "  start:" ++ padRight 9 (durationString (truncateMs n.start)) ++
    str "  end:" ++ padRight 9 (durationString (truncateMs n.end_)) ++ str "  duration:" ++ durationString (truncateMs n.duration) ++ str "\n"

/-- `print` (ops/notes/notes.go:282-292). -/
def printNotes (notes : List Note) : Bytes := notes.flatMap printNote

end Midiasm
