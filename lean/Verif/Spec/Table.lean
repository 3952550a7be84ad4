import Verif.Spec.Export
import Verif.Spec.Tsv
import Verif.Spec.Lines

/-!
The tables of events: cells, rows and the two ways in which they are written.
-/

namespace Spec
open Midiasm

/-- The characters of a text; a byte that no character starts with stands alone. -/
inductive Characters : List UInt8 → List (Option Char) → Prop
  | done : Characters [] []
  | char (c : Char) (s : List UInt8) (cs : List (Option Char)) : Characters s cs → Characters (String.utf8EncodeChar c ++ s) (some c :: cs)
  | bad (b : UInt8) (s : List UInt8) (cs : List (Option Char)) : (∀ c, ¬ String.utf8EncodeChar c <+: b :: s) → Characters s cs →
    Characters (b :: s) (none :: cs)

/-! ### Cells -/

/-- A number in a cell. -/
def numberCell (n : Nat) : List UInt8 := str (toString n)

/-- The cells for channel, note and velocity. -/
def channelCells : Content → List (List UInt8)
  | .noteOff ch k v => [numberCell ch, numberCell k, numberCell v]
  | .noteOn ch k v => [numberCell ch, numberCell k, numberCell v]
  | .polyPressure ch _ _ => [numberCell ch, [], []]
  | .controller ch _ _ => [numberCell ch, [], []]
  | .program ch _ => [numberCell ch, [], []]
  | .channelPressure ch _ => [numberCell ch, [], []]
  | .pitchBend ch _ => [numberCell ch, [], []]
  | _ => [[], [], []]

/-- At least two digits. -/
def clockDigits (n : Nat) : String := if n < 10 then s!"0{n}" else toString n

/-- The cell for everything else. -/
def detailsOf (names : List String) (bank : Option Nat) : Content → List UInt8
  | .sequenceNumber n => numberCell n
  | .text _ s => s
  | .channelPrefix ch => numberCell ch
  | .port p => numberCell p
  | .endOfTrack => []
  | .tempo t => numberCell t
  | .smpteOffset h m s r f ff => str s!"offset {clockDigits h}:{clockDigits m}:{clockDigits s}  frame rate {r}:{f}:{ff}"
  | .timeSignature n d c t => str s!"{n}/{d}, {c} ticks/click, {t} 32nds/quarter"
  | .keySignature _ _ => str (names.getD 0 "")
  | .sequencerSpecific _ data => str s!"{names.getD 1 ""} [" ++ hexDisplay data ++ str "]"
  | .noteOff _ _ _ => str (names.getD 0 "")
  | .noteOn _ _ _ => str (names.getD 0 "")
  | .polyPressure _ _ p => numberCell p
  | .controller _ id v => str s!"{id}:{names.getD 0 ""}, {v}"
  | .program _ p => str s!"{bank.getD 0}, {p}"
  | .channelPressure _ p => numberCell p
  | .pitchBend _ b => numberCell b
  | .sysex id data _ => str "[" ++ List.intercalate (str " ") (id.map fun b => numberCell b.toNat) ++
      str s!"]:{names.getD 0 ""}:{names.getD 1 ""}, " ++ hexDisplay data
  | .continuation data => hexDisplay data
  | .escape data => hexDisplay data

/-- The seven cells of an event. -/
def entryCells (e : Entry) : List (List UInt8) :=
  [numberCell e.tick, numberCell e.delta, str (tagOf e.content)] ++ channelCells e.content ++ [detailsOf e.names e.bank e.content]

/-! ### Rows -/

/-- The row of the events with the number `j` of all tracks; seven empty cells for a track that has ended. -/
def tableRow (ts : List TrackEntry) (j : Nat) : List (List UInt8) :=
  ts.flatMap fun t => match t.events[j]? with
    | some e => entryCells e
    | none => List.replicate 7 []

/-- A row of titles for each track, and as many rows as the longest track has events. -/
def tableRows (ts : List TrackEntry) : List (List (List UInt8)) :=
  (ts.flatMap fun _ => titles) :: (List.range ((ts.map fun t => t.events.length).foldr max 0)).map (tableRow ts)

/-! ### Aligned columns -/

/-- The number of bytes of the longest cell of a column. -/
def columnWidth (rows : List (List (List UInt8))) (i : Nat) : Nat := (rows.map fun r => (r.getD i []).length).foldr max 0

/-- A table with aligned columns: cells are filled up with blanks to the width of the column, counting characters; columns are two blanks
apart. -/
def alignedText (count : List UInt8 → Nat) (rows : List (List (List UInt8))) : List UInt8 :=
  rows.flatMap fun r =>
    List.intercalate (str "  ") (r.mapIdx fun i c => c ++ List.replicate (columnWidth rows i - count c) 32) ++ [10]

/-! ### Delimited values -/

/-- Whether a text contains another. -/
def occursIn (d s : List UInt8) : Bool := (List.range s.length).any fun i => d.isPrefixOf (s.drop i)

/-- Whether a cell is put in quotes: it contains a line end, a quote or the delimiter, starts with white space, or is `\.`. -/
def isQuoted (d : Char) (s : List UInt8) : Bool :=
  s.any (fun b => b = 10 || b = 13 || b = 34) || occursIn (String.utf8EncodeChar d) s ||
    whiteSpace.any (fun r => (String.utf8EncodeChar (Char.ofNat r)).isPrefixOf s) || s = [92, 46]

/-- A cell as written: in quotes with the quotes inside doubled, or as it is. -/
def cellText (d : Char) (s : List UInt8) : List UInt8 :=
  if isQuoted d s then [34] ++ s.flatMap (fun b => if b = 34 then [34, 34] else [b]) ++ [34] else s

/-- Values separated by a delimiter, a line for each row. -/
def delimitedText (d : Char) (rows : List (List (List UInt8))) : List UInt8 :=
  rows.flatMap fun r => List.intercalate (String.utf8EncodeChar d) (r.map (cellText d)) ++ [10]

end Spec
