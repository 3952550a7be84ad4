import Verif.Model.File
import Verif.Model.Text

/-!
TSV export (commands/tsv.go).
-/

namespace Midiasm

/-- `fmt` verb `%v` of a `[]byte` (Go standard library): decimal numbers in brackets. -/
def formatBytes (bs : Bytes) : Bytes := str "[" ++ List.intercalate (str " ") (bs.map (fun b => dec b.toNat)) ++ str "]"

/-- The seven cells of an event: `fields` (commands/tsv.go:218-353).  The events of a decoded file are values, which is what the
type assertions test for; `e.Data` is a `lib.Hex` and prints with its `String` method. -/
def fields (e : Event) : List Bytes :=
  let tick := dec e.tick.toNat
  let delta := dec e.delta.toNat
  let tag := str e.body.tag
  let (channel, note, velocity, details) : Bytes × Bytes × Bytes × Bytes :=
    match e.body with
    | .sequenceNumber n => ([], [], [], dec n.toNat)
    | .text _ s => ([], [], [], s)
    | .midiChannelPrefix ch => ([], [], [], dec ch.toNat)
    | .midiPort port => ([], [], [], dec port.toNat)
    | .endOfTrack => ([], [], [], [])
    | .tempo t => ([], [], [], dec t.toNat)
    | .smpteOffset h m s fr f ff =>
        ([], [], [], str "offset " ++ dec2 h.toNat ++ str ":" ++ dec2 m.toNat ++ str ":" ++ dec2 s.toNat ++
          str "  frame rate " ++ dec fr.toNat ++ str ":" ++ dec f.toNat ++ str ":" ++ dec ff.toNat)
    | .timeSignature n d c t =>
        ([], [], [], dec n.toNat ++ str "/" ++ dec d.toNat ++ str ", " ++ dec c.toNat ++ str " ticks/click, " ++ dec t.toNat ++
          str " 32nds/quarter")
    | .keySignature _ _ k => ([], [], [], str k)
    | .sequencerSpecific m d => ([], [], [], str m.name ++ str " [" ++ hexString d ++ str "]")
    | .noteOff ch n v => (dec ch.toNat, dec n.value.toNat, dec v.toNat, str n.name)
    | .noteOn ch n v => (dec ch.toNat, dec n.value.toNat, dec v.toNat, str n.name)
    | .polyphonicPressure ch p => (dec ch.toNat, [], [], dec p.toNat)
    | .controller ch c v => (dec ch.toNat, [], [], dec c.id.toNat ++ str ":" ++ str c.name ++ str ", " ++ dec v.toNat)
    | .programChange ch b p => (dec ch.toNat, [], [], dec b.toNat ++ str ", " ++ dec p.toNat)
    | .channelPressure ch p => (dec ch.toNat, [], [], dec p.toNat)
    | .pitchBend ch b => (dec ch.toNat, [], [], dec b.toNat)
    | .sysExMessage m d _ =>
        ([], [], [], formatBytes m.id ++ str ":" ++ str m.region ++ str ":" ++ str m.name ++ str ", " ++ hexString d)
    | .sysExContinuation d _ => ([], [], [], hexString d)
    | .sysExEscape d => ([], [], [], hexString d)
  [tick, delta, tag, channel, note, velocity, details]

/-- The header (commands/tsv.go:91). -/
def tsvHeader : List Bytes :=
  [str "Tick", str "Delta", str "Tag", str "Channel", str "Note", str "Velocity", str "Details"]

/-- `records[row][col] = f` (commands/tsv.go:111, 124).  An index out of range would panic; `C51_tsv` proves that every write is
within the table, here such a write is dropped. -/
def setCell (t : List (List Bytes)) (w : Nat × Nat × Bytes) : List (List Bytes) :=
  t.modify w.1 (fun row => row.set w.2.1 w.2.2)

/-- The assignments of `export` to cells, in the order in which they are executed (commands/tsv.go:106-127). -/
def tsvWrites (tracks : List (List Event)) : List (Nat × Nat × Bytes) :=
  (List.range tracks.length).flatMap (fun i =>
    (tsvHeader.zipIdx).map (fun (h, j) => (0, i * tsvHeader.length + j, h))) ++
  tracks.zipIdx.flatMap (fun (t, i) =>
    t.zipIdx.flatMap (fun (e, j) =>
      (fields e).zipIdx.map (fun (f, k) => (j + 1, i * tsvHeader.length + k, f))))

/-- `tsv.export` (commands/tsv.go:89-130): the records, given the events of each track. -/
def exportTsv (tracks : List (List Event)) : List (List Bytes) :=
  let columns := tracks.foldl (fun n _ => n + tsvHeader.length) 0
  let rows := tracks.foldl (fun n t => if t.length > n then t.length else n) 0
  let records := List.replicate (rows + 1) (List.replicate columns [])
  (tsvWrites tracks).foldl setCell records

/-- `fmt` verb `%-{w}v` of a string (Go standard library): blanks on the right up to `w` characters.  Simplification: widths above 10000009, which `fmt` rejects,
are treated like any other (they need a cell of 10 MB). -/
def padRight (w : Nat) (s : Bytes) : Bytes := s ++ List.replicate (w - (runes s).length) 32

/-- Widths of the columns (commands/tsv.go:161-176): the longest cell, in bytes, over all records. -/
def tableWidths (records : List (List Bytes)) : List Nat :=
  let columns := records.foldl (fun n r => if r.length > n then r.length else n) 0
  records.foldl (fun ws r => ws.zipIdx.map (fun (w, i) =>
    match r[i]? with
    | some f => if f.length > w then f.length else w
    | none => w)) (List.replicate columns 0)

/-- `writeTable` (commands/tsv.go:160-193): the text written. -/
def writeTable (records : List (List Bytes)) : Bytes :=
  records.flatMap (fun r =>
    List.intercalate (str "  ") (r.zipIdx.map (fun (f, i) => padRight ((tableWidths records).getD i 0) f)) ++ str "\n")

/-! ### encoding/csv (Go standard library), writing with an ASCII delimiter -/

/-- `Writer.fieldNeedsQuotes`; the last test is `unicode.IsSpace` of the first character. -/
def fieldNeedsQuotes (comma : UInt8) (field : Bytes) : Bool :=
  if field = [] then false
  else if field = str "\\." then true
  else if field.any (fun c => c = 10 || c = 13 || c = 34 || c = comma) then true
  else
    match runes field with
    | r :: _ => (9 ≤ r && r ≤ 13) || r = 0x20 || r = 0x85 || r = 0xa0 || r = 0x1680 || (0x2000 ≤ r && r ≤ 0x200a) ||
        r = 0x2028 || r = 0x2029 || r = 0x202f || r = 0x205f || r = 0x3000
    | [] => false

/-- A field as written by `Writer.Write`: quoted when needed, quotes doubled. -/
def csvField (comma : UInt8) (field : Bytes) : Bytes :=
  if fieldNeedsQuotes comma field then
    [34] ++ field.flatMap (fun c => if c = 34 then [34, 34] else [c]) ++ [34]
  else field

/-- A record as written by `Writer.Write`. -/
def csvRecord (comma : UInt8) (record : List Bytes) : Bytes :=
  List.intercalate [comma] (record.map (csvField comma)) ++ [10]

/-- `writeTSV` (commands/tsv.go:195-216) with an ASCII delimiter that encoding/csv accepts; other delimiters are an error
(quote, line ends, NUL) or not modelled (outside ASCII).  Simplification: the writer never fails. -/
def writeTSV (header : List Bytes) (records : List (List Bytes)) (comma : UInt8) : Outcome Bytes :=
  if comma = 0 || comma = 34 || comma = 13 || comma = 10 then .err .other
  else .ok (csvRecord comma header ++ records.flatMap (csvRecord comma))

/-! ### Click track (ops/click/click.go) -/

/-- The dynamic type of the event stored in `events.Event`: the struct itself or a pointer to it. -/
inductive DynEvent where
  | value (e : Event)
  | pointer (e : Event)

/-- The events of a decoded file hold values (midi/events/event.go:37-45 applied to the results of the parsers,
e.g. midi/events/meta/metaevent.go:84; midi/MTrk.go:57-85 replaces values by values). -/
def decodedEvents (smf : SMF) : List (List DynEvent) := smf.tracks.map (fun t => t.events.map .value)

/-- `e.Event.(*metaevent.Tempo)` (ops/click/click.go:44). -/
def DynEvent.isTempoPtr : DynEvent → Bool
  | .pointer e => match e.body with | .tempo _ => true | _ => false
  | .value _ => false

/-- `e.Event.(*metaevent.TimeSignature)` or `e.Event.(*metaevent.EndOfTrack)` (ops/click/click.go:59-69). -/
def DynEvent.isBarPtr : DynEvent → Bool
  | .pointer e => match e.body with | .timeSignature .. => true | .endOfTrack => true | _ => false
  | .value _ => false

/-- `ClickTrack.Execute` (ops/click/click.go:38-183): what is written to `Writer`.  Panics without header or tracks.  `none` stands
for some unmodelled text: the floating point arithmetic on collected events (lines 79-137) is not modelled, it only runs
when an event was collected. -/
def click (mthd : Option MThd) (tracks : List (List DynEvent)) : Outcome (Option Bytes) :=
  match mthd, tracks with
  | none, _ => .panic
  | some _, [] => .panic
  | some _, [_] => .ok (some [])
  | some _, t0 :: t1 :: _ =>
      if (t0.filter (·.isTempoPtr) ++ t1.filter (·.isBarPtr)).isEmpty then .ok (some []) else .ok none

end Midiasm
