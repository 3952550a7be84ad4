import Verif.Spec.Text
import Verif.Model.Event

/-!
The cells of the TSV export and the meaning of a TSV file, specified independently of the code.
-/

namespace Spec
open Midiasm

/-- The name of the kind of an event. -/
def kindName : Body → String
  | .sequenceNumber _ => "SequenceNumber"
  | .text .text _ => "Text"
  | .text .copyright _ => "Copyright"
  | .text .trackName _ => "TrackName"
  | .text .instrumentName _ => "InstrumentName"
  | .text .lyric _ => "Lyric"
  | .text .marker _ => "Marker"
  | .text .cuePoint _ => "CuePoint"
  | .text .programName _ => "ProgramName"
  | .text .deviceName _ => "DeviceName"
  | .midiChannelPrefix _ => "MIDIChannelPrefix"
  | .midiPort _ => "MIDIPort"
  | .endOfTrack => "EndOfTrack"
  | .tempo _ => "Tempo"
  | .smpteOffset .. => "SMPTEOffset"
  | .timeSignature .. => "TimeSignature"
  | .keySignature .. => "KeySignature"
  | .sequencerSpecific .. => "SequencerSpecificEvent"
  | .noteOff .. => "NoteOff"
  | .noteOn .. => "NoteOn"
  | .polyphonicPressure .. => "PolyphonicPressure"
  | .controller .. => "Controller"
  | .programChange .. => "ProgramChange"
  | .channelPressure .. => "ChannelPressure"
  | .pitchBend .. => "PitchBend"
  | .sysExMessage .. => "SysExMessage"
  | .sysExContinuation .. => "SysExContinuation"
  | .sysExEscape .. => "SysExEscape"

/-- The channel column: the channel of a channel event. -/
def channelCell : Body → Option UInt8
  | .noteOff ch _ _ | .noteOn ch _ _ | .polyphonicPressure ch _ | .controller ch _ _ | .programChange ch _ _ | .channelPressure ch _
  | .pitchBend ch _ => some ch
  | _ => none

/-- The note column: the note number of a note event. -/
def noteCell : Body → Option UInt8
  | .noteOff _ n _ | .noteOn _ n _ => some n.value
  | _ => none

/-- The velocity column: the velocity of a note event. -/
def velocityCell : Body → Option UInt8
  | .noteOff _ _ v | .noteOn _ _ v => some v
  | _ => none

/-- Two digits at least. -/
def twoDigits (n : UInt8) : String := if n.toNat < 10 then "0" ++ toString n.toNat else toString n.toNat

/-- The details column. -/
def detailsCell : Body → Bytes
  | .sequenceNumber n => str s!"{n.toNat}"
  | .text _ s => s
  | .midiChannelPrefix ch => str s!"{ch.toNat}"
  | .midiPort port => str s!"{port.toNat}"
  | .endOfTrack => []
  | .tempo t => str s!"{t.toNat}"
  | .smpteOffset h m s fr f ff =>
      str s!"offset {twoDigits h}:{twoDigits m}:{twoDigits s}  frame rate {fr.toNat}:{f.toNat}:{ff.toNat}"
  | .timeSignature n d c t => str s!"{n.toNat}/{d.toNat}, {c.toNat} ticks/click, {t.toNat} 32nds/quarter"
  | .keySignature _ _ k => str k
  | .sequencerSpecific m d => str s!"{m.name} [" ++ hexDisplay d ++ str "]"
  | .noteOff _ n _ => str n.name
  | .noteOn _ n _ => str n.name
  | .polyphonicPressure _ p => str s!"{p.toNat}"
  | .controller _ c v => str s!"{c.id.toNat}:{c.name}, {v.toNat}"
  | .programChange _ b p => str s!"{b.toNat}, {p.toNat}"
  | .channelPressure _ p => str s!"{p.toNat}"
  | .pitchBend _ b => str s!"{b.toNat}"
  | .sysExMessage m d _ =>
      str "[" ++ List.intercalate (str " ") (m.id.map (fun b => str (toString b.toNat))) ++ str s!"]:{m.region}:{m.name}, " ++ hexDisplay d
  | .sysExContinuation d _ => hexDisplay d
  | .sysExEscape d => hexDisplay d

/-- A number or nothing. -/
def optionalCell : Option UInt8 → Bytes
  | none => []
  | some n => str (toString n.toNat)

/-- The seven cells of an event. -/
def cells (e : Event) : List Bytes := [
  str (toString e.tick.toNat), str (toString e.delta.toNat), str (kindName e.body), optionalCell (channelCell e.body),
  optionalCell (noteCell e.body), optionalCell (velocityCell e.body), detailsCell e.body]

/-- The titles of the columns. -/
def titles : List Bytes := ["Tick", "Delta", "Tag", "Channel", "Note", "Velocity", "Details"].map str

/-! ### Reading delimited text

A field in quotes ends at a quote that is not doubled; any other field ends at the delimiter or line end. -/

/-- What the reader is in the middle of: the start of a field, an unquoted field, a quoted field, a quoted field after a quote. -/
inductive CsvState where
  | start
  | plain
  | quoted
  | quote
  deriving DecidableEq, Repr

/-- Reading text: `f` is the current field and `r` the current record, both in reverse. -/
def readCsv (comma : UInt8) : CsvState → Bytes → List Bytes → Bytes → List (List Bytes)
  | _, [], [], [] => []
  | _, f, r, [] => [(f.reverse :: r).reverse]
  | .start, f, r, c :: rest =>
      if c = 34 then readCsv comma .quoted f r rest
      else if c = comma then readCsv comma .start [] (f.reverse :: r) rest
      else if c = 10 then (f.reverse :: r).reverse :: readCsv comma .start [] [] rest
      else readCsv comma .plain (c :: f) r rest
  | .plain, f, r, c :: rest =>
      if c = comma then readCsv comma .start [] (f.reverse :: r) rest
      else if c = 10 then (f.reverse :: r).reverse :: readCsv comma .start [] [] rest
      else readCsv comma .plain (c :: f) r rest
  | .quoted, f, r, c :: rest =>
      if c = 34 then readCsv comma .quote f r rest else readCsv comma .quoted (c :: f) r rest
  | .quote, f, r, c :: rest =>
      if c = 34 then readCsv comma .quoted (34 :: f) r rest
      else if c = comma then readCsv comma .start [] (f.reverse :: r) rest
      else if c = 10 then (f.reverse :: r).reverse :: readCsv comma .start [] [] rest
      else readCsv comma .quote (c :: f) r rest

end Spec
