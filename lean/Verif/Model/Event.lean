import Verif.Model.Context
import Verif.Model.Scales
import Verif.Model.Tables

/-!
Event values and their constructors (midi/events, midi/lib/event.go, midi/lib/tag.go).
-/

namespace Midiasm

/-- The nine meta events whose payload is a string: same struct shape, same code in nine files of
midi/events/meta (text.go, copyright.go, track_name.go, instrument_name.go, lyric.go, marker.go, cue_point.go,
program_name.go, device_name.go).  Only `TrackName` encodes differently (track_name.go:40-62). -/
inductive TextKind where
  | text
  | copyright
  | trackName
  | instrumentName
  | lyric
  | marker
  | cuePoint
  | programName
  | deviceName
  deriving DecidableEq, Repr

/-- `midievent.Note` (midi/events/midi/midievent.go:26-30). -/
structure NoteVal where
  value : UInt8
  name : String
  alias : String
  deriving DecidableEq, Repr

/-- The dynamic value in `events.Event` without its tick, delta and bytes (the structs of midi/events/meta,
midi/events/midi and midi/events/sysex).  `Status`, `Type` and `tag` are set by the constructors from the kind and
channel alone and never changed, so they are functions below (`Body.status`, `Body.metaType`, `Body.tag`). -/
inductive Body where
  | sequenceNumber (n : UInt16)
  | text (k : TextKind) (s : Bytes)
  | midiChannelPrefix (ch : UInt8)
  | midiPort (port : UInt8)
  | endOfTrack
  | tempo (t : UInt32)
  | smpteOffset (hour minute second frameRate frames fractions : UInt8)
  | timeSignature (num den ticksPerClick thirtySeconds : UInt8)
  | keySignature (accidentals : Int8) (keyType : UInt8) (key : String)
  | sequencerSpecific (m : Lib.Manufacturer) (data : Bytes)
  | noteOff (ch : UInt8) (note : NoteVal) (velocity : UInt8)
  | noteOn (ch : UInt8) (note : NoteVal) (velocity : UInt8)
  | polyphonicPressure (ch pressure : UInt8)
  | controller (ch : UInt8) (c : Lib.Controller) (value : UInt8)
  | programChange (ch : UInt8) (bank : UInt16) (program : UInt8)
  | channelPressure (ch pressure : UInt8)
  | pitchBend (ch : UInt8) (bend : UInt16)
  | sysExMessage (m : Lib.Manufacturer) (data : Bytes) (single : Bool)
  | sysExContinuation (data : Bytes) (end_ : Bool)
  | sysExEscape (data : Bytes)
  deriving DecidableEq, Repr

/-- `events.Event` (midi/events/event.go:33-35) with the embedded `event` struct (e.g.
midi/events/midi/midievent.go:18-26): absolute tick, delta time and the raw bytes it was decoded from. -/
structure Event where
  tick : UInt64
  delta : UInt32
  bytes : Bytes
  body : Body
  deriving DecidableEq, Repr

/-- The text-like meta event type bytes (midi/lib/event.go:18-26). -/
def TextKind.type : TextKind → UInt8
  | .text => 0x01
  | .copyright => 0x02
  | .trackName => 0x03
  | .instrumentName => 0x04
  | .lyric => 0x05
  | .marker => 0x06
  | .cuePoint => 0x07
  | .programName => 0x08
  | .deviceName => 0x09

/-- `Status` of each event as set by its `Make` function. -/
def Body.status : Body → UInt8
  | .noteOff ch _ _ => 0x80 ||| ch
  | .noteOn ch _ _ => 0x90 ||| ch
  | .polyphonicPressure ch _ => 0xA0 ||| (ch &&& 0x0f)
  | .controller ch _ _ => 0xb0 ||| (ch &&& 0x0f)
  | .programChange ch _ _ => 0xc0 ||| (ch &&& 0x0f)
  | .channelPressure ch _ => 0xD0 ||| (ch &&& 0x0f)
  | .pitchBend ch _ => 0xe0 ||| ch
  | .sysExMessage _ _ _ => 0xf0
  | .sysExContinuation _ _ => 0xf7
  | .sysExEscape _ => 0xf7
  | _ => 0xff

/-- `Type` of each meta event (midi/lib/event.go:15-34 and key_signature.go:48); not a field of the other events. -/
def Body.metaType : Body → UInt8
  | .sequenceNumber _ => 0x00
  | .text k _ => k.type
  | .midiChannelPrefix _ => 0x20
  | .midiPort _ => 0x21
  | .endOfTrack => 0x2f
  | .tempo _ => 0x51
  | .smpteOffset .. => 0x54
  | .timeSignature .. => 0x58
  | .keySignature .. => 0x59
  | .sequencerSpecific .. => 0x7f
  | _ => 0x00

/-- Tags of the text-like events (midi/lib/tag.go:76-108). -/
def TextKind.tag : TextKind → String
  | .text => "Text"
  | .copyright => "Copyright"
  | .trackName => "TrackName"
  | .instrumentName => "InstrumentName"
  | .lyric => "Lyric"
  | .marker => "Marker"
  | .cuePoint => "CuePoint"
  | .programName => "ProgramName"
  | .deviceName => "DeviceName"

/-- `Tag()` of each event (midi/lib/tag.go:76-108 applied to the `tag` set by its `Make` function). -/
def Body.tag : Body → String
  | .sequenceNumber _ => "SequenceNumber"
  | .text k _ => k.tag
  | .midiChannelPrefix _ => "MIDIChannelPrefix"
  | .midiPort _ => "MIDIPort"
  | .endOfTrack => "EndOfTrack"
  | .tempo _ => "Tempo"
  | .smpteOffset .. => "SMPTEOffset"
  | .timeSignature .. => "TimeSignature"
  | .keySignature .. => "KeySignature"
  | .sequencerSpecific .. => "SequencerSpecificEvent"
  | .noteOff .. => "NoteOff"
  | .noteOn .. => "NoteOn"
  | .polyphonicPressure .. => "PolyphonicPressure"
  | .controller .. => "Controller"
  | .programChange .. => "ProgramChange"
  | .channelPressure .. => "ChannelPressure"
  | .pitchBend .. => "PitchBend"
  | .sysExMessage .. => "SysExMessage"
  | .sysExContinuation .. => "SysExContinuation"
  | .sysExEscape .. => "SysExEscape"

/-! ### Constructors that validate their arguments -/

/-- `MakeMIDIChannelPrefix` (midi/events/meta/midi_channel_prefix.go:17-33). -/
def makeMIDIChannelPrefix (ch : UInt8) : Outcome Body :=
  if ch > 15 then .panic else .ok (.midiChannelPrefix ch)

/-- `MakeMIDIPort` (midi/events/meta/midi_port.go:17-33). -/
def makeMIDIPort (port : UInt8) : Outcome Body :=
  if port > 127 then .panic else .ok (.midiPort port)

/-- `MakeSMPTEOffset` (midi/events/meta/smpte_offset.go:22-63). -/
def makeSMPTEOffset (hour minute second frameRate frames fractions : UInt8) : Outcome Body :=
  if hour > 24 then .panic
  else if minute > 59 then .panic
  else if second > 59 then .panic
  else if frameRate ≠ 24 ∧ frameRate ≠ 25 ∧ frameRate ≠ 29 ∧ frameRate ≠ 30 then .panic
  else if frames ≥ frameRate then .panic
  else if fractions > 100 then .panic
  else .ok (.smpteOffset hour minute second frameRate frames fractions)

/-- The loop `for dd < denominator { dd *= 2; d += 1 }` on `uint8` (midi/events/meta/time_signature.go:21-26 and
68-73).  `fuel` bounds the iterations; from `dd = 1` the value is 0 after eight doublings and stays 0, so with fuel 8
running out means the loop never stops (`Lemmas/Loop.lean` proves this against the unbounded iteration). -/
def denomLoop (den : UInt8) : Nat → UInt8 → Nat → Outcome Nat
  | 0, dd, d => if dd < den then .diverge else .ok d
  | fuel + 1, dd, d => if dd < den then denomLoop den fuel (dd * 2) (d + 1) else .ok d

/-- `MakeTimeSignature` (midi/events/meta/time_signature.go:20-42): the loop result is unused but the loop runs. -/
def makeTimeSignature (num den ticksPerClick thirtySeconds : UInt8) : Outcome Body := do
  let _ ← denomLoop den 8 1 0
  .ok (.timeSignature num den ticksPerClick thirtySeconds)

/-- `MakeKeySignature` (midi/events/meta/key_signature.go:20-55). -/
def makeKeySignature (accidentals : Int8) (keyType : UInt8) : Outcome Body :=
  if keyType = Lib.Major then
    match Lib.majorScale accidentals with
    | some s => .ok (.keySignature accidentals keyType s.name)
    | none => .panic
  else if keyType = Lib.Minor then
    match Lib.minorScale accidentals with
    | some s => .ok (.keySignature accidentals keyType s.name)
    | none => .panic
  else .panic

/-- `MakeNoteOff` (midi/events/midi/note_off.go:19-40). -/
def makeNoteOff (ch : UInt8) (note : NoteVal) (velocity : UInt8) : Outcome Body :=
  if ch > 15 then .panic else if velocity > 127 then .panic else .ok (.noteOff ch note velocity)

/-- `MakeNoteOn` (midi/events/midi/note_on.go:19-41). -/
def makeNoteOn (ch : UInt8) (note : NoteVal) (velocity : UInt8) : Outcome Body :=
  if ch > 15 then .panic else if velocity > 127 then .panic else .ok (.noteOn ch note velocity)

/-- `MakePolyphonicPressure` (midi/events/midi/polyphonic_pressure.go:17-37). -/
def makePolyphonicPressure (ch pressure : UInt8) : Outcome Body :=
  if ch > 15 then .panic else if pressure > 127 then .panic else .ok (.polyphonicPressure ch pressure)

/-- `MakeController` (midi/events/midi/controller.go:18-35). -/
def makeController (ch : UInt8) (c : Lib.Controller) (value : UInt8) : Outcome Body :=
  if ch > 15 then .panic else .ok (.controller ch c value)

/-- `MakeProgramChange` (midi/events/midi/program_change.go:18-35). -/
def makeProgramChange (ch : UInt8) (bank : UInt16) (program : UInt8) : Outcome Body :=
  if ch > 15 then .panic else .ok (.programChange ch bank program)

/-- `MakeChannelPressure` (midi/events/midi/channel_pressure.go:17-37). -/
def makeChannelPressure (ch pressure : UInt8) : Outcome Body :=
  if ch > 15 then .panic else if pressure > 127 then .panic else .ok (.channelPressure ch pressure)

/-- `MakePitchBend` (midi/events/midi/pitch_bend.go:17-33). -/
def makePitchBend (ch : UInt8) (bend : UInt16) : Outcome Body :=
  if ch > 15 then .panic else .ok (.pitchBend ch bend)

end Midiasm
