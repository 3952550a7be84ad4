import Verif.Model.Parse

/-!
The single-event binary API: `UnmarshalBinary` of every event type and `events.Event.UnmarshalBinary`
(midi/events/binary.go).  `spare` is the content of the caller's array beyond the slice's length.
-/

namespace Midiasm

/-- Prologue common to the meta events' `UnmarshalBinary` (e.g. midi/events/meta/text.go:48-57): delta, at least two
more bytes, status FF, event type modulo bit 7.  Returns the delta and what follows the type byte. -/
def metaPrologue (type : UInt8) (bytes : Bytes) : Outcome (UInt32 × Bytes) := do
  let (delta, remaining) ← vlqSlice bytes
  match remaining with
  | s :: t :: rest =>
    if s ≠ 0xff then .err .other
    else if t &&& 0x7f ≠ type then .err .other
    else .ok (delta, rest)
  | _ => .err .other

/-- `SequenceNumber.UnmarshalBinary` (midi/events/meta/sequence_number.go:55-71). -/
def binSequenceNumber (bytes spare : Bytes) : Outcome Event := do
  let (delta, rest) ← metaPrologue 0x00 bytes
  let v ← vlfSlice rest spare
  let n ← beUint16 v
  .ok ⟨0, delta, bytes, .sequenceNumber n⟩

/-- `UnmarshalBinary` of the text-like events (text.go:48-64, copyright.go:46-62, track_name.go:64-80, the others
47-63). -/
def binText (k : TextKind) (bytes spare : Bytes) : Outcome Event := do
  let (delta, rest) ← metaPrologue k.type bytes
  let v ← vlfSlice rest spare
  .ok ⟨0, delta, bytes, .text k v⟩

/-- `MIDIChannelPrefix.UnmarshalBinary` (midi/events/meta/midi_channel_prefix.go:58-78). -/
def binMIDIChannelPrefix (bytes spare : Bytes) : Outcome Event := do
  let (delta, rest) ← metaPrologue 0x20 bytes
  let data ← vlfSlice rest spare
  match data with
  | [] => .err .other
  | channel :: _ =>
    if channel > 15 then .err .other
    else do
      let b ← makeMIDIChannelPrefix channel
      .ok ⟨0, delta, bytes, b⟩

/-- `MIDIPort.UnmarshalBinary` (midi/events/meta/midi_port.go:60-80). -/
def binMIDIPort (bytes spare : Bytes) : Outcome Event := do
  let (delta, rest) ← metaPrologue 0x21 bytes
  let data ← vlfSlice rest spare
  match data with
  | [] => .err .other
  | port :: _ =>
    if port > 127 then .err .other
    else do
      let b ← makeMIDIPort port
      .ok ⟨0, delta, bytes, b⟩

/-- `EndOfTrack.UnmarshalBinary` (midi/events/meta/end_of_track.go:42-56): the length is not looked at. -/
def binEndOfTrack (bytes : Bytes) : Outcome Event := do
  let (delta, _) ← metaPrologue 0x2f bytes
  .ok ⟨0, delta, bytes, .endOfTrack⟩

/-- `Tempo.UnmarshalBinary` (midi/events/meta/tempo.go:67-91). -/
def binTempo (bytes spare : Bytes) : Outcome Event := do
  let (delta, rest) ← metaPrologue 0x51 bytes
  let data ← vlfSlice rest spare
  match data with
  | a :: b :: c :: _ =>
    .ok ⟨0, delta, bytes, .tempo ((((a.toUInt32 <<< 8) + b.toUInt32) <<< 8) + c.toUInt32)⟩
  | _ => .err .other

/-- `SMPTEOffset.UnmarshalBinary` (midi/events/meta/smpte_offset.go:145-206). -/
def binSMPTEOffset (bytes spare : Bytes) : Outcome Event := do
  let (delta, rest) ← metaPrologue 0x54 bytes
  let data ← vlfSlice rest spare
  match data with
  | d0 :: minute :: second :: frames :: fractions :: _ => do
    let b ← smpteFromData d0 minute second frames fractions
    .ok ⟨0, delta, bytes, b⟩
  | _ => .err .other

/-- `TimeSignature.UnmarshalBinary` (midi/events/meta/time_signature.go:88-115). -/
def binTimeSignature (bytes spare : Bytes) : Outcome Event := do
  let (delta, rest) ← metaPrologue 0x58 bytes
  let data ← vlfSlice rest spare
  match data with
  | num :: exp :: ticks :: thirty :: _ => do
    let b ← makeTimeSignature num (denomFromExp exp) ticks thirty
    .ok ⟨0, delta, bytes, b⟩
  | _ => .err .other

/-- `KeySignature.UnmarshalBinary` (midi/events/meta/key_signature.go:107-145). -/
def binKeySignature (bytes spare : Bytes) : Outcome Event := do
  let (delta, rest) ← metaPrologue 0x59 bytes
  let data ← vlfSlice rest spare
  match data with
  | d0 :: d1 :: _ => do
    let b ← keySignatureFromData d0 d1
    .ok ⟨0, delta, bytes, b⟩
  | _ => .err .other

/-- `SequencerSpecificEvent.UnmarshalBinary` (midi/events/meta/sequencer_specific.go:60-88). -/
def binSequencerSpecific (bytes spare : Bytes) : Outcome Event := do
  let (delta, rest) ← metaPrologue 0x7f bytes
  let data ← vlfSlice rest spare
  if data.length < 2 then .err .other
  else do
    let (id, d) ← sequencerSplit data
    .ok ⟨0, delta, bytes, .sequencerSpecific (Lib.lookupManufacturer id) d⟩

/-- Prologue common to the channel events' `UnmarshalBinary` (e.g. midi/events/midi/note_on.go:81-93): delta, then
exactly `n` bytes of which the first has the given high nibble.  Returns delta, channel and data. -/
def midiPrologue (type : UInt8) (n : Nat) (bytes : Bytes) : Outcome (UInt32 × UInt8 × Bytes) := do
  let (delta, remaining) ← vlqSlice bytes
  if remaining.length ≠ n then .err .other
  else
    match remaining with
    | [] => .panic
    | s :: data => if s &&& 0xf0 ≠ type then .err .other else .ok (delta, s &&& 0x0f, data)

/-- `NoteOff.UnmarshalBinary` (midi/events/midi/note_off.go:131-155). -/
def binNoteOff (mc : MiddleC) (bytes : Bytes) : Outcome Event := do
  let (delta, ch, data) ← midiPrologue 0x80 3 bytes
  match data with
  | [n, v] => if v > 127 then .err .other else do
    let b ← makeNoteOff ch (rawNote mc n) v
    .ok ⟨0, delta, bytes, b⟩
  | _ => .err .other

/-- `NoteOn.UnmarshalBinary` (midi/events/midi/note_on.go:81-105). -/
def binNoteOn (mc : MiddleC) (bytes : Bytes) : Outcome Event := do
  let (delta, ch, data) ← midiPrologue 0x90 3 bytes
  match data with
  | [n, v] => if v > 127 then .err .other else do
    let b ← makeNoteOn ch (rawNote mc n) v
    .ok ⟨0, delta, bytes, b⟩
  | _ => .err .other

/-- `PolyphonicPressure.UnmarshalBinary` (midi/events/midi/polyphonic_pressure.go:65-83). -/
def binPolyphonicPressure (bytes : Bytes) : Outcome Event := do
  let (delta, ch, data) ← midiPrologue 0xa0 2 bytes
  match data with
  | [p] => if p > 127 then .err .other else do
    let b ← makePolyphonicPressure ch p
    .ok ⟨0, delta, bytes, b⟩
  | _ => .err .other

/-- `Controller.UnmarshalBinary` (midi/events/midi/controller.go:69-87). -/
def binController (bytes : Bytes) : Outcome Event := do
  let (delta, ch, data) ← midiPrologue 0xb0 3 bytes
  match data with
  | [c, v] => do
    let b ← makeController ch (Lib.lookupController c) v
    .ok ⟨0, delta, bytes, b⟩
  | _ => .err .other

/-- `ProgramChange.UnmarshalBinary` (midi/events/midi/program_change.go:63-82). -/
def binProgramChange (bytes : Bytes) : Outcome Event := do
  let (delta, ch, data) ← midiPrologue 0xc0 2 bytes
  match data with
  | [p] => do
    let b ← makeProgramChange ch 0 p
    .ok ⟨0, delta, bytes, b⟩
  | _ => .err .other

/-- `ChannelPressure.UnmarshalBinary` (midi/events/midi/channel_pressure.go:73-91). -/
def binChannelPressure (bytes : Bytes) : Outcome Event := do
  let (delta, ch, data) ← midiPrologue 0xd0 2 bytes
  match data with
  | [p] => if p > 127 then .err .other else do
    let b ← makeChannelPressure ch p
    .ok ⟨0, delta, bytes, b⟩
  | _ => .err .other

/-- `PitchBend.UnmarshalBinary` (midi/events/midi/pitch_bend.go:68-90). -/
def binPitchBend (bytes : Bytes) : Outcome Event := do
  let (delta, ch, data) ← midiPrologue 0xe0 3 bytes
  match data with
  | [d0, d1] => if d0 > 127 then .err .other else do
    let b ← makePitchBend ch (bendFromData d0 d1)
    .ok ⟨0, delta, bytes, b⟩
  | _ => .err .other

/-- Prologue common to the SysEx events' `UnmarshalBinary` (midi/events/sysex/message.go:92-101,
continuation_message.go:84-93, escape_message.go:56-65): delta, at least two more bytes, the status, a variable length
field. -/
def sysexPrologue (status : UInt8) (bytes spare : Bytes) : Outcome (UInt32 × Bytes) := do
  let (delta, remaining) ← vlqSlice bytes
  match remaining with
  | s :: t :: rest =>
    if s ≠ status then .err .other
    else do
      let data ← vlfSlice (t :: rest) spare
      .ok (delta, data)
  | _ => .err .other

/-- `SysExMessage.UnmarshalBinary` (midi/events/sysex/message.go:92-116): no check for an empty field. -/
def binSysExMessage (bytes spare : Bytes) : Outcome Event := do
  let (delta, data) ← sysexPrologue 0xf0 bytes spare
  let b ← sysExFromData data
  .ok ⟨0, delta, bytes, b⟩

/-- `SysExContinuationMessage.UnmarshalBinary` (midi/events/sysex/continuation_message.go:84-107). -/
def binSysExContinuation (bytes spare : Bytes) : Outcome Event := do
  let (delta, data) ← sysexPrologue 0xf7 bytes spare
  let b ← unmarshalSysExContinuation data
  .ok ⟨0, delta, bytes, b⟩

/-- `SysExEscapeMessage.UnmarshalBinary` (midi/events/sysex/escape_message.go:56-70). -/
def binSysExEscape (bytes spare : Bytes) : Outcome Event := do
  let (delta, data) ← sysexPrologue 0xf7 bytes spare
  .ok ⟨0, delta, bytes, .sysExEscape data⟩

/-- The event types that have an `UnmarshalBinary` (midi/events/meta, midi/events/midi and midi/events/sysex). -/
inductive EventType where
  | sequenceNumber
  | text (k : TextKind)
  | midiChannelPrefix
  | midiPort
  | endOfTrack
  | tempo
  | smpteOffset
  | timeSignature
  | keySignature
  | sequencerSpecific
  | noteOff
  | noteOn
  | polyphonicPressure
  | controller
  | programChange
  | channelPressure
  | pitchBend
  | sysExMessage
  | sysExContinuation
  | sysExEscape
  deriving DecidableEq, Repr

/-- `UnmarshalBinary` called on a variable of the given type, as a program that uses the package may do (the files cited above). -/
def typedBinary (mc : MiddleC) (t : EventType) (bytes spare : Bytes) : Outcome Event :=
  match t with
  | .sequenceNumber => binSequenceNumber bytes spare
  | .text k => binText k bytes spare
  | .midiChannelPrefix => binMIDIChannelPrefix bytes spare
  | .midiPort => binMIDIPort bytes spare
  | .endOfTrack => binEndOfTrack bytes
  | .tempo => binTempo bytes spare
  | .smpteOffset => binSMPTEOffset bytes spare
  | .timeSignature => binTimeSignature bytes spare
  | .keySignature => binKeySignature bytes spare
  | .sequencerSpecific => binSequencerSpecific bytes spare
  | .noteOff => binNoteOff mc bytes
  | .noteOn => binNoteOn mc bytes
  | .polyphonicPressure => binPolyphonicPressure bytes
  | .controller => binController bytes
  | .programChange => binProgramChange bytes
  | .channelPressure => binChannelPressure bytes
  | .pitchBend => binPitchBend bytes
  | .sysExMessage => binSysExMessage bytes spare
  | .sysExContinuation => binSysExContinuation bytes spare
  | .sysExEscape => binSysExEscape bytes spare

/-- `events.Event.UnmarshalBinary` (midi/events/binary.go:13-110); `MetaEventType.Equals`, `MidiEventType.Equals` and
`SysExEventType.Equals` are midi/lib/event.go:40-42, 60-62 and 76-78.  `SysExEscape` is never chosen. -/
def unmarshalBinary (mc : MiddleC) (bytes spare : Bytes) : Outcome Event := do
  let (_, remaining) ← vlqSlice bytes
  match remaining with
  | s :: t :: _ =>
    let m := t &&& 0x7f
    let h := s &&& 0xf0
    if s = 0xff ∧ m = 0x00 then binSequenceNumber bytes spare
    else if s = 0xff ∧ m = 0x01 then binText .text bytes spare
    else if s = 0xff ∧ m = 0x02 then binText .copyright bytes spare
    else if s = 0xff ∧ m = 0x03 then binText .trackName bytes spare
    else if s = 0xff ∧ m = 0x04 then binText .instrumentName bytes spare
    else if s = 0xff ∧ m = 0x05 then binText .lyric bytes spare
    else if s = 0xff ∧ m = 0x06 then binText .marker bytes spare
    else if s = 0xff ∧ m = 0x07 then binText .cuePoint bytes spare
    else if s = 0xff ∧ m = 0x08 then binText .programName bytes spare
    else if s = 0xff ∧ m = 0x09 then binText .deviceName bytes spare
    else if s = 0xff ∧ m = 0x20 then binMIDIChannelPrefix bytes spare
    else if s = 0xff ∧ m = 0x21 then binMIDIPort bytes spare
    else if s = 0xff ∧ m = 0x51 then binTempo bytes spare
    else if s = 0xff ∧ m = 0x58 then binTimeSignature bytes spare
    else if s = 0xff ∧ m = 0x59 then binKeySignature bytes spare
    else if s = 0xff ∧ m = 0x54 then binSMPTEOffset bytes spare
    else if s = 0xff ∧ m = 0x2f then binEndOfTrack bytes
    else if s = 0xff ∧ m = 0x7f then binSequencerSpecific bytes spare
    else if h = 0x80 then binNoteOff mc bytes
    else if h = 0x90 then binNoteOn mc bytes
    else if h = 0xa0 then binPolyphonicPressure bytes
    else if h = 0xb0 then binController bytes
    else if h = 0xc0 then binProgramChange bytes
    else if h = 0xd0 then binChannelPressure bytes
    else if h = 0xe0 then binPitchBend bytes
    else if s = 0xf0 then binSysExMessage bytes spare
    else if s = 0xf7 then binSysExContinuation bytes spare
    else .err .other
  | _ => .err .other

end Midiasm
