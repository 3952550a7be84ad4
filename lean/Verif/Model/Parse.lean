import Verif.Model.Event
import Verif.Model.Vlq

/-!
Event parsers used while decoding a track: `metaevent.Parse`, `midievent.Parse`, `sysex.Parse` and the `unmarshal`
method of every event.
-/

namespace Midiasm

/-! ### Meta events -/

/-- `SequenceNumber.unmarshal` (midi/events/meta/sequence_number.go:32-43). -/
def unmarshalSequenceNumber (data : Bytes) : Outcome Body :=
  if data.length ≠ 2 then .err .other
  else do
    let n ← beUint16 data
    .ok (.sequenceNumber n)

/-- `unmarshal` of the text-like events (text.go:30-37, copyright.go:30-35, track_name.go:31-38,
instrument_name.go, lyric.go, marker.go, cue_point.go, program_name.go, device_name.go:30-36). -/
def unmarshalText (k : TextKind) (data : Bytes) : Outcome Body := .ok (.text k data)

/-- `MIDIChannelPrefix.unmarshal` (midi/events/meta/midi_channel_prefix.go:35-47). -/
def unmarshalMIDIChannelPrefix (data : Bytes) : Outcome Body :=
  match data with
  | [channel] => if channel > 15 then .err .other else makeMIDIChannelPrefix channel
  | _ => .err .other

/-- `MIDIPort.unmarshal` (midi/events/meta/midi_port.go:35-49). -/
def unmarshalMIDIPort (data : Bytes) : Outcome Body :=
  match data with
  | [port] => if port > 127 then .err .other else makeMIDIPort port
  | _ => .err .other

/-- `EndOfTrack.unmarshal` (midi/events/meta/end_of_track.go:28-32): the data is ignored. -/
def unmarshalEndOfTrack (_data : Bytes) : Outcome Body := .ok .endOfTrack

/-- `tempo <<= 8; tempo += uint32(b)` over the data (midi/events/meta/tempo.go:37-41). -/
def tempoFold (data : Bytes) : UInt32 := data.foldl (fun t b => (t <<< 8) + b.toUInt32) 0

/-- `Tempo.unmarshal` (midi/events/meta/tempo.go:32-46). -/
def unmarshalTempo (data : Bytes) : Outcome Body :=
  if data.length ≠ 3 then .err .other else .ok (.tempo (tempoFold data))

/-- The checks and conversion shared by `SMPTEOffset.unmarshal` (midi/events/meta/smpte_offset.go:70-113) and
`SMPTEOffset.UnmarshalBinary` (smpte_offset.go:159-202), on the five data bytes. -/
def smpteFromData (d0 minute second frames fractions : UInt8) : Outcome Body :=
  let rr := (d0 >>> 5) &&& 0x03
  let hour := d0 &&& 0x1f
  if hour > 24 then .err .other
  else if minute > 59 then .err .other
  else if second > 59 then .err .other
  else if rr ≠ 0 ∧ rr ≠ 1 ∧ rr ≠ 2 ∧ rr ≠ 3 then .err .other
  else
    let framerate : UInt8 := if rr = 0 then 24 else if rr = 1 then 25 else if rr = 2 then 29 else if rr = 3 then 30 else 0
    if frames ≥ framerate then .err .other
    else if fractions > 100 then .err .other
    else makeSMPTEOffset hour minute second framerate frames fractions

/-- `SMPTEOffset.unmarshal` (midi/events/meta/smpte_offset.go:65-116). -/
def unmarshalSMPTEOffset (data : Bytes) : Outcome Body :=
  match data with
  | [d0, minute, second, frames, fractions] => smpteFromData d0 minute second frames fractions
  | _ => .err .other

/-- The loop `denominator := uint8(1); for i := uint8(0); i < n; i++ { denominator *= 2 }`
(midi/events/meta/time_signature.go:53-56, 106-109). -/
def denomFromExp (n : UInt8) : UInt8 := Nat.repeat (· * 2) n.toNat (1 : UInt8)

/-- `TimeSignature.unmarshal` (midi/events/meta/time_signature.go:44-61). -/
def unmarshalTimeSignature (data : Bytes) : Outcome Body :=
  match data with
  | [num, exp, ticksPerClick, thirtySeconds] => makeTimeSignature num (denomFromExp exp) ticksPerClick thirtySeconds
  | _ => .err .other

/-- The conversion shared by `KeySignature.unmarshal` (midi/events/meta/key_signature.go:62-90) and
`KeySignature.UnmarshalBinary` (key_signature.go:121-141). -/
def keySignatureFromData (d0 d1 : UInt8) : Outcome Body :=
  let accidentals := d0.toInt8
  if d1 = 0 then
    match Lib.majorScale accidentals with
    | none => .err .other
    | some _ => makeKeySignature accidentals Lib.Major
  else if d1 = 1 then
    match Lib.minorScale accidentals with
    | none => .err .other
    | some _ => makeKeySignature accidentals Lib.Minor
  else .err .other

/-- `KeySignature.unmarshal` (midi/events/meta/key_signature.go:57-93). -/
def unmarshalKeySignature (data : Bytes) : Outcome Body :=
  match data with
  | [d0, d1] => keySignatureFromData d0 d1
  | _ => .err .other

/-- Manufacturer and data split of `SequencerSpecificEvent` (midi/events/meta/sequencer_specific.go:34-40, 74-80).
`data[1:]` panics on an empty slice; for a leading 00, `data[3:]` panics on fewer than three bytes (`data[0:3]` alone
could succeed on spare capacity, but the next line panics anyway). -/
def sequencerSplit (data : Bytes) : Outcome (Bytes × Bytes) :=
  match data with
  | [] => .panic
  | b :: d => if b = 0 then (if data.length < 3 then .panic else .ok (data.take 3, data.drop 3)) else .ok ([b], d)

/-- `SequencerSpecificEvent.unmarshal` (midi/events/meta/sequencer_specific.go:33-45). -/
def unmarshalSequencerSpecific (data : Bytes) : Outcome Body := do
  let (id, d) ← sequencerSplit data
  .ok (.sequencerSpecific (Lib.lookupManufacturer id) d)

/-- The dispatch on the event type (midi/events/meta/metaevent.go:81-139). -/
def metaUnmarshal (type : UInt8) (data : Bytes) : Outcome Body :=
  if type = 0x00 then unmarshalSequenceNumber data
  else if type = 0x01 then unmarshalText .text data
  else if type = 0x02 then unmarshalText .copyright data
  else if type = 0x03 then unmarshalText .trackName data
  else if type = 0x04 then unmarshalText .instrumentName data
  else if type = 0x05 then unmarshalText .lyric data
  else if type = 0x06 then unmarshalText .marker data
  else if type = 0x07 then unmarshalText .cuePoint data
  else if type = 0x08 then unmarshalText .programName data
  else if type = 0x09 then unmarshalText .deviceName data
  else if type = 0x20 then unmarshalMIDIChannelPrefix data
  else if type = 0x21 then unmarshalMIDIPort data
  else if type = 0x2f then unmarshalEndOfTrack data
  else if type = 0x51 then unmarshalTempo data
  else if type = 0x54 then unmarshalSMPTEOffset data
  else if type = 0x59 then unmarshalKeySignature data
  else if type = 0x58 then unmarshalTimeSignature data
  else if type = 0x7f then unmarshalSequencerSpecific data
  else .err .other

/-- `metaevent.Parse` (midi/events/meta/metaevent.go:59-140).  `spare` is the array content beyond `bytes`. -/
def metaParse (tick : UInt64) (bytes spare : Bytes) : Outcome Event := do
  let (delta, remaining) ← vlqSlice bytes
  match remaining with
  | [] => .err .other
  | status :: rest =>
    if status ≠ 0xff then .err .other
    else
      match rest with
      | [] => .err .other
      | type :: rest' => do
        let data ← vlfSlice rest' spare
        let body ← metaUnmarshal (type &&& 0x7f) data
        .ok ⟨tick, delta, bytes, body⟩

/-! ### MIDI channel events -/

/-- The note built by `unmarshal` before the context is applied (note_on.go:53-57, note_off.go:52-56). -/
def rawNote (mc : MiddleC) (n : UInt8) : NoteVal := ⟨n, formatNoteNil mc n, formatNoteNil mc n⟩

/-- `NoteOff.unmarshal` (midi/events/midi/note_off.go:42-68).  The status nibble is checked by the caller. -/
def unmarshalNoteOff (mc : MiddleC) (status : UInt8) (data : Bytes) : Outcome Body :=
  match data with
  | note :: v :: _ => if v > 127 then .err .other else makeNoteOff (status &&& 0x0f) (rawNote mc note) v
  | _ => .err .other

/-- `NoteOn.unmarshal` (midi/events/midi/note_on.go:43-69). -/
def unmarshalNoteOn (mc : MiddleC) (status : UInt8) (data : Bytes) : Outcome Body :=
  match data with
  | note :: v :: _ => if v > 127 then .err .other else makeNoteOn (status &&& 0x0f) (rawNote mc note) v
  | _ => .err .other

/-- `PolyphonicPressure.unmarshal` (midi/events/midi/polyphonic_pressure.go:39-54): one data byte, not range checked
before `MakePolyphonicPressure`. -/
def unmarshalPolyphonicPressure (status : UInt8) (data : Bytes) : Outcome Body :=
  match data with
  | pressure :: _ => makePolyphonicPressure (status &&& 0x0f) pressure
  | _ => .err .other

/-- `Controller.unmarshal` (midi/events/midi/controller.go:37-57). -/
def unmarshalController (status : UInt8) (data : Bytes) : Outcome Body :=
  match data with
  | c :: v :: _ => makeController (status &&& 0x0f) (Lib.lookupController c) v
  | _ => .err .other

/-- `ProgramChange.unmarshal` (midi/events/midi/program_change.go:37-52). -/
def unmarshalProgramChange (status : UInt8) (data : Bytes) : Outcome Body :=
  match data with
  | program :: _ => makeProgramChange (status &&& 0x0f) 0 program
  | _ => .err .other

/-- `ChannelPressure.unmarshal` (midi/events/midi/channel_pressure.go:39-62). -/
def unmarshalChannelPressure (status : UInt8) (data : Bytes) : Outcome Body :=
  match data with
  | pressure :: _ => if pressure > 127 then .err .other else makeChannelPressure (status &&& 0x0f) pressure
  | _ => .err .other

/-- `bend := uint16(data[0]); bend <<= 7; bend |= uint16(data[1]) & 0x7f` (midi/events/midi/pitch_bend.go:45-47,
83-85). -/
def bendFromData (d0 d1 : UInt8) : UInt16 := (d0.toUInt16 <<< 7) ||| (d1.toUInt16 &&& 0x7f)

/-- `PitchBend.unmarshal` (midi/events/midi/pitch_bend.go:35-56). -/
def unmarshalPitchBend (status : UInt8) (data : Bytes) : Outcome Body :=
  match data with
  | d0 :: d1 :: _ => makePitchBend (status &&& 0x0f) (bendFromData d0 d1)
  | _ => .err .other

/-- The dispatch of `midievent.Parse` (midi/events/midi/midievent.go:80-103). -/
def midiUnmarshal (mc : MiddleC) (status : UInt8) (data : Bytes) : Outcome Body :=
  let s := status &&& 0xf0
  if s = 0x80 then unmarshalNoteOff mc status data
  else if s = 0x90 then unmarshalNoteOn mc status data
  else if s = 0xA0 then unmarshalPolyphonicPressure status data
  else if s = 0xB0 then unmarshalController status data
  else if s = 0xC0 then unmarshalProgramChange status data
  else if s = 0xD0 then unmarshalChannelPressure status data
  else if s = 0xE0 then unmarshalPitchBend status data
  else .err .other

/-- `midievent.Parse` (midi/events/midi/midievent.go:61-104). -/
def midiParse (mc : MiddleC) (tick : UInt64) (runningStatus : UInt8) (bytes : Bytes) : Outcome Event := do
  let (delta, remaining) ← vlqSlice bytes
  match remaining with
  | [] => .err .other
  | b :: rest =>
    let (status, data) := if b < 0x80 then (runningStatus, remaining) else (b, rest)
    let body ← midiUnmarshal mc status data
    .ok ⟨tick, delta, bytes, body⟩

/-! ### SysEx events -/

/-- Manufacturer and data of an F0 message (midi/events/sysex/message.go:57-65, 103-112): `data[1:]` panics on an
empty slice and `d[len(d)-1]` panics when only the manufacturer byte is present. -/
def sysExFromData (data : Bytes) : Outcome Body :=
  match data with
  | [] => .panic
  | id :: d =>
    match d.getLast? with
    | none => .panic
    | some t =>
      if t ≠ 0xf7 then .ok (.sysExMessage (Lib.lookupManufacturer [id]) d false)
      else .ok (.sysExMessage (Lib.lookupManufacturer [id]) d.dropLast true)

/-- `SysExMessage.unmarshal` (midi/events/sysex/message.go:48-68). -/
def unmarshalSysExMessage (data : Bytes) : Outcome Body :=
  if data.length = 0 then .err .other else sysExFromData data

/-- `SysExContinuationMessage.unmarshal` (midi/events/sysex/continuation_message.go:45-61); `UnmarshalBinary` has the
same body (continuation_message.go:94-104).  The terminating F7 is dropped and `End` stays false. -/
def unmarshalSysExContinuation (data : Bytes) : Outcome Body :=
  let d := if data.getLast? = some 0xf7 then data.dropLast else data
  .ok (.sysExContinuation d false)

/-- `SysExEscapeMessage.unmarshal` (midi/events/sysex/escape_message.go:29-37). -/
def unmarshalSysExEscape (data : Bytes) : Outcome Body := .ok (.sysExEscape data)

/-- `sysex.Parse` (midi/events/sysex/sysex.go:52-88). -/
def sysexParse (tick : UInt64) (casio : Bool) (bytes spare : Bytes) : Outcome Event := do
  let (delta, remaining) ← vlqSlice bytes
  match remaining with
  | [] => .err .other
  | status :: rest =>
    if status ≠ 0xf0 ∧ status ≠ 0xf7 then .err .other
    else do
      let data ← vlfSlice rest spare
      let body ←
        if status = 0xf0 then unmarshalSysExMessage data
        else if casio then unmarshalSysExContinuation data
        else unmarshalSysExEscape data
      .ok ⟨tick, delta, bytes, body⟩

end Midiasm
