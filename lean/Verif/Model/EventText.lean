import Verif.Model.Regex
import Verif.Model.Event

/-!
Events from assembly text: `UnmarshalText` (midi/events/text.go, midi/events/meta, midi/events/midi, midi/events/sysex).

Every function returns the delta time and the event without tick and bytes, which are 0 and empty in all of them.
-/

namespace Midiasm

/-- `ParseDelta` (midi/lib/delta.go:15-21). -/
def parseDelta (s : Bytes) : Outcome UInt32 := do
  let v ← parseUint s 32
  .ok (UInt32.ofNat v)

/-- `ParseChannel` (midi/lib/channel.go:12-20). -/
def parseChannel (s : Bytes) : Outcome UInt8 := do
  let v ← parseUint s 8
  if v > 15 then .err .other else .ok (UInt8.ofNat v)

/-- An 8 bit number: `strconv.ParseUint(s, 10, 8)` and the conversion to `uint8`. -/
def parseByte (s : Bytes) : Outcome UInt8 := do
  let v ← parseUint s 8
  .ok (UInt8.ofNat v)

/-- The pattern `([A-G][♯♭]?)([-]?[0-9])` (midi/events/midi/note_on.go:228). -/
def notePattern : List Item :=
  group [.chr (rangeTok 65 71), .opt accidentalTok] ++ group [.opt (charTok 45), .chr digitTok]

/-- `LookupNote` (midi/lib/note.go:16-24) of a string given as bytes. -/
def lookupNoteText (s : Bytes) : Outcome Lib.Note :=
  match Lib.Notes.find? (fun n => str n.name == s) with
  | some n => .ok n
  | none => .err .other

/-- `ParseNote` (midi/events/midi/note_on.go:227-245): `12*int8(octave+1) + int8(ord)` wraps around at 8 bits. -/
def parseNote (s : Bytes) : Outcome NoteVal :=
  match findSubmatch notePattern s with
  | some [n, o] => do
      let note ← lookupNoteText n
      let octave ← parseInt8 o
      .ok ⟨UInt8.ofInt (12 * (octave + 1) + note.ord), note.name ++ toString octave, note.name ++ toString octave⟩
  | _ => .err .other

/-- `FindManufacturer` (midi/lib/manufacturer.go:85-93).  The iteration order of the Go map is unspecified; the list is one possible
order. -/
def findManufacturer (table : List (String × Lib.Manufacturer)) (s : Bytes) : Outcome Lib.Manufacturer :=
  match table.find? (fun e => s == str e.2.name) with
  | some e => .ok e.2
  | none => .err .other

/-- The start of every event pattern: `(?i)delta:([0-9]+)(?:.*?)`. -/
def deltaPattern : List Item := ilit "delta:" ++ number ++ [.star anyTok false]

/-- `delta … Tag\s+(.*)` (midi/events/meta/text.go:67, copyright.go:65, track_name.go:83, instrument_name.go:66, lyric.go:66,
marker.go:66, cue_point.go:66, program_name.go:66, device_name.go:66, sysex/continuation_message.go:110,
sysex/escape_message.go:73). -/
def restPattern (tag : String) : List Item :=
  deltaPattern ++ ilit tag ++ plus spaceTok ++ group [.star anyTok true]

/-- `delta … Tag\s+([0-9]+)` (midi/events/meta/sequence_number.go:74, midi_channel_prefix.go:81, midi_port.go:83). -/
def numberPattern (tag : String) : List Item := deltaPattern ++ ilit tag ++ plus spaceTok ++ number

/-- `delta … Tag\s+(.*?),(.*)` (midi/events/meta/sequencer_specific.go:98, sysex/message.go:125). -/
def dataPattern (tag : String) : List Item :=
  deltaPattern ++ ilit tag ++ plus spaceTok ++ group [.star anyTok false] ++ ilit "," ++ group [.star anyTok true]

/-- `delta … Tempo\s+tempo:([0-9]+)` (midi/events/meta/tempo.go:94). -/
def tempoPattern : List Item := deltaPattern ++ ilit "Tempo" ++ plus spaceTok ++ ilit "tempo:" ++ number

/-- midi/events/meta/smpte_offset.go:209. -/
def smptePattern : List Item :=
  deltaPattern ++ ilit "SMPTEOffset" ++ plus spaceTok ++ number ++ plus spaceTok ++ number ++ plus spaceTok ++ number ++
    plus spaceTok ++ number ++ plus spaceTok ++ number ++ plus spaceTok ++ number

/-- midi/events/meta/time_signature.go:118. -/
def timePattern : List Item :=
  deltaPattern ++ ilit "TimeSignature" ++ plus spaceTok ++ number ++ ilit "/" ++
    group [.chr (rangeTok 49 57), .star digitTok true] ++ ilit "," ++ [.star spaceTok true] ++ ilit " " ++ number ++
    ilit " ticks per click," ++ [.star spaceTok true] ++ group [.chr (rangeTok 49 57), .star (rangeTok 48 56) true] ++
    ilit "/32 per quarter"

/-- `[ABCDEFG]` under `(?i)`. -/
def keyTok : Tok → Bool
  | [b] => 97 ≤ lower b && lower b ≤ 103
  | _ => false

/-- midi/events/meta/key_signature.go:148. -/
def keyPattern : List Item :=
  deltaPattern ++ ilit "KeySignature" ++ plus spaceTok ++ group [.chr keyTok, .opt accidentalTok] ++ plus spaceTok ++
    group [.alt ((str "major").map foldTok) ((str "minor").map foldTok)]

/-- `delta … Tag\s+channel:([0-9]+)\s+`. -/
def channelPattern (tag : String) : List Item :=
  deltaPattern ++ ilit tag ++ plus spaceTok ++ ilit "channel:" ++ number ++ plus spaceTok

/-- midi/events/midi/note_on.go:108, note_off.go:164. -/
def notePatternOf (tag : String) : List Item :=
  channelPattern tag ++ ilit "note:" ++ group [.chr keyTok, .opt accidentalTok, .chr digitTok] ++ ilit "," ++
    [.star spaceTok true] ++ ilit "velocity:" ++ number

/-- midi/events/midi/polyphonic_pressure.go:86, channel_pressure.go:94. -/
def pressurePattern (tag : String) : List Item := channelPattern tag ++ ilit "pressure:" ++ number

/-- midi/events/midi/controller.go:90; `(?:.*)?` is `.*`. -/
def controllerPattern : List Item :=
  deltaPattern ++ ilit "Controller" ++ [.star anyTok true] ++ plus spaceTok ++ ilit "channel:" ++ number ++ plus spaceTok ++
    number ++ [.star anyTok true] ++ ilit "value:" ++ number

/-- midi/events/midi/program_change.go:85. -/
def programPattern : List Item :=
  channelPattern "ProgramChange" ++ ilit "bank:" ++ number ++ ilit "," ++ [.star spaceTok true] ++ ilit "program:" ++ number

/-- midi/events/midi/pitch_bend.go:93. -/
def bendPattern : List Item := channelPattern "PitchBend" ++ ilit "bend:" ++ number

/-- The two loops of `KeySignature.UnmarshalText` (midi/events/meta/key_signature.go:158-172) for the lower case name `key`; a name in
neither list leaves C major.  `strings.ToLower` on these names changes ASCII letters only. -/
def keyByName (key : Bytes) : Int8 × UInt8 :=
  let major := match Lib.MAJOR_SCALES.find? (fun s => (str s.name).map lower == key) with
    | some s => (s.accidentals, s.keyType)
    | none => (0, 0)
  match Lib.MINOR_SCALES.find? (fun s => (str s.name).map lower == key) with
  | some s => (s.accidentals, s.keyType)
  | none => major

/-- `UnmarshalText` of each text-like event: text.go:66-79, copyright.go:64-77, track_name.go:82-94, instrument_name.go:65-78,
lyric.go:65-84, marker.go:65-78, cue_point.go:65-78, program_name.go:65-78, device_name.go:65-77 (midi/events/meta). -/
def readText (k : TextKind) (line : Bytes) : Outcome (UInt32 × Body) :=
  match findSubmatch (restPattern k.tag) line with
  | some [d, s] => do .ok (← parseDelta d, .text k s)
  | _ => .err .other

/-- `SequenceNumber.UnmarshalText` (midi/events/meta/sequence_number.go:73-88). -/
def readSequenceNumber (line : Bytes) : Outcome (UInt32 × Body) :=
  match findSubmatch (numberPattern "SequenceNumber") line with
  | some [d, n] => do
      let delta ← parseDelta d
      let v ← parseUint n 16
      .ok (delta, .sequenceNumber (UInt16.ofNat v))
  | _ => .err .other

/-- `MIDIChannelPrefix.UnmarshalText` (midi/events/meta/midi_channel_prefix.go:80-96). -/
def readMIDIChannelPrefix (line : Bytes) : Outcome (UInt32 × Body) :=
  match findSubmatch (numberPattern "MIDIChannelPrefix") line with
  | some [d, n] => do
      let delta ← parseDelta d
      let v ← parseByte n
      if v > 15 then .err .other else .ok (delta, ← makeMIDIChannelPrefix v)
  | _ => .err .other

/-- `MIDIPort.UnmarshalText` (midi/events/meta/midi_port.go:82-99). -/
def readMIDIPort (line : Bytes) : Outcome (UInt32 × Body) :=
  match findSubmatch (numberPattern "MIDIPort") line with
  | some [d, n] => do
      let delta ← parseDelta d
      let v ← parseByte n
      if v > 127 then .err .other else .ok (delta, ← makeMIDIPort v)
  | _ => .err .other

/-- `EndOfTrack.UnmarshalText` (midi/events/meta/end_of_track.go:58-70). -/
def readEndOfTrack (line : Bytes) : Outcome (UInt32 × Body) :=
  match findSubmatch (deltaPattern ++ ilit "EndOfTrack") line with
  | some [d] => do .ok (← parseDelta d, .endOfTrack)
  | _ => .err .other

/-- `Tempo.UnmarshalText` (midi/events/meta/tempo.go:93-107). -/
def readTempo (line : Bytes) : Outcome (UInt32 × Body) :=
  match findSubmatch tempoPattern line with
  | some [d, n] => do
      let delta ← parseDelta d
      let v ← parseUint n 32
      .ok (delta, .tempo (UInt32.ofNat v))
  | _ => .err .other

/-- `SMPTEOffset.UnmarshalText` (midi/events/meta/smpte_offset.go:208-237). -/
def readSMPTEOffset (line : Bytes) : Outcome (UInt32 × Body) :=
  match findSubmatch smptePattern line with
  | some [d, h, m, s, r, f, ff] => do
      let delta ← parseDelta d
      let hour ← parseByte h
      let minute ← parseByte m
      let second ← parseByte s
      let rate ← parseByte r
      let frames ← parseByte f
      let fractions ← parseByte ff
      if rate ≠ 24 ∧ rate ≠ 25 ∧ rate ≠ 29 ∧ rate ≠ 30 then .err .other
      else if fractions > 100 then .err .other
      else .ok (delta, ← makeSMPTEOffset hour minute second rate frames fractions)
  | _ => .err .other

/-- `TimeSignature.UnmarshalText` (midi/events/meta/time_signature.go:117-137). -/
def readTimeSignature (line : Bytes) : Outcome (UInt32 × Body) :=
  match findSubmatch timePattern line with
  | some [d, n, dd, t, b] => do
      let delta ← parseDelta d
      let num ← parseByte n
      let den ← parseByte dd
      let ticks ← parseByte t
      let beats ← parseByte b
      .ok (delta, ← makeTimeSignature num den ticks beats)
  | _ => .err .other

/-- `KeySignature.UnmarshalText` (midi/events/meta/key_signature.go:147-178). -/
def readKeySignature (line : Bytes) : Outcome (UInt32 × Body) :=
  match findSubmatch keyPattern line with
  | some [d, note, mode] => do
      let delta ← parseDelta d
      let (accidentals, keyType) := keyByName ((note ++ [32] ++ mode).map lower)
      .ok (delta, ← makeKeySignature accidentals keyType)
  | _ => .err .other

/-- `SequencerSpecificEvent.UnmarshalText` (midi/events/meta/sequencer_specific.go:90-123). -/
def readSequencerSpecific (table : List (String × Lib.Manufacturer)) (line : Bytes) : Outcome (UInt32 × Body) :=
  match findSubmatch (dataPattern "SequencerSpecificEvent") line with
  | some [d, name, s] => do
      let delta ← parseDelta d
      let m ← findManufacturer table name
      let data ← parseHex s
      .ok (delta, .sequencerSpecific m data)
  | _ => .err .other

/-- `NoteOff.UnmarshalText` (midi/events/midi/note_off.go:157-188). -/
def readNoteOff (line : Bytes) : Outcome (UInt32 × Body) :=
  match findSubmatch (notePatternOf "NoteOff") line with
  | some [d, c, n, v] => do
      let delta ← parseDelta d
      let ch ← parseChannel c
      let note ← parseNote n
      let velocity ← parseByte v
      if velocity > 127 then .err .other else .ok (delta, .noteOff ch note velocity)
  | _ => .err .other

/-- `NoteOn.UnmarshalText` (midi/events/midi/note_on.go:107-129). -/
def readNoteOn (line : Bytes) : Outcome (UInt32 × Body) :=
  match findSubmatch (notePatternOf "NoteOn") line with
  | some [d, c, n, v] => do
      let delta ← parseDelta d
      let ch ← parseChannel c
      let note ← parseNote n
      let velocity ← parseByte v
      if velocity > 127 then .err .other else .ok (delta, ← makeNoteOn ch note velocity)
  | _ => .err .other

/-- `PolyphonicPressure.UnmarshalText` (midi/events/midi/polyphonic_pressure.go:85-103). -/
def readPolyphonicPressure (line : Bytes) : Outcome (UInt32 × Body) :=
  match findSubmatch (pressurePattern "PolyphonicPressure") line with
  | some [d, c, v] => do
      let delta ← parseDelta d
      let ch ← parseChannel c
      let pressure ← parseByte v
      if pressure > 127 then .err .other else .ok (delta, ← makePolyphonicPressure ch pressure)
  | _ => .err .other

/-- `Controller.UnmarshalText` (midi/events/midi/controller.go:89-107). -/
def readController (line : Bytes) : Outcome (UInt32 × Body) :=
  match findSubmatch controllerPattern line with
  | some [d, c, n, v] => do
      let delta ← parseDelta d
      let ch ← parseChannel c
      let controller ← parseByte n
      let value ← parseByte v
      .ok (delta, ← makeController ch (Lib.lookupController controller) value)
  | _ => .err .other

/-- `ProgramChange.UnmarshalText` (midi/events/midi/program_change.go:84-102). -/
def readProgramChange (line : Bytes) : Outcome (UInt32 × Body) :=
  match findSubmatch programPattern line with
  | some [d, c, n, v] => do
      let delta ← parseDelta d
      let ch ← parseChannel c
      let bank ← parseUint n 16
      let program ← parseByte v
      .ok (delta, ← makeProgramChange ch (UInt16.ofNat bank) program)
  | _ => .err .other

/-- `ChannelPressure.UnmarshalText` (midi/events/midi/channel_pressure.go:93-111). -/
def readChannelPressure (line : Bytes) : Outcome (UInt32 × Body) :=
  match findSubmatch (pressurePattern "ChannelPressure") line with
  | some [d, c, v] => do
      let delta ← parseDelta d
      let ch ← parseChannel c
      let pressure ← parseByte v
      if pressure > 127 then .err .other else .ok (delta, ← makeChannelPressure ch pressure)
  | _ => .err .other

/-- `PitchBend.UnmarshalText` (midi/events/midi/pitch_bend.go:92-108). -/
def readPitchBend (line : Bytes) : Outcome (UInt32 × Body) :=
  match findSubmatch bendPattern line with
  | some [d, c, v] => do
      let delta ← parseDelta d
      let ch ← parseChannel c
      let bend ← parseUint v 16
      .ok (delta, ← makePitchBend ch (UInt16.ofNat bend))
  | _ => .err .other

/-- `SysExMessage.UnmarshalText` (midi/events/sysex/message.go:118-144). -/
def readSysExMessage (table : List (String × Lib.Manufacturer)) (line : Bytes) : Outcome (UInt32 × Body) :=
  match findSubmatch (dataPattern "SysExMessage") line with
  | some [d, name, s] => do
      let delta ← parseDelta d
      let m ← findManufacturer table name
      let data ← parseHex s
      .ok (delta, .sysExMessage m data false)
  | _ => .err .other

/-- `SysExContinuationMessage.UnmarshalText` (midi/events/sysex/continuation_message.go:109-123). -/
def readSysExContinuation (line : Bytes) : Outcome (UInt32 × Body) :=
  match findSubmatch (restPattern "SysExContinuation") line with
  | some [d, s] => do
      let delta ← parseDelta d
      let data ← parseHex s
      .ok (delta, .sysExContinuation data false)
  | _ => .err .other

/-- `SysExEscapeMessage.UnmarshalText` (midi/events/sysex/escape_message.go:72-86). -/
def readSysExEscape (line : Bytes) : Outcome (UInt32 × Body) :=
  match findSubmatch (restPattern "SysExEscape") line with
  | some [d, s] => do
      let delta ← parseDelta d
      let data ← parseHex s
      .ok (delta, .sysExEscape data)
  | _ => .err .other

/-- The cases of `Event.UnmarshalText` (midi/events/text.go:13-104): keywords in the order they are looked for, and the function
called for each. -/
def textCases (table : List (String × Lib.Manufacturer)) : List (String × (Bytes → Outcome (UInt32 × Body))) := [
  ("SequenceNumber", readSequenceNumber),
  ("Text", readText .text),
  ("Copyright", readText .copyright),
  ("TrackName", readText .trackName),
  ("InstrumentName", readText .instrumentName),
  ("Lyric", readText .lyric),
  ("Marker", readText .marker),
  ("CuePoint", readText .cuePoint),
  ("ProgramName", readText .programName),
  ("DeviceName", readText .deviceName),
  ("MIDIChannelPrefix", readMIDIChannelPrefix),
  ("MIDIPort", readMIDIPort),
  ("Tempo", readTempo),
  ("TimeSignature", readTimeSignature),
  ("KeySignature", readKeySignature),
  ("SMPTEOffset", readSMPTEOffset),
  ("EndOfTrack", readEndOfTrack),
  ("SequencerSpecificEvent", readSequencerSpecific table),
  ("NoteOff", readNoteOff),
  ("NoteOn", readNoteOn),
  ("PolyphonicPressure", readPolyphonicPressure),
  ("Controller", readController),
  ("ProgramChange", readProgramChange),
  ("ChannelPressure", readChannelPressure),
  ("PitchBend", readPitchBend),
  ("SysExMessage", readSysExMessage table),
  ("SysExContinuation", readSysExContinuation),
  ("SysExEscape", readSysExEscape)]

/-- `Event.UnmarshalText` (midi/events/text.go:13-104): the first keyword contained in the line decides. -/
def readEvent (table : List (String × Lib.Manufacturer)) (line : Bytes) : Outcome Event :=
  match (textCases table).find? (fun c => contains line (str c.1)) with
  | some c => do
      let (delta, body) ← c.2 line
      .ok ⟨0, delta, [], body⟩
  | none => .err .other

end Midiasm
