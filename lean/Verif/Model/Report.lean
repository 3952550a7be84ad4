import Verif.Model.Validate
import Verif.Model.Commands

/-!
The text of the warnings about a file that the commands print on standard error.
-/

namespace Midiasm

/-- `Clean` (midi/events/event.go:108-123): the Go type of an event without its package, i.e. the names of the types declared in
midi/events/meta, midi/events/midi and midi/events/sysex.  They are the tags except for two of the system exclusive events. -/
def Body.typeName : Body → String
  | .sequenceNumber _ => "SequenceNumber"
  | .text .text _ => "Text"
  | .text .copyright _ => "Copyright"
  | .text .trackName _ => "TrackName"
  | .text .instrumentName _ => "InstrumentName"
  | .text .lyric _ => "Lyric"
  | .text .marker _ => "Marker"
  | .text .cuePoint _ => "CuePoint"
  | .text .programName _ => "ProgramName"
  | .text .deviceName _ => "DeviceName"
  | .midiChannelPrefix _ => "MIDIChannelPrefix"
  | .midiPort _ => "MIDIPort"
  | .endOfTrack => "EndOfTrack"
  | .tempo _ => "Tempo"
  | .smpteOffset .. => "SMPTEOffset"
  | .timeSignature .. => "TimeSignature"
  | .keySignature .. => "KeySignature"
  | .sequencerSpecific .. => "SequencerSpecificEvent"
  | .noteOff .. => "NoteOff"
  | .noteOn .. => "NoteOn"
  | .polyphonicPressure .. => "PolyphonicPressure"
  | .controller .. => "Controller"
  | .programChange .. => "ProgramChange"
  | .channelPressure .. => "ChannelPressure"
  | .pitchBend .. => "PitchBend"
  | .sysExMessage .. => "SysExMessage"
  | .sysExContinuation .. => "SysExContinuationMessage"
  | .sysExEscape .. => "SysExEscapeMessage"

/-- The text of each `fmt.Errorf` in midi/smf.go:34, 40, 60, 64, 68, 69, 83, 97, 105.  The verb `%d` prints the number of the track.  The events
named in the messages about the end of a track and about banks are an End of Track and controllers. -/
def Finding.text : Finding → Bytes
  | .format0TrackCount n => str "File contains " ++ dec n ++ str " tracks (expected 1 track for FORMAT 0)"
  | .track0Unexpected e => str "Track 0: unexpected event (" ++ str e.typeName ++ str ")"
  | .trackUnexpected t e => str "Track " ++ dec t ++ str ": unexpected event (" ++ str e.typeName ++ str ")"
  | .eotNotLast t i => str "Track " ++ dec t ++ str ": EndOfTrack @" ++ dec i ++ str " (" ++ str Body.endOfTrack.typeName ++ str ") is not last event"
  | .eotMissing t => str "Track " ++ dec t ++ str ": missing EndOfTrack event"
  | .msbMissingLsb t i => str "Track " ++ dec t ++ str ": 'Bank Select MSB' event @" ++ dec i ++ str " missing LSB (Controller)"
  | .lsbMissingMsb t i => str "Track " ++ dec t ++ str ": 'Bank Select LSB' event @" ++ dec i ++ str " missing MSB (Controller)"
  | .msbOtherChannel t i => str "Track " ++ dec t ++ str ": 'Bank Select MSB' event @" ++ dec i ++ str " LSB on another channel (Controller)"
  | .lsbOtherChannel t i => str "Track " ++ dec t ++ str ": 'Bank Select LSB' event @" ++ dec i ++ str " MSB on another channel (Controller)"

/-- What every command that reads a MIDI file prints about the result of `Validate` (commands/disassemble.go:59-66 and, with the same text,
click.go:52-59, export.go:53-60, humanise.go:86-95, notes.go:56-63, transpose.go:55-62, tsv.go:146-155). -/
def warnings (findings : List Finding) : Bytes :=
  if findings = [] then []
  else str "\n" ++ str "WARNING: there are validation errors:\n" ++ findings.flatMap (fun f => str "         ** " ++ f.text ++ str "\n") ++ str "\n"

/-- The warnings about a file that a command prints after it has read the file. -/
def warningsFor (w : World) (mc : MiddleC) (file : Bytes) : Bytes :=
  match w.file file with
  | none => []
  | some bytes =>
    match (do let smf ← decode mc w.spare bytes; validate smf) with
    | .ok fs => warnings fs
    | _ => []

end Midiasm
