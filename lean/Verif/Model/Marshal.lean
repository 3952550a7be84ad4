import Verif.Model.Event
import Verif.Model.Vlq

/-!
`MarshalBinary` of every event: the encoded event without its delta time.
-/

namespace Midiasm

/-- `SMPTEOffset.MarshalBinary`, frame rate bits (midi/events/meta/smpte_offset.go:119-129). -/
def smpteRateBits (frameRate : UInt8) : UInt8 :=
  if frameRate = 24 then 0x00
  else if frameRate = 25 then 0x20
  else if frameRate = 29 then 0x40
  else if frameRate = 30 then 0x60
  else 0x00

/-- `MarshalBinary` of the text-like meta events.  `TrackName` writes a variable length field
(midi/events/meta/track_name.go:40-62); the other eight write `byte(len(s))` (text.go:39-46, copyright.go:37-44,
instrument_name.go, lyric.go, marker.go, cue_point.go, program_name.go, device_name.go:38-45). -/
def marshalText (k : TextKind) (s : Bytes) : Bytes :=
  match k with
  | .trackName => [0xff, k.type] ++ vlf2bin s
  | _ => [0xff, k.type, UInt8.ofNat s.length] ++ s

/-- `MarshalBinary` of every event type.  Never returns an error; `TimeSignature` loops forever on a denominator above
128 (midi/events/meta/time_signature.go:67-86).  Sources: sequence_number.go:45-53, midi_channel_prefix.go:49-56,
midi_port.go:51-58, end_of_track.go:34-40, tempo.go:54-65, smpte_offset.go:118-143, key_signature.go:95-105,
sequencer_specific.go:47-58, note_off.go:121-129, note_on.go:71-79, polyphonic_pressure.go:56-63, controller.go:59-67,
program_change.go:54-61, channel_pressure.go:64-71, pitch_bend.go:58-66, message.go:70-90,
continuation_message.go:63-82, escape_message.go:39-54. -/
def Body.marshal : Body → Outcome Bytes
  | .sequenceNumber n => .ok ([0xff, 0x00, 2] ++ putUint16 n)
  | .text k s => .ok (marshalText k s)
  | .midiChannelPrefix ch => .ok [0xff, 0x20, 1, ch]
  | .midiPort port => .ok [0xff, 0x21, 1, port]
  | .endOfTrack => .ok [0xff, 0x2f, 0]
  | .tempo t =>
      .ok [0xff, 0x51, 3, (t >>> 16 &&& 0xff).toUInt8, (t >>> 8 &&& 0xff).toUInt8, (t >>> 0 &&& 0xff).toUInt8]
  | .smpteOffset hour minute second frameRate frames fractions =>
      .ok [0xff, 0x54, 5, smpteRateBits frameRate ||| (hour &&& 0x1f), minute, second, frames, fractions]
  | .timeSignature num den ticksPerClick thirtySeconds => do
      let d ← denomLoop den 8 1 0
      .ok [0xff, 0x58, 4, num, UInt8.ofNat d, ticksPerClick, thirtySeconds]
  | .keySignature accidentals keyType _ => .ok [0xff, 0x59, 2, accidentals.toUInt8, keyType]
  | .sequencerSpecific m data =>
      .ok ([0xff, 0x7f, UInt8.ofNat (m.id.length + data.length)] ++ m.id ++ data)
  | .noteOff ch note velocity => .ok [0x80 ||| ch, note.value, velocity]
  | .noteOn ch note velocity => .ok [0x90 ||| ch, note.value, velocity]
  | .polyphonicPressure ch pressure => .ok [0xA0 ||| ch, pressure]
  | .controller ch c value => .ok [0xb0 ||| ch, c.id, value]
  | .programChange ch _ program => .ok [0xc0 ||| ch, program]
  | .channelPressure ch pressure => .ok [0xD0 ||| ch, pressure]
  | .pitchBend ch bend => .ok [0xe0 ||| ch, (bend >>> 8 &&& 0x00ff).toUInt8, (bend >>> 0 &&& 0x00ff).toUInt8]
  | .sysExMessage m data single =>
      .ok (0xf0 :: vlf2bin (m.id ++ data ++ (if single then [0xf7] else [])))
  | .sysExContinuation data end_ => .ok (0xf7 :: vlf2bin (data ++ (if end_ then [0xf7] else [])))
  | .sysExEscape data => .ok (0xf7 :: vlf2bin data)

end Midiasm
