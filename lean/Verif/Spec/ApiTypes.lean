import Verif.Spec.Api
import Verif.Model.Binary

/-!
Which events the binary API of each event type is for.
-/

namespace Spec
open Midiasm

/-- How the events of a type are written: meta events with a type, channel events with the upper half of the status, SysEx events with the
status. -/
inductive Written where
  | metaType (type : Nat)
  | chanStatus (upper : Nat)
  | sysexStatus (status : Nat)

/-- The Standard MIDI File specification's numbers. -/
def writtenAs : EventType → Written
  | .sequenceNumber => .metaType 0x00
  | .text .text => .metaType 0x01
  | .text .copyright => .metaType 0x02
  | .text .trackName => .metaType 0x03
  | .text .instrumentName => .metaType 0x04
  | .text .lyric => .metaType 0x05
  | .text .marker => .metaType 0x06
  | .text .cuePoint => .metaType 0x07
  | .text .programName => .metaType 0x08
  | .text .deviceName => .metaType 0x09
  | .midiChannelPrefix => .metaType 0x20
  | .midiPort => .metaType 0x21
  | .endOfTrack => .metaType 0x2f
  | .tempo => .metaType 0x51
  | .smpteOffset => .metaType 0x54
  | .timeSignature => .metaType 0x58
  | .keySignature => .metaType 0x59
  | .sequencerSpecific => .metaType 0x7f
  | .noteOff => .chanStatus 8
  | .noteOn => .chanStatus 9
  | .polyphonicPressure => .chanStatus 10
  | .controller => .chanStatus 11
  | .programChange => .chanStatus 12
  | .channelPressure => .chanStatus 13
  | .pitchBend => .chanStatus 14
  | .sysExMessage => .sysexStatus 0xf0
  | .sysExContinuation => .sysexStatus 0xf7
  | .sysExEscape => .sysexStatus 0xf7

/-- The event is written that way (the upper bit of the type of a meta event is not looked at). -/
def Raw.WrittenAs : Raw → Written → Prop
  | .metaEvent type _, .metaType n => type.toNat % 128 = n
  | .chan status _, .chanStatus n => status.toNat / 16 = n
  | .sysex status _, .sysexStatus n => status.toNat = n
  | _, _ => False

end Spec
