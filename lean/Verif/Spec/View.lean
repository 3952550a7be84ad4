import Verif.Model.Event
import Verif.Spec.Wire

/-!
Reading off the field values of an event value, so that results of the code can be compared with `Spec.Content`.  Display
fields (note names, bank, controller and manufacturer names) are left out; they have their own properties.
-/

namespace Midiasm
open Spec

/-- The field values of an event. -/
def Body.view : Body → Content
  | .sequenceNumber n => .sequenceNumber n.toNat
  | .text k s => .text k.type.toNat s
  | .midiChannelPrefix ch => .channelPrefix ch.toNat
  | .midiPort p => .port p.toNat
  | .endOfTrack => .endOfTrack
  | .tempo t => .tempo t.toNat
  | .smpteOffset h m s r f ff => .smpteOffset h.toNat m.toNat s.toNat r.toNat f.toNat ff.toNat
  | .timeSignature n d c t => .timeSignature n.toNat d.toNat c.toNat t.toNat
  | .keySignature a k _ => .keySignature a.toInt k.toNat
  | .sequencerSpecific m data => .sequencerSpecific m.id data
  | .noteOff ch n v => .noteOff ch.toNat n.value.toNat v.toNat
  | .noteOn ch n v => .noteOn ch.toNat n.value.toNat v.toNat
  | .polyphonicPressure ch p => .polyPressure ch.toNat none p.toNat
  | .controller ch c v => .controller ch.toNat c.id.toNat v.toNat
  | .programChange ch _ p => .program ch.toNat p.toNat
  | .channelPressure ch p => .channelPressure ch.toNat p.toNat
  | .pitchBend ch b => .pitchBend ch.toNat b.toNat
  | .sysExMessage m data single => .sysex m.id data single
  | .sysExContinuation data _ => .continuation data
  | .sysExEscape data => .escape data

/-- What an event shows up as: manufacturer ID 7F is replaced by 7E (see C22), everything else is as specified. -/
def asShown : Content → Content
  | .sysex id data t => .sysex (if id = [0x7f] then [0x7e] else id) data t
  | .sequencerSpecific id data => .sequencerSpecific (if id = [0x7f] then [0x7e] else id) data
  | c => c

theorem asShown_eq {c : Content} (h : manufacturerID c ≠ some [0x7f]) : asShown c = c := by
  cases c <;> simp_all [asShown, manufacturerID]

end Midiasm
