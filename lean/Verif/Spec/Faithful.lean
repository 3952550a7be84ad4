import Verif.Spec.View
import Verif.Spec.File

/-!
Which event values are written so that they read back as the same event, and the wire form they are written in.
-/

namespace Midiasm
open Spec

/-- The wire form of an event value, from its field values alone. -/
def wireOf : Content → Bool → Raw
  | .sequenceNumber n, _ => .metaEvent 0x00 (be16 n)
  | .text ty s, _ => .metaEvent (UInt8.ofNat ty) s
  | .channelPrefix ch, _ => .metaEvent 0x20 [UInt8.ofNat ch]
  | .port p, _ => .metaEvent 0x21 [UInt8.ofNat p]
  | .endOfTrack, _ => .metaEvent 0x2f []
  | .tempo t, _ => .metaEvent 0x51 [UInt8.ofNat (t / 65536), UInt8.ofNat (t / 256 % 256), UInt8.ofNat (t % 256)]
  | .smpteOffset h m s r f ff, _ =>
      let code := if r = 24 then 0 else if r = 25 then 1 else if r = 29 then 2 else 3
      .metaEvent 0x54 [UInt8.ofNat (code * 32 + h), UInt8.ofNat m, UInt8.ofNat s, UInt8.ofNat f, UInt8.ofNat ff]
  | .timeSignature n d c t, _ => .metaEvent 0x58 [UInt8.ofNat n, UInt8.ofNat (Nat.log2 d), UInt8.ofNat c, UInt8.ofNat t]
  | .keySignature a m, _ => .metaEvent 0x59 [UInt8.ofNat (a % 256).toNat, UInt8.ofNat m]
  | .sequencerSpecific id data, _ => .metaEvent 0x7f (id ++ data)
  | .noteOff ch k v, _ => .chan (UInt8.ofNat (0x80 + ch)) [UInt8.ofNat k, UInt8.ofNat v]
  | .noteOn ch k v, _ => .chan (UInt8.ofNat (0x90 + ch)) [UInt8.ofNat k, UInt8.ofNat v]
  | .polyPressure ch _ p, _ => .chan (UInt8.ofNat (0xa0 + ch)) [UInt8.ofNat p]
  | .controller ch c v, _ => .chan (UInt8.ofNat (0xb0 + ch)) [UInt8.ofNat c, UInt8.ofNat v]
  | .program ch p, _ => .chan (UInt8.ofNat (0xc0 + ch)) [UInt8.ofNat p]
  | .channelPressure ch p, _ => .chan (UInt8.ofNat (0xd0 + ch)) [UInt8.ofNat p]
  | .pitchBend ch b, _ => .chan (UInt8.ofNat (0xe0 + ch)) [UInt8.ofNat (b / 128), UInt8.ofNat (b % 128)]
  | .sysex id data t, _ => .sysex 0xf0 (id ++ data ++ if t then [0xf7] else [])
  | .continuation data, t => .sysex 0xf7 (data ++ if t then [0xf7] else [])
  | .escape data, _ => .sysex 0xf7 data

/-- Whether a continuation packet value is marked as the last one. -/
def Body.isEnd : Body → Bool
  | .sysExContinuation _ end_ => end_
  | _ => false

/-- The wire form of an event value. -/
def Body.wire (b : Body) : Raw := wireOf b.view b.isEnd

/-- The event values that survive encoding and decoding: fields in range, and none of the cases the code gets wrong (texts of
128 bytes or more other than track names, pitch bends of 128 or more, manufacturer 7F, sequencer specific events of 128 bytes
or more, time signature denominators that are not powers of two up to 128, unterminated packets ending in F7). -/
def Body.Faithful : Body → Prop
  | .sequenceNumber _ => True
  | .text k s => if k = .trackName then s.length < 2 ^ 28 else s.length < 128
  | .midiChannelPrefix ch => ch.toNat ≤ 15
  | .midiPort p => p.toNat ≤ 127
  | .endOfTrack => True
  | .tempo t => t.toNat < 2 ^ 24
  | .smpteOffset h m s r f ff =>
      h.toNat ≤ 24 ∧ m.toNat ≤ 59 ∧ s.toNat ≤ 59 ∧ (r = 24 ∨ r = 25 ∨ r = 29 ∨ r = 30) ∧ f.toNat < r.toNat ∧ ff.toNat ≤ 100
  | .timeSignature _ d _ _ => ∃ e : Nat, e ≤ 7 ∧ d.toNat = 2 ^ e
  | .keySignature a k _ => -7 ≤ a.toInt ∧ a.toInt ≤ 7 ∧ k.toNat ≤ 1
  | .sequencerSpecific m data =>
      ((∃ b, m.id = [b] ∧ b ≠ 0 ∧ b ≠ 0x7f) ∨ ∃ b c, m.id = [0, b, c]) ∧ m.id.length + data.length < 128
  | .noteOff ch _ v => ch.toNat ≤ 15 ∧ v.toNat ≤ 127
  | .noteOn ch _ v => ch.toNat ≤ 15 ∧ v.toNat ≤ 127
  | .polyphonicPressure ch p => ch.toNat ≤ 15 ∧ p.toNat ≤ 127
  | .controller ch _ _ => ch.toNat ≤ 15
  | .programChange ch _ _ => ch.toNat ≤ 15
  | .channelPressure ch p => ch.toNat ≤ 15 ∧ p.toNat ≤ 127
  | .pitchBend ch b => ch.toNat ≤ 15 ∧ b.toNat < 128
  | .sysExMessage m data single =>
      (∃ b, m.id = [b] ∧ b ≠ 0x7f) ∧ data.length + 2 < 2 ^ 28 ∧ (single = false → data ≠ [] ∧ data.getLast? ≠ some 0xf7)
  | .sysExContinuation data end_ => data.length + 1 < 2 ^ 28 ∧ (end_ = false → data.getLast? ≠ some 0xf7)
  | .sysExEscape data => data.length < 2 ^ 28

/-- Note numbers are MIDI data bytes. -/
def Body.KeyOk : Body → Prop
  | .noteOff _ n _ => n.value.toNat ≤ 127
  | .noteOn _ n _ => n.value.toNat ≤ 127
  | _ => True

/-- The packets allowed while a message is unterminated (`pending`) or not: a message and an escape only when none is, a
continuation only while one is. -/
def Body.InOrder (pending : Bool) : Body → Prop
  | .sysExMessage _ _ _ => pending = false
  | .sysExContinuation _ _ => pending = true
  | .sysExEscape _ => pending = false
  | _ => True

/-- Whether a message is unterminated after an event. -/
def Body.pendingNext (pending : Bool) : Body → Bool
  | .sysExMessage _ _ single => !single
  | .sysExContinuation _ end_ => !end_
  | _ => pending

/-- System exclusive packets come in order. -/
def sysexOrdered : Bool → List Body → Prop
  | _, [] => True
  | pending, b :: bs => b.InOrder pending ∧ sysexOrdered (b.pendingNext pending) bs

end Midiasm
