import Verif.Spec.Assembled

/-!
The events of a text or a JSON document that are found again in the file that is assembled from it.
-/

namespace Spec
open Midiasm

/-- A packet that continues a message. -/
def PacketGoesOn (b : Body) : Prop := ∃ d t, b = .sysExContinuation d t

/-- A message or a packet that is not terminated. -/
def LeftOpen (b : Body) : Prop := (∃ m d, b = .sysExMessage m d false) ∨ ∃ d, b = .sysExContinuation d false

/-- What an event has to be like, besides having the form of its kind: texts shorter than 128 bytes (names of tracks below 2²⁸), tempos of three
bytes, denominators that are powers of two, numbers of notes and velocities of seven bits, pitch bends below 128, manufacturers with an ID of one byte,
for sequencer specific events also of three, other than 7F, lengths that fit; what is left open must not be empty nor look terminated. -/
def Recoverable : Body → Prop
  | .text k s => s.length < 128 ∨ k = .trackName ∧ s.length < 2 ^ 28
  | .tempo t => t.toNat < 2 ^ 24
  | .timeSignature _ d _ _ => d.toNat ∈ [1, 2, 4, 8, 16, 32, 64, 128]
  | .sequencerSpecific m data => ((∃ b, m.id = [b] ∧ b ≠ 0 ∧ b ≠ 0x7f) ∨ ∃ b c, m.id = [0, b, c]) ∧ m.id.length + data.length < 128
  | .noteOff _ n v => n.value.toNat ≤ 127 ∧ v.toNat ≤ 127
  | .noteOn _ n _ => n.value.toNat ≤ 127
  | .pitchBend _ v => v.toNat < 128
  | .sysExMessage m data single => (∃ b, m.id = [b] ∧ b ≠ 0x7f) ∧ data.length + 2 < 2 ^ 28 ∧ (single = false → data ≠ [] ∧ data.getLast? ≠ some 0xf7)
  | .sysExContinuation data last => data.length + 1 < 2 ^ 28 ∧ (last = false → data.getLast? ≠ some 0xf7)
  | .sysExEscape data => data.length < 2 ^ 28
  | _ => True

/-- A track all of whose events are found again: delta times below 2²⁸, and continuations directly after what they continue. -/
def RecoverableTrack (es : List Event) : Prop :=
  (∀ e ∈ es, Recoverable e.body ∧ e.delta.toNat < 2 ^ 28) ∧ (∀ e, es.head? = some e → ¬ PacketGoesOn e.body) ∧
    ∀ (i : Nat) (e n : Event), es[i]? = some e → es[i + 1]? = some n → PacketGoesOn n.body → LeftOpen e.body

end Spec
