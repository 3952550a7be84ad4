import Verif.Spec.Wire

/-!
What the single-event binary API makes of an event, specified on the framed event.
-/

namespace Spec

/-- Number of data bytes of the meta events of fixed size; the API looks at no more than these. -/
def fixedLength (type : Nat) : Option Nat :=
  match type with
  | 0x00 => some 2
  | 0x20 => some 1
  | 0x21 => some 1
  | 0x51 => some 3
  | 0x54 => some 5
  | 0x58 => some 4
  | 0x59 => some 2
  | _ => none

/-- The data bytes of a meta event that the API looks at. -/
def apiData (type : Nat) (data : List UInt8) : List UInt8 :=
  match fixedLength type with
  | some k => data.take k
  | none => data

/-- The meaning of an event to the single-event API: as `meaning`, except that superfluous data bytes of meta events of fixed
size are ignored, that a pitch bend must have a data byte first, that sequencer specific events need at least two bytes and that
an F7 packet is always a continuation. -/
def apiMeaning : Raw → Option Content
  | .chan status data =>
      if status.toNat / 16 = 14 ∧ 128 ≤ (data.headD 0).toNat then none else chanMeaning status data
  | .metaEvent type data =>
      if type.toNat % 128 = 0x7f ∧ data.length < 2 then none
      else metaMeaning (type.toNat % 128) (apiData (type.toNat % 128) data)
  | .sysex status data => sysexMeaning (status == 0xf7) status data

end Spec
