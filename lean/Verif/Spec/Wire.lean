import Verif.Spec.Vlq

/-!
The wire format of a track, specified independently of the code: how events are framed (delta time, status, running
status, lengths) and what their data bytes mean.  Everything is in terms of byte strings and natural numbers.
-/

namespace Spec

/-- An event as framed in a track: a channel message, a meta event or a system exclusive packet. -/
inductive Raw where
  | chan (status : UInt8) (data : List UInt8)
  | metaEvent (type : UInt8) (data : List UInt8)
  | sysex (status : UInt8) (data : List UInt8)
  deriving DecidableEq, Repr

/-- Number of data bytes of a channel message.  `polyLen` is the number of data bytes of a polyphonic key pressure message: 2
in the MIDI 1.0 standard (key, pressure), 1 in the dialect midiasm reads and writes. -/
def dataLen (polyLen : Nat) (status : UInt8) : Nat :=
  match status.toNat / 16 with
  | 8 => 2
  | 9 => 2
  | 10 => polyLen
  | 11 => 2
  | 12 => 1
  | 13 => 1
  | 14 => 2
  | _ => 0

/-- A channel message status: 0x80 to 0xEF. -/
def IsChannelStatus (s : UInt8) : Prop := 0x80 ≤ s.toNat ∧ s.toNat < 0xf0

/-- `bs` is a terminated digit string whose value, as a 32-bit number, is `n`.  (In a standard file the values are below
2^28 and there are at most four bytes; longer, padded forms are allowed here.) -/
def Quantity (bs : List UInt8) (n : Nat) : Prop := Terminated bs ∧ value128 bs % 2 ^ 32 = n

/-- `Framed polyLen rs raw bytes rs'`: with running status `rs` (`none` if there is none) the event `raw` can be written as
`bytes` (after the delta time), leaving running status `rs'`. -/
inductive Framed (polyLen : Nat) : Option UInt8 → Raw → List UInt8 → Option UInt8 → Prop
  | full {rs : Option UInt8} {status : UInt8} {data : List UInt8} :
      IsChannelStatus status → data.length = dataLen polyLen status →
      Framed polyLen rs (.chan status data) (status :: data) (some status)
  | running {status : UInt8} {d : UInt8} {data : List UInt8} :
      IsChannelStatus status → (d :: data).length = dataLen polyLen status → d.toNat < 0x80 →
      Framed polyLen (some status) (.chan status (d :: data)) (d :: data) (some status)
  | metaEvent {rs : Option UInt8} {type : UInt8} {len data : List UInt8} :
      Quantity len data.length →
      Framed polyLen rs (.metaEvent type data) (0xff :: type :: (len ++ data)) none
  | sysex {rs : Option UInt8} {status : UInt8} {len data : List UInt8} :
      (status = 0xf0 ∨ status = 0xf7) → Quantity len data.length →
      Framed polyLen rs (.sysex status data) (status :: (len ++ data)) none

/-- An event with its delta time and the bytes it is written with. -/
structure Item where
  delta : UInt32
  raw : Raw
  bytes : List UInt8

/-- One item: a delta time followed by a framed event. -/
def FramedItem (polyLen : Nat) (rs : Option UInt8) (i : Item) (rs' : Option UInt8) : Prop :=
  ∃ db eb, i.bytes = db ++ eb ∧ Quantity db i.delta.toNat ∧ Framed polyLen rs i.raw eb rs'

/-- A sequence of items, with the running status threaded from `rs` to `rs'`. -/
inductive FramedTrack (polyLen : Nat) : Option UInt8 → List Item → Option UInt8 → Prop
  | nil {rs} : FramedTrack polyLen rs [] rs
  | cons {rs rs' rs'' i is} : FramedItem polyLen rs i rs' → FramedTrack polyLen rs' is rs'' →
      FramedTrack polyLen rs (i :: is) rs''

/-- The bytes of a sequence of items. -/
def trackBytes (is : List Item) : List UInt8 := (is.map Item.bytes).flatten

/-! ### Meaning of the data bytes -/

/-- Field values of an event as documented by the Standard MIDI File and MIDI specifications. -/
inductive Content where
  | sequenceNumber (n : Nat)
  /-- meta types 1 to 9 -/
  | text (type : Nat) (s : List UInt8)
  | channelPrefix (ch : Nat)
  | port (p : Nat)
  | endOfTrack
  /-- microseconds per quarter note -/
  | tempo (t : Nat)
  | smpteOffset (hour minute second rate frames fractions : Nat)
  | timeSignature (num den clocks thirtySeconds : Nat)
  | keySignature (accidentals : Int) (minor : Nat)
  | sequencerSpecific (id data : List UInt8)
  | noteOff (ch key velocity : Nat)
  | noteOn (ch key velocity : Nat)
  /-- `key` is `none` in midiasm's dialect -/
  | polyPressure (ch : Nat) (key : Option Nat) (pressure : Nat)
  | controller (ch id value : Nat)
  | program (ch p : Nat)
  | channelPressure (ch p : Nat)
  | pitchBend (ch bend : Nat)
  /-- an F0 message: manufacturer, data without a terminating F7, whether there was one -/
  | sysex (id data : List UInt8) (terminated : Bool)
  | continuation (data : List UInt8)
  | escape (data : List UInt8)
  deriving DecidableEq, Repr

/-- Data without a terminating F7. -/
def unterminated (d : List UInt8) : List UInt8 := if d.getLast? = some 0xf7 then d.dropLast else d

/-- Channel messages.  The pitch bend value is that of midiasm (first data byte most significant). -/
def chanMeaning (status : UInt8) (data : List UInt8) : Option Content :=
  let ch := status.toNat % 16
  match status.toNat / 16, data with
  | 8, [n, v] => if v.toNat < 128 then some (.noteOff ch n.toNat v.toNat) else none
  | 9, [n, v] => if v.toNat < 128 then some (.noteOn ch n.toNat v.toNat) else none
  | 10, [p] => if p.toNat < 128 then some (.polyPressure ch none p.toNat) else none
  | 10, [k, p] => if p.toNat < 128 then some (.polyPressure ch (some k.toNat) p.toNat) else none
  | 11, [c, v] => some (.controller ch c.toNat v.toNat)
  | 12, [p] => some (.program ch p.toNat)
  | 13, [p] => if p.toNat < 128 then some (.channelPressure ch p.toNat) else none
  | 14, [a, b] => some (.pitchBend ch (a.toNat * 128 + b.toNat % 128))
  | _, _ => none

/-- SMPTE frame rates by their two-bit code. -/
def smpteRate (code : Nat) : Nat :=
  match code with
  | 0 => 24
  | 1 => 25
  | 2 => 29
  | _ => 30

/-- Signed value of a byte. -/
def signed (b : UInt8) : Int := if b.toNat < 128 then b.toNat else (b.toNat : Int) - 256

/-- Meta events of the supported types. -/
def metaMeaning (type : Nat) (data : List UInt8) : Option Content :=
  if type = 0x00 then
    match data with
    | [a, b] => some (.sequenceNumber (a.toNat * 256 + b.toNat))
    | _ => none
  else if 1 ≤ type ∧ type ≤ 9 then some (.text type data)
  else if type = 0x20 then
    match data with
    | [c] => if c.toNat ≤ 15 then some (.channelPrefix c.toNat) else none
    | _ => none
  else if type = 0x21 then
    match data with
    | [p] => if p.toNat ≤ 127 then some (.port p.toNat) else none
    | _ => none
  else if type = 0x2f then some .endOfTrack
  else if type = 0x51 then
    match data with
    | [a, b, c] => some (.tempo (a.toNat * 65536 + b.toNat * 256 + c.toNat))
    | _ => none
  else if type = 0x54 then
    match data with
    | [h, m, s, f, ff] =>
      let hour := h.toNat % 32
      let rate := smpteRate (h.toNat / 32 % 4)
      if hour ≤ 24 ∧ m.toNat ≤ 59 ∧ s.toNat ≤ 59 ∧ f.toNat < rate ∧ ff.toNat ≤ 100 then
        some (.smpteOffset hour m.toNat s.toNat rate f.toNat ff.toNat)
      else none
    | _ => none
  else if type = 0x58 then
    match data with
    | [n, e, c, t] => some (.timeSignature n.toNat (2 ^ e.toNat % 256) c.toNat t.toNat)
    | _ => none
  else if type = 0x59 then
    match data with
    | [a, m] => if -7 ≤ signed a ∧ signed a ≤ 7 ∧ m.toNat ≤ 1 then some (.keySignature (signed a) m.toNat) else none
    | _ => none
  else if type = 0x7f then
    match data with
    | 0 :: b :: c :: d => some (.sequencerSpecific [0, b, c] d)
    | b :: d => if b = 0 then none else some (.sequencerSpecific [b] d)
    | [] => none
  else none

/-- System exclusive packets; `pending` says that a message is unterminated. -/
def sysexMeaning (pending : Bool) (status : UInt8) (data : List UInt8) : Option Content :=
  if status = 0xf0 then
    match data with
    | id :: b :: d =>
      if pending then none else some (.sysex [id] (unterminated (b :: d)) ((b :: d).getLast? == some 0xf7))
    | _ => none
  else if pending then some (.continuation (unterminated data))
  else some (.escape data)

/-- What an event means (`none`: not a supported event with in-range fields). -/
def meaning (pending : Bool) : Raw → Option Content
  | .chan status data => chanMeaning status data
  | .metaEvent type data => metaMeaning (type.toNat % 128) data
  | .sysex status data => sysexMeaning pending status data

/-- Whether a system exclusive message is unterminated after an event. -/
def pendingAfter (pending : Bool) : Raw → Bool
  | .sysex status data =>
      if status = 0xf0 then data.getLast? != some 0xf7 else pending && data.getLast? != some 0xf7
  | _ => pending

/-- The meanings of a sequence of events. -/
def meanings : Bool → List Raw → Option (List Content)
  | _, [] => some []
  | pending, r :: rs =>
    match meaning pending r, meanings (pendingAfter pending r) rs with
    | some c, some cs => some (c :: cs)
    | _, _ => none

/-- The meanings according to the MIDI standard: as `meaning`, but a pitch bend has its least significant byte first. -/
def standardMeaning (pending : Bool) : Raw → Option Content
  | .chan status [a, b] =>
      if status.toNat / 16 = 14 then some (.pitchBend (status.toNat % 16) (b.toNat * 128 + a.toNat))
      else chanMeaning status [a, b]
  | r => meaning pending r

/-- The standard meanings of a sequence of events. -/
def standardMeanings : Bool → List Raw → Option (List Content)
  | _, [] => some []
  | pending, r :: rs =>
    match standardMeaning pending r, standardMeanings (pendingAfter pending r) rs with
    | some c, some cs => some (c :: cs)
    | _, _ => none

/-- Polyphonic key pressure messages. -/
def IsPolyPressure : Raw → Prop
  | .chan status _ => status.toNat / 16 = 10
  | _ => False

/-- Pitch bend messages whose two data bytes differ (or are not data bytes). -/
def IsAsymmetricBend : Raw → Prop
  | .chan status [a, b] => status.toNat / 16 = 14 ∧ ¬ (a = b ∧ a.toNat < 128)
  | _ => False

/-- The manufacturer ID of a system exclusive message or sequencer specific event, if any. -/
def manufacturerID : Content → Option (List UInt8)
  | .sysex id _ _ => some id
  | .sequencerSpecific id _ => some id
  | _ => none

/-- The input is a proper prefix of a framed event. -/
def Truncated (polyLen : Nat) (rs : Option UInt8) (inp : List UInt8) : Prop :=
  ∃ ext i rs', ext ≠ [] ∧ FramedItem polyLen rs i rs' ∧ i.bytes = inp ++ ext

/-- After the delta time there is a data byte although there is no running status. -/
def Orphan (rs : Option UInt8) (inp : List UInt8) : Prop :=
  rs = none ∧ ∃ db b rest, inp = db ++ b :: rest ∧ Terminated db ∧ b.toNat < 0x80

/-- After the delta time there is a system common or system real time status. -/
def SystemStatus (inp : List UInt8) : Prop :=
  ∃ db b rest, inp = db ++ b :: rest ∧ Terminated db ∧ 0xf0 < b.toNat ∧ b.toNat < 0xff ∧ b.toNat ≠ 0xf7

/-- The F0 packets that are refused with an error instead of a panic: one inside an unterminated message, and an empty
one. -/
def RefusedSysEx (pending : Bool) : Raw → Prop
  | .sysex status data => status = 0xf0 ∧ (pending = true ∨ data = [])
  | _ => False

/-- The unterminated-SysEx flag after a list of events. -/
def pendingAll (pending : Bool) (raws : List Raw) : Bool := raws.foldl pendingAfter pending

end Spec
