import Verif.Model.Go

/-!
Variable length quantities and length-prefixed byte strings.
-/

namespace Midiasm

/-- The loop of `Delta.MarshalBinary` (midi/lib/delta.go:47-52) and `vlq2bin` (midi/lib/types.go:18-23).
`i` is the loop index counting down from 4; `acc` is `buffer[i+1:]`, already filled in.  `buffer[i]`
starts as 0x00 for `i = 4` and 0x80 otherwise (delta.go:44).  When the loop falls through,
`buffer[1] |= 0x80` has no effect (bit 7 is already set) and `buffer[0] = byte(b & 0x7f)` is
written *without* bit 7 (delta.go:54-57). -/
def vlqLoop : Nat → UInt32 → Bytes → Bytes
  | 0, v, acc =>
    match acc with
    | [] => [(v &&& 0x7f).toUInt8]
    | a :: rest => (v &&& 0x7f).toUInt8 :: (a ||| 0x80) :: rest
  | i + 1, v, acc =>
    let init : UInt8 := if i + 1 = 4 then 0x00 else 0x80
    let b := init ||| (v &&& 0x7f).toUInt8
    let v' := v >>> 7
    if v' = 0 then b :: acc else vlqLoop i v' (b :: acc)

/-- `vlq2bin` (midi/lib/types.go:15-29); `VLQ.MarshalBinary` (types.go:5-7) is the same function. -/
def vlq2bin (v : UInt32) : Bytes := vlqLoop 4 v []

/-- `Delta.MarshalBinary` (midi/lib/delta.go:43-58): textually the same loop as `vlq2bin`. -/
def deltaMarshal (d : UInt32) : Bytes := vlqLoop 4 d []

/-- `vlf2bin` (midi/lib/types.go:31-35): `len(v)` is truncated to `uint32`. -/
def vlf2bin (v : Bytes) : Bytes := vlq2bin (UInt32.ofNat v.length) ++ v

/-- Loop shared by the readers `DecodeDelta` (midi/lib/delta.go:23-41) and `events.VLQ`
(midi/events/event.go:144-162): `vlq <<= 7; vlq += uint32(b & 0x7f)`, stop at a byte with bit 7
clear, `io.EOF` when the reader is exhausted.  Returns the value and the unread input. -/
def vlqReadGo (acc : UInt32) : Bytes → Outcome (UInt32 × Bytes)
  | [] => .err .eof
  | b :: bs =>
    let acc' := (acc <<< 7) + (b &&& 0x7f).toUInt32
    if b &&& 0x80 = 0 then .ok (acc', bs) else vlqReadGo acc' bs

/-- `events.VLQ` (midi/events/event.go:144-162). -/
def readVLQ (r : Bytes) : Outcome (UInt32 × Bytes) := vlqReadGo 0 r

/-- `DecodeDelta` (midi/lib/delta.go:23-41). -/
def decodeDelta (r : Bytes) : Outcome (UInt32 × Bytes) := vlqReadGo 0 r

/-- `events.VLF` (midi/events/event.go:125-142): length then that many bytes, `io.EOF` when the
reader runs out.  Simplification: `make([]byte, N)` always succeeds. -/
def readVLF (r : Bytes) : Outcome (Bytes × Bytes) := do
  let (n, rest) ← readVLQ r
  if n.toNat ≤ rest.length then .ok (rest.take n.toNat, rest.drop n.toNat) else .err .eof

/-- `vlq(bytes)`: the four identical copies in midi/events/binary.go:129-142,
midi/events/midi/midievent.go:122-135, midi/events/meta/metaevent.go:166-179 and
midi/events/sysex/sysex.go:110-123; running out of bytes is an ordinary error. -/
def vlqSliceGo (acc : UInt32) : Bytes → Outcome (UInt32 × Bytes)
  | [] => .err .other
  | b :: bs =>
    let acc' := (acc <<< 7) + (b &&& 0x7f).toUInt32
    if b &&& 0x80 = 0 then .ok (acc', bs) else vlqSliceGo acc' bs

/-- `vlq(bytes)` and `delta(bytes)` (midi/events/midi/midievent.go:122-135, 145-149 and copies). -/
def vlqSlice (bytes : Bytes) : Outcome (UInt32 × Bytes) := vlqSliceGo 0 bytes

/-- `vlf(bytes)`: `remaining[:N]` (midi/events/meta/metaevent.go:181-187, midi/events/midi/midievent.go:137-143,
midi/events/sysex/sysex.go:125-131).  `spare` is the underlying array beyond the slice. -/
def vlfSlice (bytes spare : Bytes) : Outcome Bytes := do
  let (n, remaining) ← vlqSlice bytes
  sliceTo remaining spare n.toNat

end Midiasm
