import Verif.Model.File

/-!
The buffers that the decoder makes (`make([]byte, N)`) for chunks and for the payloads of events: their sizes, in order.
Not counted: the copies made by `append` and `bytes.Buffer`, which hold bytes that have been read.
-/

namespace Midiasm

/-- The buffers made by `chunker.next` (encoding/midi/decoder.go:84 and :91) until the loop ends. -/
def chunkBuffers : Nat → Bytes → List Nat
  | 0, _ => []
  | fuel + 1, r =>
    8 :: match readFull 8 r with
      | .ok (buffer, r) =>
        match beUint32 (buffer.drop 4) with
        | .ok n =>
          n.toNat :: match readFull n.toNat r with
            | .ok (_, r) => chunkBuffers fuel r
            | _ => []
        | _ => []
      | _ => []

/-- The buffer made by `events.VLF` (midi/events/event.go:131) for a length and a payload at the start of the input. -/
def vlfBuffer (r : Bytes) : List Nat :=
  match readVLQ r with
  | .ok (n, _) => [n.toNat]
  | _ => []

/-- The buffer made by `parse` after the status byte: for meta events (midi/MTrk.go:134) and SysEx events (line 147). -/
def payloadBuffer (status : UInt8) (r : Bytes) : List Nat :=
  if status = 0xff then vlfBuffer (r.drop 1)
  else if status = 0xf0 ∨ status = 0xf7 then vlfBuffer r
  else []

/-- The buffer made by `parse` (midi/MTrk.go:105-191) for the event at the start of the input. -/
def eventBuffer (runningStatus : UInt8) (inp : Bytes) : List Nat :=
  match readVLQ inp with
  | .ok (_, b :: r) =>
    if b < 0x80 ∧ runningStatus < 0x80 then []
    else if b < 0x80 then payloadBuffer runningStatus (b :: r)
    else payloadBuffer b r
  | _ => []

/-- The buffers made in the loop of `MTrk.UnmarshalBinary` (midi/MTrk.go:52-95). -/
def trackBuffers (mc : MiddleC) (spare : Bytes) : Nat → Bytes → UInt32 → Context → List Nat
  | 0, _, _, _ => []
  | fuel + 1, inp, tick, ctx =>
    eventBuffer ctx.runningStatus inp ++
      match parseEvent mc inp spare tick ctx with
      | .ok (e, rest, ctx') => trackBuffers mc spare fuel rest (tick + e.delta) (applyContext mc ctx' e).2
      | _ => []

/-- The buffers made in the track loop (encoding/midi/decoder.go:54-69), which ends at the first track that fails. -/
def tracksBuffers (mc : MiddleC) (spare : Bytes) : List Bytes → List Nat
  | [] => []
  | c :: cs =>
    if c.take 4 = str "MTrk" then
      trackBuffers mc spare ((c.drop 8).length + 1) (c.drop 8) 0 newContext ++
        match unmarshalMTrk mc spare 0 c with
        | .ok _ => tracksBuffers mc spare cs
        | _ => []
    else tracksBuffers mc spare cs

/-- The buffers made by `Decode` (encoding/midi/decoder.go:25-77). -/
def decodeBuffers (mc : MiddleC) (spare : Bytes) (file : Bytes) : List Nat :=
  chunkBuffers (file.length + 1) file ++
    match chunkLoop (file.length + 1) file with
    | .ok (c :: cs) =>
      match unmarshalMThd c with
      | .ok _ => tracksBuffers mc spare cs
      | _ => []
    | _ => []

end Midiasm
