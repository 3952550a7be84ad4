import Verif.Model.Track
import Verif.Model.Marshal

/-!
The header chunk, the file decoder and the file encoder (midi/MThd.go, midi/smf.go, encoding/midi).
-/

namespace Midiasm

/-- `MThd` (midi/MThd.go:12-24). -/
structure MThd where
  tag : Bytes
  length : UInt32
  format : UInt16
  tracks : UInt16
  division : UInt16
  ppqn : UInt16
  smpte : Bool
  subFrames : UInt16
  fps : UInt8
  dropFrame : Bool
  bytes : Bytes
  deriving DecidableEq, Repr

/-- The `fps` switch of `MakeMThd` (midi/MThd.go:52-66) and `UnmarshalBinary` (MThd.go:101-111): frames per second and
drop frame flag. -/
def fpsOf (division : UInt16) : Option (UInt8 × Bool) :=
  let fps := (division &&& 0xff00) >>> 8
  if fps = 0xe8 then some (24, false)
  else if fps = 0xe7 then some (25, false)
  else if fps = 0xe3 then some (29, true)
  else if fps = 0xe2 then some (30, false)
  else none

/-- `MakeMThd` (midi/MThd.go:26-72). -/
def makeMThd (format tracks division : UInt16) (bytes : Bytes) : Outcome MThd :=
  if format ≠ 0 ∧ format ≠ 1 ∧ format ≠ 2 then .panic
  else if division &&& 0x8000 = 0x0000 then
    .ok ⟨str "MThd", 6, format, tracks, division, division &&& 0x7fff, false, 0, 0, false, bytes⟩
  else
    match fpsOf division with
    | none => .panic
    | some (fps, drop) =>
      .ok ⟨str "MThd", 6, format, tracks, division, 0, true, division &&& 0x007f, fps, drop, bytes⟩

/-- `MThd.UnmarshalBinary` (midi/MThd.go:74-120) into a zero `MThd` (encoding/midi/decoder.go:45-47). -/
def unmarshalMThd (chunk : Bytes) : Outcome MThd := do
  let tag ← slice chunk 0 4
  if tag ≠ str "MThd" then .err .other
  else do
    let lengthBytes ← slice chunk 4 8
    let length ← beUint32 lengthBytes
    if length ≠ 6 then .err .other
    else do
      let formatBytes ← slice chunk 8 10
      let format ← beUint16 formatBytes
      if format ≠ 0 ∧ format ≠ 1 ∧ format ≠ 2 then .err .other
      else do
        let tracksBytes ← slice chunk 10 12
        let tracks ← beUint16 tracksBytes
        let divisionBytes ← slice chunk 12 14
        let division ← beUint16 divisionBytes
        if division &&& 0x8000 = 0x0000 then
          .ok ⟨tag, length, format, tracks, division, division &&& 0x7fff, false, 0, 0, false, chunk⟩
        else
          match fpsOf division with
          | none => .err .other
          | some (fps, drop) =>
            .ok ⟨tag, length, format, tracks, division, 0, true, division &&& 0x00ff, fps, drop, chunk⟩

/-- `MThd.MarshalBinary` (midi/MThd.go:122-148). -/
def MThd.marshal (h : MThd) : Bytes :=
  h.tag ++ putUint32 h.length ++ putUint16 h.format ++ putUint16 h.tracks ++ putUint16 h.division

/-- `SMF` (midi/smf.go:11-14); `MThd` is a pointer and may be nil. -/
structure SMF where
  mthd : Option MThd
  tracks : List MTrk

/-- `io.ReadFull` of `n` bytes: `io.EOF` when nothing was read, `io.ErrUnexpectedEOF` after a partial read; reading
zero bytes always succeeds. -/
def readFull (n : Nat) (r : Bytes) : Outcome (Bytes × Bytes) :=
  if n ≤ r.length then .ok (r.take n, r.drop n)
  else if r.length = 0 then .err .eof
  else .err .unexpectedEof

/-- `chunker.next` (encoding/midi/decoder.go:83-98). -/
def nextChunk (r : Bytes) : Outcome (Bytes × Bytes) := do
  let (buffer, r) ← readFull 8 r
  let n ← beUint32 (buffer.drop 4)
  let (chunk, r) ← readFull n.toNat r
  .ok (buffer ++ chunk, r)

/-- The chunk loop (encoding/midi/decoder.go:31-39): stops at `io.EOF`.  `fuel` exceeds the input length and every
chunk consumes at least eight bytes, so it is never exhausted (`Lemmas`). -/
def chunkLoop : Nat → Bytes → Outcome (List Bytes)
  | 0, _ => .diverge
  | fuel + 1, r =>
    match nextChunk r with
    | .err .eof => .ok []
    | .err e => .err e
    | .panic => .panic
    | .diverge => .diverge
    | .ok (c, r') => do
      let cs ← chunkLoop fuel r'
      .ok (c :: cs)

/-- The track loop (encoding/midi/decoder.go:54-69): chunks that are not `MTrk` are skipped. -/
def decodeTracks (mc : MiddleC) (spare : Bytes) : List Bytes → Nat → Outcome (List MTrk)
  | [], _ => .ok []
  | c :: cs, n => do
    let tag ← slice c 0 4
    if tag = str "MTrk" then do
      let t ← unmarshalMTrk mc spare n c
      let ts ← decodeTracks mc spare cs (n + 1)
      .ok (t :: ts)
    else decodeTracks mc spare cs n

/-- `Decode` (encoding/midi/decoder.go:25-77) of a reader that yields exactly `file`.  Simplification: the reader
itself never fails. -/
def decode (mc : MiddleC) (spare : Bytes) (file : Bytes) : Outcome SMF := do
  let chunks ← chunkLoop (file.length + 1) file
  match chunks with
  | [] => .err .other
  | c :: cs => do
    let mthd ← unmarshalMThd c
    let tracks ← decodeTracks mc spare cs 0
    if tracks.length ≠ mthd.tracks.toNat then .err .other else .ok ⟨some mthd, tracks⟩

/-! ### Encoder -/

/-- The closure `f` and the loop over `mtrk.Events` (encoding/midi/encoder.go:62-83): delta bytes and event bytes. -/
def encodeEvents : List Event → Outcome (List (Bytes × Bytes))
  | [] => .ok []
  | e :: es => do
    let v ← e.body.marshal
    let cs ← encodeEvents es
    .ok ((deltaMarshal e.delta, v) :: cs)

/-- The running status fixup (encoding/midi/encoder.go:85-100).  `last` is the previous chunk's event bytes *after* its
own fixup: `last` is a pointer to the chunk that was just rewritten. -/
def statusFixup : Option Bytes → List (Bytes × Bytes) → Outcome (List (Bytes × Bytes))
  | _, [] => .ok []
  | none, (d, e) :: cs => do
    let cs' ← statusFixup (some e) cs
    .ok ((d, e) :: cs')
  | some last, (d, e) :: cs => do
    let status ← index e 0
    let e' ←
      if status &&& 0xf0 = 0x80 ∨ status &&& 0xf0 = 0x90 then do
        let l ← index last 0
        .ok (if status = l then e.drop 1 else e)
      else .ok e
    let cs' ← statusFixup (some e') cs
    .ok ((d, e') :: cs')

/-- The length sum (encoding/midi/encoder.go:102-107), `uint32` arithmetic. -/
def chunksLength (cs : List (Bytes × Bytes)) : UInt32 :=
  cs.foldl (fun n c => n + UInt32.ofNat c.1.length + UInt32.ofNat c.2.length) 0

/-- `EncodeMTrk` (encoding/midi/encoder.go:54-133). -/
def encodeMTrk (t : MTrk) : Outcome Bytes := do
  let chunks ← encodeEvents t.events
  let chunks ← statusFixup none chunks
  .ok (t.tag ++ putUint32 (chunksLength chunks) ++ (chunks.map (fun c => c.1 ++ c.2)).flatten)

/-- The loop over the tracks (encoding/midi/encoder.go:43-49). -/
def encodeTracks : List MTrk → Outcome Bytes
  | [] => .ok []
  | t :: ts => do
    let b ← encodeMTrk t
    let bs ← encodeTracks ts
    .ok (b ++ bs)

/-- `Encode` (encoding/midi/encoder.go:28-52): the bytes written.  Simplification: the writer never fails; bytes
written before a failing track are not represented. -/
def encode (smf : SMF) : Outcome Bytes :=
  match smf.mthd with
  | none => .err .other
  | some h =>
    if h.tracks.toNat ≠ smf.tracks.length then .err .other
    else do
      let bs ← encodeTracks smf.tracks
      .ok (h.marshal ++ bs)

end Midiasm
