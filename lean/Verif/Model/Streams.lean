import Verif.Model.File

/-!
The decoder on an arbitrary `io.Reader` and the encoder on an arbitrary `io.Writer`.  `decode` and `encode` of
`Model/File` work on the bytes that a reader yields and a writer accepts; here the readers and writers are state
machines that hand over any number of bytes at a time and may fail.
-/

namespace Midiasm

/-- The error that a `Read` returns: `io.EOF` itself, another error for which `errors.Is(err, io.EOF)` holds, or any
other error. -/
inductive ReadErr where
  | eof
  | wrapsEof
  | other
  deriving DecidableEq, Repr

/-- An `io.Reader`: `read s n` is `Read(p)` in state `s` with `len(p) = n`: the bytes put at the start of `p`, the error
and the state afterwards. -/
structure Reader (σ : Type) where
  read : σ → Nat → Bytes × Option ReadErr × σ

/-- The errors of `io.ReadFull` seen through `errors.Is(err, io.EOF)` (encoding/midi/decoder.go:32), which is all that
the decoder asks of them: an error that wraps `io.EOF` counts as `io.EOF`. -/
def ReadErr.seen : ReadErr → Err
  | .eof => .eof
  | .wrapsEof => .eof
  | .other => .other

/-- The loop of `io.ReadAtLeast` as called by `io.ReadFull` (Go standard library; called in
encoding/midi/decoder.go:86 and :93): reads into the missing part of the buffer until it is full or a read fails; an
error that comes with the last missing byte is dropped; `io.EOF` itself after some bytes is `io.ErrUnexpectedEOF`.
`fuel` bounds the number of reads: a reader that keeps on returning nothing without an error is read for ever. -/
def readAtLeast {σ : Type} (R : Reader σ) : Nat → σ → Nat → Bytes → Outcome (Bytes × σ)
  | _, s, 0, got => .ok (got, s)
  | 0, _, _ + 1, _ => .diverge
  | fuel + 1, s, missing + 1, got =>
    match R.read s (missing + 1) with
    | (b, none, s') => readAtLeast R fuel s' (missing + 1 - b.length) (got ++ b)
    | (b, some e, s') =>
      if missing + 1 - b.length = 0 then .ok (got ++ b, s')
      else if got ++ b ≠ [] ∧ e = .eof then .err .unexpectedEof
      else .err e.seen

/-- `io.ReadFull(r.reader, buffer)` (encoding/midi/decoder.go:86, 93) with a buffer of `n` bytes. -/
def readFullFrom {σ : Type} (R : Reader σ) (fuel : Nat) (s : σ) (n : Nat) : Outcome (Bytes × σ) :=
  readAtLeast R fuel s n []

/-- `chunker.next` (encoding/midi/decoder.go:83-98) on any reader. -/
def nextChunkFrom {σ : Type} (R : Reader σ) (fuel : Nat) (s : σ) : Outcome (Bytes × σ) := do
  let (buffer, s) ← readFullFrom R fuel s 8
  let n ← beUint32 (buffer.drop 4)
  let (chunk, s) ← readFullFrom R fuel s n.toNat
  .ok (buffer ++ chunk, s)

/-- The chunk loop (encoding/midi/decoder.go:31-39) on any reader; `inner` bounds the reads of each `io.ReadFull`. -/
def chunkLoopFrom {σ : Type} (R : Reader σ) (inner : Nat) : Nat → σ → Outcome (List Bytes)
  | 0, _ => .diverge
  | fuel + 1, s =>
    match nextChunkFrom R inner s with
    | .err .eof => .ok []
    | .err e => .err e
    | .panic => .panic
    | .diverge => .diverge
    | .ok (c, s') => do
      let cs ← chunkLoopFrom R inner fuel s'
      .ok (c :: cs)

/-- `Decode` (encoding/midi/decoder.go:25-77) of any reader; `.diverge` when `fuel` reads or chunks are not enough. -/
def decodeFrom {σ : Type} (mc : MiddleC) (spare : Bytes) (R : Reader σ) (fuel : Nat) (s : σ) : Outcome SMF := do
  let chunks ← chunkLoopFrom R fuel fuel s
  match chunks with
  | [] => .err .other
  | c :: cs => do
    let mthd ← unmarshalMThd c
    let tracks ← decodeTracks mc spare cs 0
    if tracks.length ≠ mthd.tracks.toNat then .err .other else .ok ⟨some mthd, tracks⟩

/-- An `io.Writer`: `write s p` is the number of bytes of `p` accepted, whether an error was returned, and the state
afterwards. -/
structure Writer (ω : Type) where
  write : ω → Bytes → Nat × Bool × ω

/-- The loop over the tracks (encoding/midi/encoder.go:43-49) on any writer: the result, everything the writer
accepted, and its state. -/
def encodeTracksTo {ω : Type} (W : Writer ω) : List MTrk → ω → Bytes → Outcome Unit × Bytes × ω
  | [], s, out => (.ok (), out, s)
  | t :: ts, s, out =>
    match encodeMTrk t with
    | .ok b =>
      match W.write s b with
      | (n, true, s') => (.err .other, out ++ b.take n, s')
      | (n, false, s') => encodeTracksTo W ts s' (out ++ b.take n)
    | .err e => (.err e, out, s)
    | .panic => (.panic, out, s)
    | .diverge => (.diverge, out, s)

/-- `Encode` (encoding/midi/encoder.go:28-52) on any writer: the result, everything the writer accepted, and its
state. -/
def encodeTo {ω : Type} (W : Writer ω) (smf : SMF) (s : ω) : Outcome Unit × Bytes × ω :=
  match smf.mthd with
  | none => (.err .other, [], s)
  | some h =>
    if h.tracks.toNat ≠ smf.tracks.length then (.err .other, [], s)
    else
      match W.write s h.marshal with
      | (n, true, s') => (.err .other, h.marshal.take n, s')
      | (n, false, s') => encodeTracksTo W smf.tracks s' (h.marshal.take n)

end Midiasm
