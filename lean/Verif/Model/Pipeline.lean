import Verif.Model.Text

/-!
The goroutines of the text assembler (ops/assemble/text.go:75-228): reading lines and splitting them into chunks, and feeding
the lines of a track to its parser.  Goroutines communicate by unbuffered channels: a send and the matching receive are
one step, possible only when both sides are ready.  Every other action of a goroutine is a step of its own, so that the runs
of the transition systems are all interleavings.
-/

namespace Midiasm

/-- Lines of a text up to the first one of 64 kB or more, and whether there is such a line: `bufio.Scanner` with `ScanLines`
(Go standard library).  `cur` is the current line in reverse and `n` its length. -/
def scanAux : Bytes → Nat → Bytes → List Bytes × Bool
  | cur, n, [] =>
      if n ≥ 65536 then ([], true) else if cur.isEmpty then ([], false) else ([dropCR cur], false)
  | cur, n, c :: rest =>
      if n ≥ 65536 then ([], true)
      else if c = 10 then
        let (ls, e) := scanAux [] 0 rest
        (dropCR cur :: ls, e)
      else scanAux (c :: cur) (n + 1) rest
where
  /-- The line without a carriage return at its end. -/
  dropCR (cur : Bytes) : Bytes :=
    match cur with
    | 13 :: t => t.reverse
    | t => t.reverse

/-- The lines delivered by the scanner and whether it failed. -/
def scanLines (text : Bytes) : List Bytes × Bool := scanAux [] 0 text

/-- The line starts a header chunk. -/
def isMThd (line : Bytes) : Bool := contains line (str "MThd")

/-- The regular expression `(MThd)|(MTrk)` matches (ops/assemble/text.go:104). -/
def isTag (line : Bytes) : Bool := contains line (str "MThd") || contains line (str "MTrk")

/-! ### read, scan and chunkify -/

/-- Goroutine `scan` (ops/assemble/text.go:95-101): about to call `Scan`, blocked sending a line, or returned. -/
inductive ScanState where
  | scanning (rest : List Bytes)
  | sending (line : Bytes) (rest : List Bytes)
  | done
  deriving DecidableEq, Repr

/-- Goroutine `chunkify` (ops/assemble/text.go:103-134): receiving in the first loop, receiving in the second loop, blocked sending a
chunk in the second loop with the line that starts the next one, after the loops, about to close, or returned. -/
inductive ChunkState where
  | seek
  | collect (chunk : List Bytes)
  | send (chunk : List Bytes) (next : Bytes)
  | final (chunk : List Bytes)
  | closing
  | done
  deriving DecidableEq, Repr

/-- The goroutines; `read` (ops/assemble/text.go:75-93) is receiving chunks or has left its loop. -/
structure Pipe where
  scan : ScanState
  chunker : ChunkState
  received : List (List Bytes)
  finished : Bool
  deriving DecidableEq, Repr

/-- One step of the pipeline. -/
inductive PipeStep : Pipe → Pipe → Prop
  /-- `scanner.Scan()` returns true. -/
  | scan (l r k c f) : PipeStep ⟨.scanning (l :: r), k, c, f⟩ ⟨.sending l r, k, c, f⟩
  /-- `scanner.Scan()` returns false, `close(lines)`. -/
  | scanEnd (k c f) : PipeStep ⟨.scanning [], k, c, f⟩ ⟨.done, k, c, f⟩
  /-- First loop, the line is skipped. -/
  | seekMiss (l r c f) : isMThd l = false → PipeStep ⟨.sending l r, .seek, c, f⟩ ⟨.scanning r, .seek, c, f⟩
  /-- First loop, the line starts the first chunk. -/
  | seekHit (l r c f) : isMThd l = true → PipeStep ⟨.sending l r, .seek, c, f⟩ ⟨.scanning r, .collect [l], c, f⟩
  /-- First loop, no more lines. -/
  | seekEnd (c f) : PipeStep ⟨.done, .seek, c, f⟩ ⟨.done, .collect [], c, f⟩
  /-- Second loop, the line starts another chunk. -/
  | collectTag (l r k c f) : isTag l = true → PipeStep ⟨.sending l r, .collect k, c, f⟩ ⟨.scanning r, .send k l, c, f⟩
  /-- Second loop, the line belongs to the chunk. -/
  | collectLine (l r k c f) : isTag l = false → PipeStep ⟨.sending l r, .collect k, c, f⟩ ⟨.scanning r, .collect (k ++ [l]), c, f⟩
  /-- Second loop, no more lines. -/
  | collectEnd (k c f) : PipeStep ⟨.done, .collect k, c, f⟩ ⟨.done, .final k, c, f⟩
  /-- `chunks <- clone(chunk)` in the second loop. -/
  | send (s k l c) : PipeStep ⟨s, .send k l, c, false⟩ ⟨s, .collect [l], c ++ [k], false⟩
  /-- The last chunk is empty and not sent. -/
  | finalNone (s c f) : PipeStep ⟨s, .final [], c, f⟩ ⟨s, .closing, c, f⟩
  /-- The last chunk is sent. -/
  | finalSome (s k c) : k ≠ [] → PipeStep ⟨s, .final k, c, false⟩ ⟨s, .closing, c ++ [k], false⟩
  /-- `close(chunks)`. -/
  | close (s c f) : PipeStep ⟨s, .closing, c, f⟩ ⟨s, .done, c, f⟩
  /-- `range chunks` ends. -/
  | finish (s c) : PipeStep ⟨s, .done, c, false⟩ ⟨s, .done, c, true⟩

/-- The start of `read`. -/
def pipeStart (lines : List Bytes) : Pipe := ⟨.scanning lines, .seek, [], false⟩

/-- Second loop and end of `chunkify` run sequentially. -/
def chunkifyFrom (chunk : List Bytes) : List Bytes → List (List Bytes)
  | [] => if chunk = [] then [] else [chunk]
  | l :: rest => if isTag l then chunk :: chunkifyFrom [l] rest else chunkifyFrom (chunk ++ [l]) rest

/-- `chunkify` run sequentially. -/
def chunkify : List Bytes → List (List Bytes)
  | [] => []
  | l :: rest => if isMThd l then chunkifyFrom [l] rest else chunkify rest

/-- `TextAssembler.read` (ops/assemble/text.go:75-93), with the goroutines run sequentially; `C54_pipeline` proves that every
interleaving gives the same. -/
def readChunks (text : Bytes) : Outcome (List (List Bytes)) :=
  if (scanLines text).2 then .err .other else .ok (chunkify (scanLines text).1)

/-! ### parseMTrk -/

/-- The goroutine of `parseMTrk` (ops/assemble/text.go:182-192): in the `select` for the first of the lines left, or returned.  The
`break` leaves the `select`, not the loop. -/
inductive FeedState where
  | feeding (lines : List Bytes)
  | done
  deriving DecidableEq, Repr

/-- `parseMTrk` itself (ops/assemble/text.go:194-226): receiving until the line with the tag, receiving events, about to return, or
returned. -/
inductive ParseState where
  | seek
  | events
  | returning
  | returned
  deriving DecidableEq, Repr

/-- Both goroutines and the content of the buffered channel `closed`. -/
structure Feed where
  feeder : FeedState
  parser : ParseState
  closed : Bool
  deriving DecidableEq, Repr

/-- The line contains the track tag. -/
def isMTrk (line : Bytes) : Bool := contains line (str "MTrk")

/-- One step; `bad` tells on which lines parsing an event fails or panics.  The end of `parseMTrk` sends to `closed` (deferred),
which has room for one value. -/
inductive FeedStep (bad : Bytes → Bool) : Feed → Feed → Prop
  /-- The line is received before the tag. -/
  | seekMiss (l r c) : isMTrk l = false → FeedStep bad ⟨.feeding (l :: r), .seek, c⟩ ⟨.feeding r, .seek, c⟩
  /-- The line with the tag is received. -/
  | seekHit (l r c) : isMTrk l = true → FeedStep bad ⟨.feeding (l :: r), .seek, c⟩ ⟨.feeding r, .events, c⟩
  /-- An event line is received and parsed or ignored. -/
  | good (l r c) : bad l = false → FeedStep bad ⟨.feeding (l :: r), .events, c⟩ ⟨.feeding r, .events, c⟩
  /-- An event line is received and parsing fails. -/
  | fail (l r c) : bad l = true → FeedStep bad ⟨.feeding (l :: r), .events, c⟩ ⟨.feeding r, .returning, c⟩
  /-- The lines are closed before the tag. -/
  | seekEnd (c) : FeedStep bad ⟨.done, .seek, c⟩ ⟨.done, .returning, c⟩
  /-- The lines are closed after the last event. -/
  | eventsEnd (c) : FeedStep bad ⟨.done, .events, c⟩ ⟨.done, .returning, c⟩
  /-- The deferred `closed <- true`. -/
  | ret (s) : FeedStep bad ⟨s, .returning, false⟩ ⟨s, .returned, true⟩
  /-- `case <-closed` is chosen. -/
  | closed (l r p) : FeedStep bad ⟨.feeding (l :: r), p, true⟩ ⟨.feeding r, p, false⟩
  /-- The loop ends, `close(lines)`. -/
  | feedEnd (p c) : FeedStep bad ⟨.feeding [], p, c⟩ ⟨.done, p, c⟩

end Midiasm
