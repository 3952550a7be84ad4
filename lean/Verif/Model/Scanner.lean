import Verif.Model.Streams
import Verif.Model.AssembleText

/-!
The text assembler on an arbitrary `io.Reader`: `bufio.Scanner` (Go standard library, bufio/scan.go) with its buffer, as used by
`TextAssembler.read` and `TextAssembler.scan` (ops/assemble/text.go:75-101).  `scanLines` of Model/Pipeline works on the whole text.
-/

namespace Midiasm

/-- A `bufio.Scanner`: the length of its buffer, where the bytes not yet used start, these bytes, and the error of the reader. -/
structure Scanner where
  cap : Nat
  start : Nat
  held : Bytes
  err : Option ReadErr

/-- `bufio.NewScanner` (ops/assemble/text.go:76). -/
def newScanner : Scanner := ⟨0, 0, [], none⟩

/-- `bufio.ScanLines` (Go standard library): how far to advance and the line, without a carriage return at its end; none if there is no
complete line. -/
def splitLine (data : Bytes) (atEOF : Bool) : Option (Nat × Bytes) :=
  if atEOF ∧ data = [] then none
  else
    match data.idxOf? 10 with
    | some i => some (i + 1, dropReturn (data.take i))
    | none => if atEOF then some (data.length, dropReturn data) else none
where
  /-- `dropCR`. -/
  dropReturn (l : Bytes) : Bytes := if l.getLast? = some 13 then l.dropLast else l

/-- The loop that reads in `Scan`: a reader may deliver nothing a hundred times; after one more time, or if it claims to have delivered
more than there is room for, reading fails. -/
def readSome {σ : Type} (R : Reader σ) : Nat → σ → Nat → Bytes × Option ReadErr × σ
  | loops, s, n =>
    match R.read s n with
    | (b, e, s') =>
      if n < b.length then ([], some .other, s')
      else
        match e with
        | some e => (b, some e, s')
        | none =>
          if b ≠ [] then (b, none, s')
          else
            match loops with
            | 0 => ([], some .other, s')
            | loops + 1 => readSome R loops s' n

/-- Before reading: the bytes held move to the start of the buffer if its end is reached or more than half of it is used up. -/
def Scanner.shift (st : Scanner) : Scanner :=
  if 0 < st.start ∧ (st.start + st.held.length = st.cap ∨ st.cap / 2 < st.start) then { st with start := 0 } else st

/-- Before reading: a full buffer is doubled, up to 64 kB; none if it has that size already. -/
def Scanner.grow (st : Scanner) : Option Scanner :=
  if st.start + st.held.length = st.cap then
    if 65536 ≤ st.cap then none
    else some { st with cap := min (if st.cap * 2 = 0 then 4096 else st.cap * 2) 65536, start := 0 }
  else some st

/-- The loop `for scanner.Scan()` (ops/assemble/text.go:96-98) with the loop of `Scan` itself: the lines, and `scanner.err` at the end.
`fuel` bounds the number of turns of the loops.  The check for too many tokens that do not advance never fires, because every line
advances. -/
def scanLoop {σ : Type} (R : Reader σ) : Nat → Scanner → σ → Outcome (List Bytes × ReadErr)
  | 0, _, _ => .diverge
  | fuel + 1, st, s =>
    match (if st.held ≠ [] ∨ st.err.isSome then splitLine st.held st.err.isSome else none) with
    | some (n, line) => do
      let (ls, e) ← scanLoop R fuel { st with start := st.start + n, held := st.held.drop n } s
      .ok (line :: ls, e)
    | none =>
      match st.err with
      | some e => .ok ([], e)
      | none =>
        match st.shift.grow with
        | none => .ok ([], .other)
        | some st =>
          match readSome R 100 s (st.cap - (st.start + st.held.length)) with
          | (b, e, s') => scanLoop R fuel { st with held := st.held ++ b, err := e } s'

/-- `TextAssembler.read` (ops/assemble/text.go:75-93) on any reader: `scanner.Err()` hides the error `io.EOF` itself and no other. -/
def readChunksFrom {σ : Type} (R : Reader σ) (fuel : Nat) (s : σ) : Outcome (List (List Bytes)) := do
  let (lines, e) ← scanLoop R fuel newScanner s
  if e = .eof then .ok (chunkify lines) else .err .other

/-- `TextAssembler.Assemble` (ops/assemble/text.go:25-73) on any reader; `.diverge` when `fuel` is not enough. -/
def assembleTextFrom {σ : Type} (table : List (String × Lib.Manufacturer)) (R : Reader σ) (fuel : Nat) (s : σ) : Outcome Bytes := do
  let chunks ← readChunksFrom R fuel s
  let smf ← assembleChunks table chunks ⟨none, []⟩
  encode smf

end Midiasm
