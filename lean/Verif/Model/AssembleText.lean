import Verif.Model.EventText
import Verif.Model.Pipeline
import Verif.Model.Fixups
import Verif.Model.File

/-!
The text assembler (ops/assemble/text.go).  The goroutines are in Model/Pipeline; here their sequential result is used
(`Props/Pipeline` proves that every interleaving gives it).
-/

namespace Midiasm

/-- `unicode.IsSpace` (Go standard library). -/
def unicodeSpace (r : Nat) : Bool :=
  (9 ≤ r && r ≤ 13) || r = 32 || r = 0x85 || r = 0xa0 || r = 0x1680 || (0x2000 ≤ r && r ≤ 0x200a) || r = 0x2028 || r = 0x2029 ||
    r = 0x202f || r = 0x205f || r = 0x3000

/-- `strings.TrimSpace(line) == ""` (Go standard library). -/
def isBlank (line : Bytes) : Bool := (runes line).all unicodeSpace

/-- `strings.HasPrefix(line, "%%")`. -/
def isComment (line : Bytes) : Bool := (str "%%").isPrefixOf line

/-- `format:(0|1|2)` (ops/assemble/text.go:142). -/
def formatPattern : List Item := lit "format:" ++ group [.chr (rangeTok 48 50)]

/-- `metrical(?:[ -])?time:([0-9]+)\s*ppqn` (ops/assemble/text.go:150). -/
def divisionPattern : List Item :=
  lit "metrical" ++ [.opt (fun t => charTok 32 t || charTok 45 t)] ++ lit "time:" ++ number ++ [.star spaceTok true] ++ lit "ppqn"

/-- `parseMThd` (ops/assemble/text.go:136-172): the first line of the chunk that contains `MThd`. -/
def parseMThd (chunk : List Bytes) : Outcome MThd :=
  match chunk.find? isMThd with
  | none => .err .other
  | some line =>
    match findSubmatch formatPattern line with
    | some [f] => do
      let format ← parseUint f 16
      match findSubmatch divisionPattern line with
      | some [d] => do
        let v ← parseUint d 16
        let division := UInt16.ofNat v
        if division &&& 0x8000 = 0x8000 ∧ fpsOf division = none then .err .other
        else makeMThd (UInt16.ofNat format) 0 division []
      | _ => .err .other
    | _ => .err .other

/-- The second loop of `parseMTrk` (ops/assemble/text.go:212-225). -/
def parseEvents (table : List (String × Lib.Manufacturer)) : List Bytes → Outcome (List Event)
  | [] => .ok []
  | line :: rest =>
    if isComment line || isBlank line then parseEvents table rest
    else do
      let e ← readEvent table line
      let es ← parseEvents table rest
      .ok (e :: es)

/-- `parseMTrk` (ops/assemble/text.go:174-228) with `NewMTrk` (midi/MTrk.go:27-36): the events after the first line that contains
`MTrk`.  The context of a new track is nil and not used by the encoder; `newContext` stands for it. -/
def parseMTrk (table : List (String × Lib.Manufacturer)) (chunk : List Bytes) : Outcome MTrk :=
  match chunk.dropWhile (fun l => !isMTrk l) with
  | [] => .err .other
  | _ :: rest => do
    let events ← parseEvents table rest
    let events ← fixups events
    .ok ⟨str "MTrk", 0, 0, [0x4d, 0x54, 0x72, 0x6b, 0x00, 0x00, 0x00, 0x00], events, newContext⟩

/-- The body of the loop over the lines of a chunk (ops/assemble/text.go:36-60).  Adding a track to a file without a header is a nil
pointer dereference. -/
def assembleLine (table : List (String × Lib.Manufacturer)) (chunk : List Bytes) (smf : SMF) (line : Bytes) : Outcome SMF :=
  if isComment line then .ok smf
  else if isMThd line then do
    let h ← parseMThd chunk
    .ok ⟨some h, smf.tracks⟩
  else if isMTrk line then do
    let t ← parseMTrk table chunk
    match smf.mthd with
    | none => .panic
    | some h => .ok ⟨some { h with tracks := h.tracks + 1 }, smf.tracks ++ [{ t with trackNumber := smf.tracks.length }]⟩
  else .ok smf

/-- The loop over the lines of a chunk. -/
def assembleLines (table : List (String × Lib.Manufacturer)) (chunk : List Bytes) : List Bytes → SMF → Outcome SMF
  | [], smf => .ok smf
  | line :: rest, smf => do
    let smf ← assembleLine table chunk smf line
    assembleLines table chunk rest smf

/-- The loop over the chunks (ops/assemble/text.go:34-62). -/
def assembleChunks (table : List (String × Lib.Manufacturer)) : List (List Bytes) → SMF → Outcome SMF
  | [], smf => .ok smf
  | chunk :: rest, smf => do
    let smf ← assembleLines table chunk chunk smf
    assembleChunks table rest smf

/-- `TextAssembler.Assemble` (ops/assemble/text.go:25-73) of a reader that yields exactly `text`. -/
def assembleText (table : List (String × Lib.Manufacturer)) (text : Bytes) : Outcome Bytes := do
  let chunks ← readChunks text
  let smf ← assembleChunks table chunks ⟨none, []⟩
  encode smf

end Midiasm
