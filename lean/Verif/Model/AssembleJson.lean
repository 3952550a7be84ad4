import Verif.Model.EventJson
import Verif.Model.Fixups
import Verif.Model.File

/-!
JSON export (ops/export/export.go) and the JSON assembler (ops/assemble/json.go).
-/

namespace Midiasm

/-! ### Export -/

/-- `MThd` (midi/MThd.go:12-24) as `encoding/json` writes it: the names of the fields. -/
def headerToJsonWith (bad : Nat) (h : MThd) : Json :=
  jobj [("Tag", jstrWith bad h.tag), ("Length", jnum h.length.toNat), ("Format", jnum h.format.toNat), ("Tracks", jnum h.tracks.toNat),
    ("Division", jnum h.division.toNat), ("PPQN", jnum h.ppqn.toNat), ("SMPTETimeCode", .bool h.smpte), ("SubFrames", jnum h.subFrames.toNat),
    ("FPS", jnum h.fps.toNat), ("DropFrame", .bool h.dropFrame)]

/-- `MTrk` (midi/MTrk.go:17-24) and `events.Event` (midi/events/event.go:33-35).  The list of events is made before the
first event is read (MTrk.go:46), so it is never `null`. -/
def trackToJsonWith (bad : Nat) (t : MTrk) : Json :=
  jobj [("tag", jstrWith bad t.tag), ("track-number", jnum t.trackNumber),
    ("events", .arr (t.events.map fun e => jobj [("event", eventToJsonWith bad e)]))]

/-- The tracks of the file (`SMF.Tracks`, midi/smf.go:13): a slice to which nothing has been appended is `null`. -/
def tracksToJsonWith (bad : Nat) : List MTrk → Json
  | [] => .null
  | ts => .arr (ts.map (trackToJsonWith bad))

/-- `Export.Export` (ops/export/export.go:15-24) of the file (midi/smf.go:11-14).  `bad` is what becomes of a byte of a string that is not
UTF-8. -/
def exportJsonWith (bad : Nat) (smf : SMF) : Json :=
  jobj [("header", match smf.mthd with
    | none => .null
    | some h => headerToJsonWith bad h), ("tracks", tracksToJsonWith bad smf.tracks)]

/-- The header as a reader of the text sees it: bytes that are not UTF-8 are replaced. -/
def headerToJson (h : MThd) : Json := headerToJsonWith runeError h

/-- A track as a reader of the text sees it. -/
def trackToJson (t : MTrk) : Json := trackToJsonWith runeError t

/-- The tracks as a reader of the text sees them. -/
def tracksToJson (ts : List MTrk) : Json := tracksToJsonWith runeError ts

/-- The document as a reader of the text sees it. -/
def exportJson (smf : SMF) : Json := exportJsonWith runeError smf

/-! ### Assembler -/

/-- `mthd` (ops/assemble/json.go:18-22). -/
structure HeaderFields where
  tag : Option Bytes
  format : Option Nat
  ppqn : Option Nat

/-- `mtrk` (ops/assemble/json.go:24-28) without `tracknumber`, which is not used. -/
structure TrackFields where
  tag : Option Bytes
  events : List Json

/-- Decoding into `mthd`. -/
def headerFields (cur : HeaderFields) (j : Json) : Outcome HeaderFields := do
  let tag ← field (ptrJson stringJson []) "tag" cur.tag j
  let format ← field (ptrJson (uintJson 16) 0) "format" cur.format j
  let ppqn ← field (ptrJson (uintJson 16) 0) "PPQN" cur.ppqn j
  .ok ⟨tag, format, ppqn⟩

/-- Decoding into `mtrk`: `tracknumber` must be a number of 16 bits. -/
def trackFields (cur : TrackFields) (j : Json) : Outcome TrackFields := do
  let tag ← field (ptrJson stringJson []) "tag" cur.tag j
  let _ ← field (ptrJson (uintJson 16) 0) "tracknumber" none j
  let events ← field rawsJson "events" cur.events j
  .ok ⟨tag, events⟩

/-- `parseMThd` (ops/assemble/json.go:77-107). -/
def parseJsonMThd (h : HeaderFields) : Outcome MThd :=
  if h.tag ≠ some (str "MThd") then .err .other
  else
    match h.format with
    | none => .err .other
    | some format =>
      if format ≠ 0 ∧ format ≠ 1 ∧ format ≠ 2 then .err .other
      else
        match h.ppqn with
        | none => .err .other
        | some ppqn =>
          let division := UInt16.ofNat ppqn
          if division &&& 0x8000 = 0x8000 ∧ fpsOf division = none then .err .other
          else makeMThd (UInt16.ofNat format) 0 division []

/-- The loop over the events (ops/assemble/json.go:124-132). -/
def parseJsonEvents (mc : MiddleC) : List Json → Outcome (List Event)
  | [] => .ok []
  | j :: js => do
    let e ← eventOfJson mc j
    let es ← parseJsonEvents mc js
    .ok (e :: es)

/-- `parseMTrk` (ops/assemble/json.go:109-137) with `NewMTrk` (midi/MTrk.go:27-36). -/
def parseJsonMTrk (mc : MiddleC) (t : TrackFields) : Outcome MTrk :=
  if t.tag ≠ some (str "MTrk") then .err .other
  else do
    let events ← parseJsonEvents mc t.events
    let events ← fixups events
    .ok ⟨str "MTrk", 0, 0, [0x4d, 0x54, 0x72, 0x6b, 0x00, 0x00, 0x00, 0x00], events, newContext⟩

/-- The loop over the tracks (ops/assemble/json.go:53-63); the count of tracks has 16 bits. -/
def parseJsonTracks (mc : MiddleC) : List TrackFields → MThd → List MTrk → Outcome SMF
  | [], h, ts => .ok ⟨some h, ts⟩
  | t :: rest, h, ts => do
    let t ← parseJsonMTrk mc t
    parseJsonTracks mc rest { h with tracks := h.tracks + 1 } (ts ++ [{ t with trackNumber := ts.length }])

/-- `JSONAssembler.Assemble` (ops/assemble/json.go:34-75) of a reader whose first JSON value is `j`. -/
def assembleJson (mc : MiddleC) (j : Json) : Outcome Bytes := do
  let header ← field headerFields "header" ⟨none, none, none⟩ j
  let tracks ← field (sliceJson trackFields ⟨none, []⟩) "tracks" ⟨[], []⟩ j
  let h ← parseJsonMThd header
  let smf ← parseJsonTracks mc tracks.els h []
  encode smf

end Midiasm
