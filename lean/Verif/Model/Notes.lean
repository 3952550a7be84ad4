import Verif.Model.File

/-!
Note extraction (ops/notes/notes.go).  Printing is in Model/NotesPrint, the JSON output
(notes.go:294-337) in Model/NotesJson; log output is not modelled.
-/

namespace Midiasm

/-- `event` (ops/notes/notes.go:39-45).  `at` is a `time.Duration` (an `int64` of nanoseconds, here an `Int` kept in range by
`wrap64`).  Of the context only the scale is ever read (by `midievent.FormatNote`), so only the scale is kept. -/
structure NoteEvent where
  tick : UInt64
  delta : UInt64
  at_ : Int
  body : Body
  scale : ScaleKind
  deriving DecidableEq, Repr

/-- `Note` (ops/notes/notes.go:27-37). -/
structure Note where
  channel : UInt8
  note : UInt8
  formattedNote : String
  velocity : UInt8
  startTick : UInt64
  endTick : UInt64
  start : Int
  end_ : Int
  duration : Int
  deriving DecidableEq, Repr

/-- `buildTempoMap` (ops/notes/notes.go:81-91): panics without tracks. -/
def buildTempoMap (smf : SMF) : Outcome (List Event) :=
  match smf.tracks with
  | [] => .panic
  | t :: _ => .ok (t.events.filter (fun e => match e.body with | .tempo _ => true | _ => false))

/-- Inserting an element before everything that is not earlier. -/
def insertTick (e : NoteEvent) : List NoteEvent → List NoteEvent
  | [] => [e]
  | x :: xs => if e.tick ≤ x.tick then e :: x :: xs else x :: insertTick e xs

/-- `sort.SliceStable` by tick (ops/notes/notes.go:114-116).  The library's algorithm is not modelled: any stable sort gives
the same result, and `sortTicks` is shown to be one in `Props/Notes`. -/
def sortTicks (l : List NoteEvent) : List NoteEvent := l.foldr insertTick []

/-- `time.Duration.Round(time.Millisecond)` of the Go standard library: half away from zero, saturating. -/
def roundMs (d : Int) : Int :=
  if d < 0 then
    let r := -(d.tmod 1000000)
    if r + r < 1000000 then d + r
    else
      let d1 := wrap64 (d - 1000000 + r)
      if d1 < d then d1 else -(2 ^ 63)
  else
    let r := d.tmod 1000000
    if r + r < 1000000 then d - r
    else
      let d1 := wrap64 (d + 1000000 - r)
      if d1 > d then d1 else 2 ^ 63 - 1

/-- Assigning timestamps (ops/notes/notes.go:118-145); the remainder computed for a log message (127-129) divides by the same
number as the delta. -/
def stampEvents (ppqn : UInt16) : UInt64 → Int → ScaleKind → List NoteEvent → Outcome (List NoteEvent)
  | _, _, _, [] => .ok []
  | tempo, at_, scale, e :: es =>
    if ppqn = 0 then .panic
    else do
      let delta : Int := wrap64 (1000 * e.delta * tempo / ppqn.toUInt64).toNat
      let at_ := wrap64 (at_ + delta)
      let tempo := match e.body with | .tempo t => t.toUInt64 | _ => tempo
      let scale : ScaleKind := match e.body with
        | .keySignature a _ _ => if a < 0 then .flats else .sharps
        | _ => scale
      let rest ← stampEvents ppqn tempo at_ scale es
      .ok ({ e with at_ := roundMs at_, scale := scale } :: rest)

/-- The events kept (ops/notes/notes.go:147-162); the `break` leaves the switch, not the loop. -/
def isNoteEvent (e : NoteEvent) : Bool :=
  match e.body with
  | .noteOn .. => true
  | .noteOff .. => true
  | .endOfTrack => true
  | _ => false

/-- `buildTrackEvents` (ops/notes/notes.go:93-165); the default tempo is 50000 (notes.go:119). -/
def buildTrackEvents (events tempoMap : List Event) (ppqn : UInt16) : Outcome (List NoteEvent) := do
  let list := events.map (fun e => (⟨e.tick, e.delta.toUInt64, 0, e.body, .sharps⟩ : NoteEvent)) ++
    tempoMap.map (fun e => (⟨e.tick, 0, 0, e.body, .sharps⟩ : NoteEvent))
  let stamped ← stampEvents ppqn 50000 0 .sharps (sortTicks list)
  .ok (stamped.filter isNoteEvent)

/-- `transpose` (ops/notes/notes.go:270-280). -/
def transposeExtracted (note : UInt8) (transpose : Int) : UInt8 :=
  let v : Int := wrap64 (note.toNat + transpose)
  if v < 0 then 0 else if v > 255 then 255 else UInt8.ofNat v.toNat

/-- The order in which `range` visits the entries of a Go map: arbitrary, and possibly different each time.  `order k ch l`
is the order at the `k`-th end of track event for channel `ch` when the entries are `l`. -/
structure MapOrder where
  order : Nat → UInt8 → List NoteEvent → List NoteEvent
  perm : ∀ k ch l, (order k ch l).Perm l

/-- `pending` (ops/notes/notes.go:170-173): for each of the sixteen channels a map from note number to event; the entries
of a map are a list with at most one entry per note. -/
abbrev Pending := UInt8 → List NoteEvent

/-- Does a pending entry have this note number as its key? -/
def hasNote (n : UInt8) (p : NoteEvent) : Bool :=
  match p.body with
  | .noteOn _ m _ => m.value = n
  | _ => false

/-- The `Note` made from a pending note on `p` and the event `e` that ends it (ops/notes/notes.go:189-199, 211-221 and
239-249). -/
def finishNote (mc : MiddleC) (transposition : Int) (p e : NoteEvent) : Outcome Note :=
  match p.body with
  | .noteOn ch n v =>
    let note := transposeExtracted n.value transposition
    .ok ⟨ch, note, formatNoteWith mc p.scale note, v, p.tick, e.tick, p.at_, e.at_, wrap64 (e.at_ - p.at_)⟩
  | _ => .panic

/-- Ending a note (ops/notes/notes.go:186-205 and 207-227). -/
def endNote (mc : MiddleC) (transposition : Int) (pending : Pending) (ch n : UInt8) (e : NoteEvent) :
    Outcome (List Note × Pending) :=
  match (pending ch).find? (hasNote n) with
  | none => .ok ([], pending)
  | some p => do
    let note ← finishNote mc transposition p e
    .ok ([note], fun c => if c = ch then (pending c).filter (fun p => !hasNote n p) else pending c)

/-- Ending several notes in turn. -/
def finishNotes (mc : MiddleC) (transposition : Int) (e : NoteEvent) : List NoteEvent → Outcome (List Note)
  | [] => .ok []
  | p :: ps => do
    let n ← finishNote mc transposition p e
    let ns ← finishNotes mc transposition e ps
    .ok (n :: ns)

/-- The loop of `buildNoteList` (ops/notes/notes.go:175-256) over the remaining events, `k` end of track events having been
seen.  A note on for a channel above 15 assigns to a nil map. -/
def noteLoop (mc : MiddleC) (ord : MapOrder) (transposition : Int) : Nat → Pending → List NoteEvent → Outcome (List Note)
  | _, _, [] => .ok []
  | k, pending, e :: es =>
    match e.body with
    | .noteOn ch n v =>
      if v > 0 then
        if (pending ch).any (hasNote n.value) then noteLoop mc ord transposition k pending es
        else if ch > 15 then .panic
        else noteLoop mc ord transposition k (fun c => if c = ch then pending c ++ [e] else pending c) es
      else do
        let (ns, pending) ← endNote mc transposition pending ch n.value e
        let rest ← noteLoop mc ord transposition k pending es
        .ok (ns ++ rest)
    | .noteOff ch n _ => do
        let (ns, pending) ← endNote mc transposition pending ch n.value e
        let rest ← noteLoop mc ord transposition k pending es
        .ok (ns ++ rest)
    | .endOfTrack => do
        let ns ← finishNotes mc transposition e ((List.range 16).flatMap (fun i => ord.order k (UInt8.ofNat i) (pending (UInt8.ofNat i))))
        let rest ← noteLoop mc ord transposition (k + 1) (fun c => if c ≤ 15 then [] else pending c) es
        .ok (ns ++ rest)
    | _ => noteLoop mc ord transposition k pending es

/-- `buildNoteList` (ops/notes/notes.go:167-268). -/
def buildNoteList (mc : MiddleC) (ord : MapOrder) (transposition : Int) (events : List NoteEvent) : Outcome (List Note) :=
  noteLoop mc ord transposition 0 (fun _ => []) events

/-- The track loop of `extract` (ops/notes/notes.go:67-76). -/
def extractTracks (mc : MiddleC) (ord : Nat → MapOrder) (transposition : Int) (mthd : Option MThd) (tempoMap : List Event) :
    Nat → List MTrk → Outcome (List Note)
  | _, [] => .ok []
  | i, t :: ts =>
    match mthd with
    | none => .panic
    | some m => do
      let events ← buildTrackEvents t.events tempoMap m.ppqn
      let list ← buildNoteList mc (ord i) transposition events
      let rest ← extractTracks mc ord transposition mthd tempoMap (i + 1) ts
      .ok (list ++ rest)

/-- `extract` (ops/notes/notes.go:61-79): the tracks after the first. -/
def extractNotes (mc : MiddleC) (ord : Nat → MapOrder) (transposition : Int) (smf : SMF) : Outcome (List Note) := do
  let tempoMap ← buildTempoMap smf
  extractTracks mc ord transposition smf.mthd tempoMap 1 (smf.tracks.drop 1)

end Midiasm
