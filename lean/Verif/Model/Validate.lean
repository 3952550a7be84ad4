import Verif.Model.File

/-!
`SMF.Validate` (midi/smf.go).  The errors are modelled as data; their text is a rendering of that data.
-/

namespace Midiasm

/-- One entry per `fmt.Errorf` in midi/smf.go; the arguments are those printed.  `%s`/`%v` of `events.Clean` (the Go
type name) is not kept. -/
inductive Finding where
  | format0TrackCount (n : Nat)
  | track0Unexpected (e : Body)
  | trackUnexpected (track : Nat) (e : Body)
  | eotNotLast (track pos : Nat)
  | eotMissing (track : Nat)
  | msbMissingLsb (track pos : Nat)
  | lsbMissingMsb (track pos : Nat)
  | msbOtherChannel (track pos : Nat)
  | lsbOtherChannel (track pos : Nat)
  deriving DecidableEq, Repr

/-- `IsTrack0Event` (midi/events/event.go:80-94). -/
def isTrack0Event : Body → Bool
  | .tempo _ => true
  | .timeSignature .. => true
  | .text .trackName _ => true
  | .smpteOffset .. => true
  | .text .copyright _ => true
  | .endOfTrack => true
  | _ => false

/-- `IsTrack1Event` (midi/events/event.go:96-106). -/
def isTrack1Event : Body → Bool
  | .tempo _ => false
  | .smpteOffset .. => false
  | _ => true

/-- `validateFormat0` (midi/smf.go:79-87). -/
def validateFormat0 (tracks : List MTrk) : List Finding :=
  if tracks.length ≠ 1 then [.format0TrackCount tracks.length] else []

/-- `validateFormat1` (midi/smf.go:89-110): `smf.Tracks[1:]` panics when there are no tracks. -/
def validateFormat1 (tracks : List MTrk) : Outcome (List Finding) :=
  match tracks with
  | [] => .panic
  | t :: ts =>
    .ok (((t.events.filter (fun e => !isTrack0Event e.body)).map (fun e => Finding.track0Unexpected e.body)) ++
      (ts.map (fun t => (t.events.filter (fun e => !isTrack1Event e.body)).map
        (fun e => Finding.trackUnexpected t.trackNumber e.body))).flatten)

/-- The inner loop of the End of Track check (midi/smf.go:29-36): `i` is the loop index, `n` is `len(track.Events)`.
Returns the final `eot` and the errors. -/
def eotLoop (track n : Nat) : Nat → List Event → Bool × List Finding
  | _, [] => (false, [])
  | i, e :: es =>
    let (eot, fs) := eotLoop track n (i + 1) es
    match e.body with
    | .endOfTrack => (true, if i + 1 ≠ n then .eotNotLast track (i + 1) :: fs else fs)
    | _ => (eot, fs)

/-- The End of Track check of one track (midi/smf.go:27-42). -/
def validateEOT (t : MTrk) : List Finding :=
  let (eot, fs) := eotLoop t.trackNumber t.events.length 0 t.events
  fs ++ (if !eot then [.eotMissing t.trackNumber] else [])

/-- `x.(midievent.Controller)`: the channel and controller ID if the event is a controller. -/
def asController : Body → Option (UInt8 × UInt8)
  | .controller ch c _ => some (ch, c.id)
  | _ => none

/-- The body of the Program Bank loop (midi/smf.go:47-70) for the previous event (`none` before the first), the
current event and its index. -/
def bankStep (track i : Nat) (last : Option Body) (e : Body) : List Finding :=
  let c0 := last.bind asController
  let c1 := asController e
  let isMsb := c0.any (fun c => c.2 == 0x00)
  let isLsb := c1.any (fun c => c.2 == 0x20)
  (if isMsb && !(c1.any (fun c => c.2 == 0x20)) then [Finding.msbMissingLsb track i] else []) ++
  (if isLsb && !(c0.any (fun c => c.2 == 0x00)) then [Finding.lsbMissingMsb track (i + 1)] else []) ++
  (if isMsb && isLsb && c0.map (·.1) != c1.map (·.1) then
    [Finding.msbOtherChannel track i, Finding.lsbOtherChannel track (i + 1)] else [])

/-- The Program Bank loop of one track (midi/smf.go:44-74). -/
def bankLoop (track : Nat) : Nat → Option Body → List Event → List Finding
  | _, _, [] => []
  | i, last, e :: es => bankStep track i last e.body ++ bankLoop track (i + 1) (some e.body) es

/-- `Validate` (midi/smf.go:16-77): dereferences `smf.MThd`. -/
def validate (smf : SMF) : Outcome (List Finding) :=
  match smf.mthd with
  | none => .panic
  | some h => do
    let f0 := if h.format = 0 then validateFormat0 smf.tracks else []
    let f1 ← if h.format = 1 then validateFormat1 smf.tracks else .ok []
    .ok (f0 ++ f1 ++ (smf.tracks.map validateEOT).flatten ++
      (smf.tracks.map (fun t => bankLoop t.trackNumber 0 none t.events)).flatten)

end Midiasm
