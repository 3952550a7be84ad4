import Verif.Model.File

/-!
Transposition (ops/transpose/transpose.go and the `Transpose` methods).  `steps` is a Go `int`; the sums
`int(note) + steps` wrap around in 64 bits.
-/

namespace Midiasm

/-- The clamp of `NoteOn.Transpose` (midi/events/midi/note_on.go:177-189) and `NoteOff.Transpose`
(note_off.go:71-83). -/
def transposeValue (n : UInt8) (steps : Int) : UInt8 :=
  let v : Int := wrap64 (n.toNat + steps)
  if v < 0 then 0 else if v > 127 then 127 else UInt8.ofNat v.toNat

/-- The transposed note with its names: `NoteOn.Transpose` (midi/events/midi/note_on.go:199-203) and `NoteOff.Transpose`
(note_off.go:93-97) both look up `GetNoteOff`, which dereferences the context (context.go:80-90): a nil context panics. -/
def transposeNoteVal (mc : MiddleC) (ctx : Option Context) (ch : UInt8) (n : NoteVal) (steps : Int) : Outcome NoteVal :=
  match ctx with
  | none => .panic
  | some ctx =>
    let note := transposeValue n.value steps
    .ok ⟨note, ctx.getNoteOff mc ch note, ctx.formatNote mc note⟩

/-- `KeySignature.Transpose` (midi/events/meta/key_signature.go:222-265): new accidentals and key, and the context's
scale; `UseFlats` and `UseSharps` (context.go:68-78) panic on a nil context. -/
def transposeKey (ctx : Option Context) (accidentals : Int8) (keyType : UInt8) (steps : Int) : Outcome (Body × Context) := do
  let scale ←
    if keyType = 0 then
      match Lib.majorScale accidentals with
      | some s => Outcome.ok s
      | none => .panic
    else if keyType = 1 then
      match Lib.minorScale accidentals with
      | some s => Outcome.ok s
      | none => .panic
    else .panic
  let t ← scale.transpose steps
  match ctx with
  | none => .panic
  | some ctx =>
    .ok (.keySignature t.accidentals keyType t.name, if t.accidentals < 0 then ctx.useFlats else ctx.useSharps)

/-- One iteration of the loop in `transpose` (ops/transpose/transpose.go:39-64).  Transposed events lose their raw bytes;
all other events are kept as they are.  (Events held by pointer, which no decoder makes, would be dropped.) -/
def transposeEvent (mc : MiddleC) (ctx : Option Context) (e : Event) (steps : Int) : Outcome (Event × Option Context) :=
  match e.body with
  | .keySignature accidentals keyType _ => do
    let (b, ctx) ← transposeKey ctx accidentals keyType steps
    .ok (⟨e.tick, e.delta, [], b⟩, some ctx)
  | .noteOn ch n v => do
    let n' ← transposeNoteVal mc ctx ch n steps
    .ok (⟨e.tick, e.delta, [], .noteOn ch n' v⟩, ctx)
  | .noteOff ch n v => do
    let n' ← transposeNoteVal mc ctx ch n steps
    .ok (⟨e.tick, e.delta, [], .noteOff ch n' v⟩, ctx)
  | _ => .ok (e, ctx)

/-- The loop of `transpose` (ops/transpose/transpose.go:39-64). -/
def transposeEvents (mc : MiddleC) (steps : Int) : Option Context → List Event → Outcome (List Event)
  | _, [] => .ok []
  | ctx, e :: es => do
    let (e', ctx) ← transposeEvent mc ctx e steps
    let es' ← transposeEvents mc steps ctx es
    .ok (e' :: es')

/-- `transpose` (ops/transpose/transpose.go:32-67) of a track with the given context.  The new track has zero `Length`,
nil `Bytes` and a nil `Context`; the model's tracks have no nil context, so the caller keeps track of that. -/
def transposeTrack (mc : MiddleC) (steps : Int) (ctx : Option Context) (t : MTrk) : Outcome MTrk := do
  let events ← transposeEvents mc steps ctx t.events
  .ok ⟨str "MTrk", t.trackNumber, 0, [], events, newContext⟩

/-- The loop of `Execute` (ops/transpose/transpose.go:17-20).  `again`: the tracks come from an earlier transposition, so
their contexts are nil. -/
def transposeTracks (mc : MiddleC) (steps : Int) (again : Bool) : List MTrk → Outcome (List MTrk)
  | [] => .ok []
  | t :: ts => do
    let t' ← transposeTrack mc steps (if again then none else some t.context) t
    let ts' ← transposeTracks mc steps again ts
    .ok (t' :: ts')

/-- The file after transposition and before encoding (ops/transpose/transpose.go:16-20); the new tracks replace the old
ones in the caller's file value. -/
def transposeSMF (mc : MiddleC) (steps : Int) (again : Bool) (smf : SMF) : Outcome SMF := do
  let tracks ← transposeTracks mc steps again smf.tracks
  .ok ⟨smf.mthd, tracks⟩

/-- `Transpose.Execute` (ops/transpose/transpose.go:16-30). -/
def transposeExecute (mc : MiddleC) (steps : Int) (again : Bool) (smf : SMF) : Outcome Bytes := do
  let smf' ← transposeSMF mc steps again smf
  encode smf'

end Midiasm
