import Verif.Model.Parse

/-!
Track decoding (midi/MTrk.go).
-/

namespace Midiasm

/-- `events.NewEvent(e), err` at midi/MTrk.go:140 and 190: when the parser returned an error `e` is nil and `NewEvent`
panics (midi/events/event.go:37-45). -/
def newEventOrPanic (r : Outcome Event) : Outcome Event :=
  match r with
  | .err _ => .panic
  | r => r

/-- Number of data bytes read for a channel event (midi/MTrk.go:170-178); statuses not in the map read none. -/
def midiDataLength (status : UInt8) : Nat :=
  let s := status &&& 0xf0
  if s = 0x80 then 2
  else if s = 0x90 then 2
  else if s = 0xA0 then 1
  else if s = 0xB0 then 2
  else if s = 0xC0 then 1
  else if s = 0xD0 then 1
  else if s = 0xE0 then 2
  else 0

/-- Reading `n` bytes one at a time (midi/MTrk.go:180-184). -/
def readBytes : Nat → Bytes → Outcome Bytes
  | 0, r => .ok r
  | _ + 1, [] => .err .eof
  | n + 1, _ :: r => readBytes n r

/-- `ctx.Casio` after an F0/F7 event (midi/MTrk.go:158-163), from the last byte read. -/
def nextCasio (casio : Bool) (status : UInt8) (bytes : Bytes) : Bool :=
  let last := bytes.getLast?
  if status = 0xf0 then decide (last ≠ some 0xf7)
  else if status = 0xf7 ∧ casio = true ∧ last = some 0xf7 then false
  else casio

/-- `parse` (midi/MTrk.go:105-191): one event from the reader.  Returns the event, the unread input and the context.
`inp` is everything still unread when `parse` starts, so `rr.Bytes()` is `consumed inp rest`; the buffer's spare
capacity is `spare` (shown irrelevant in `Lemmas`: the length was read from the same buffer).  On an error the context is
dropped: the caller stops. -/
def parseEvent (mc : MiddleC) (inp spare : Bytes) (tick : UInt32) (ctx : Context) :
    Outcome (Event × Bytes × Context) := do
  let (delta, r) ← readVLQ inp
  let (status, r) ←
    match r with
    | [] => Outcome.err .eof
    | b :: r' =>
      if b < 0x80 ∧ ctx.runningStatus < 0x80 then .err .other
      else if b < 0x80 then .ok (ctx.runningStatus, r)
      else .ok (b, r')
  if status = 0xff then
    let ctx := { ctx with runningStatus := 0x00 }
    match r with
    | [] => .err .eof
    | _ :: r => do
      let (_, r) ← readVLF r
      let e ← newEventOrPanic (metaParse (tick.toUInt64 + delta.toUInt64) (consumed inp r) spare)
      .ok (e, r, ctx)
  else if status = 0xf0 ∨ status = 0xf7 then
    let ctx := { ctx with runningStatus := 0x00 }
    let (_, r) ← readVLF r
    if status = 0xf0 ∧ ctx.casio = true then .err .other
    else do
      let e ← sysexParse (tick.toUInt64 + delta.toUInt64) ctx.casio (consumed inp r) spare
      .ok (e, r, { ctx with casio := nextCasio ctx.casio status (consumed inp r) })
  else do
    let r ← readBytes (midiDataLength status) r
    let e ← newEventOrPanic (midiParse mc (tick.toUInt64 + delta.toUInt64) ctx.runningStatus (consumed inp r))
    .ok (e, r, { ctx with runningStatus := status })

/-- The context update for bank select MSB (midi/MTrk.go:66-71) and LSB (MTrk.go:73-77). -/
def Context.bankSelect (ctx : Context) (ch id value : UInt8) : Context :=
  let v := value.toUInt16
  let ctx := if id = 0x00 then
      { ctx with programBank := fun c => if c = ch then ((ctx.programBank ch &&& (0x003f : UInt16)) ||| ((v &&& (0x003f : UInt16)) <<< (7 : UInt16)) : UInt16) else ctx.programBank c }
    else ctx
  if id = 0x20 then
      { ctx with programBank := fun c => if c = ch then ((ctx.programBank ch &&& ((0x003f : UInt16) <<< (7 : UInt16))) ||| (v &&& (0x003f : UInt16)) : UInt16) else ctx.programBank c }
    else ctx

/-- The switch on the event just parsed (midi/MTrk.go:58-89), with `NoteOff.Format` (midi/events/midi/note_off.go:102-119),
`NoteOn.Format` (note_on.go:208-225) and `ProgramChange.SetBank` (program_change.go:144-157). -/
def applyContext (mc : MiddleC) (ctx : Context) (e : Event) : Event × Context :=
  match e.body with
  | .keySignature accidentals _ _ => (e, if accidentals < 0 then ctx.useFlats else ctx.useSharps)
  | .controller ch c value => (e, ctx.bankSelect ch c.id value)
  | .noteOff ch note v =>
      ({ e with body := .noteOff ch ⟨note.value, ctx.getNoteOff mc ch note.value, ctx.formatNote mc note.value⟩ v }, ctx)
  | .noteOn ch note v =>
      let ctx := ctx.putNoteOn mc ch note.value
      ({ e with body := .noteOn ch ⟨note.value, ctx.formatNote mc note.value, ctx.formatNote mc note.value⟩ v }, ctx)
  | .programChange ch _ program => ({ e with body := .programChange ch (ctx.programBank ch) program }, ctx)
  | _ => (e, ctx)

/-- The loop of `MTrk.UnmarshalBinary` (midi/MTrk.go:52-95): events until `io.EOF`, any other error is returned.
`fuel` exceeds the number of unread bytes; every event consumes at least one byte (`Lemmas` proves fuel is never
exhausted), so running out of fuel cannot happen; it is rendered as `diverge`. -/
def trackLoop (mc : MiddleC) (spare : Bytes) : Nat → Bytes → UInt32 → Context → Outcome (List Event × Context)
  | 0, _, _, _ => .diverge
  | fuel + 1, inp, tick, ctx =>
    match parseEvent mc inp spare tick ctx with
    | .err .eof => .ok ([], ctx)
    | .err e => .err e
    | .panic => .panic
    | .diverge => .diverge
    | .ok (e, rest, ctx') =>
      let tick' := tick + e.delta
      let (e', ctx'') := applyContext mc ctx' e
      match trackLoop mc spare fuel rest tick' ctx'' with
      | .ok (es, c) => .ok (e' :: es, c)
      | r => r

/-- `MTrk` (midi/MTrk.go:18-25). -/
structure MTrk where
  tag : Bytes
  trackNumber : Nat
  length : UInt32
  bytes : Bytes
  events : List Event
  context : Context

/-- `MTrk.UnmarshalBinary` (midi/MTrk.go:38-103) on a fresh context (encoding/midi/decoder.go:57-60). -/
def unmarshalMTrk (mc : MiddleC) (spare : Bytes) (trackNumber : Nat) (data : Bytes) : Outcome MTrk := do
  let tag ← slice data 0 4
  if tag ≠ str "MTrk" then .err .other
  else do
    let lenBytes ← slice data 4 8
    let length ← beUint32 lenBytes
    let body ← slice data 8 data.length
    let (events, ctx) ← trackLoop mc spare (body.length + 1) body 0 newContext
    .ok ⟨tag, trackNumber, length, data, events, ctx⟩

end Midiasm
