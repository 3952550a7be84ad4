import Verif.Model.Go

/-!
The decoding context and note names (midi/context/context.go, midi/lib/middlec.go).
-/

namespace Midiasm

/-- `lib.MiddleC` (midi/lib/middlec.go:8-13).  The global `context.MiddleC` (context.go:47-52, default `C3`,
set once from the command line) is a parameter of every function that reads it. -/
inductive MiddleC where
  | c3
  | c4
  deriving DecidableEq, Repr

/-- Which of the two name tables a context's `scale` field points to. -/
inductive ScaleKind where
  | sharps
  | flats
  deriving DecidableEq, Repr

/-- `Sharps` (midi/context/context.go:9-22) and `Flats` (context.go:24-37). -/
def ScaleKind.names : ScaleKind → List String
  | .sharps => ["C", "C♯", "D", "D♯", "E", "F", "F♯", "G", "G♯", "A", "A♯", "B"]
  | .flats => ["C", "D♭", "D", "E♭", "E", "F", "G♭", "G", "A♭", "A", "B♭", "B"]

/-- Map lookup `scale[n]`; a missing key gives the empty string. -/
def ScaleKind.name (k : ScaleKind) (n : UInt8) : String := (k.names[n.toNat]?).getD ""

/-- `Context` (midi/context/context.go:39-45).  `ProgramBank` and `notes` are Go maps; a missing bank reads
as zero. -/
structure Context where
  scale : ScaleKind
  runningStatus : UInt8
  casio : Bool
  programBank : UInt8 → UInt16
  notes : UInt16 → Option String

/-- `NewContext` (midi/context/context.go:54-62). -/
def newContext : Context := ⟨.sharps, 0x00, false, fun _ => 0, fun _ => none⟩

/-- `UseSharps` (midi/context/context.go:68-72). -/
def Context.useSharps (ctx : Context) : Context := { ctx with scale := .sharps }

/-- `UseFlats` (midi/context/context.go:74-78). -/
def Context.useFlats (ctx : Context) : Context := { ctx with scale := .flats }

/-- The body shared by `Context.FormatNote` (midi/context/context.go:100-117) and `midievent.FormatNote`
(midi/events/midi/midievent.go:159-175). -/
def formatNoteWith (mc : MiddleC) (scale : ScaleKind) (n : UInt8) : String :=
  let note := scale.name (n % 12)
  let octave : Int := match mc with
    | .c4 => (n / 12).toNat - 2
    | .c3 => (n / 12).toNat - 1
  note ++ toString octave

/-- `Context.FormatNote` (midi/context/context.go:100-117) on a non-nil context. -/
def Context.formatNote (mc : MiddleC) (ctx : Context) (n : UInt8) : String := formatNoteWith mc ctx.scale n

/-- `midievent.FormatNote(nil, n)` (midi/events/midi/midievent.go:159-175): no context, sharps. -/
def formatNoteNil (mc : MiddleC) (n : UInt8) : String := formatNoteWith mc .sharps n

/-- The map key `uint16(ch) << 8 | uint16(n)` (midi/context/context.go:81-83, 93-95). -/
def noteKey (ch n : UInt8) : UInt16 := (ch.toUInt16 <<< 8) ||| n.toUInt16

/-- `GetNoteOff` (midi/context/context.go:80-90). -/
def Context.getNoteOff (mc : MiddleC) (ctx : Context) (ch n : UInt8) : String :=
  match ctx.notes (noteKey ch n) with
  | some s => s
  | none => ctx.formatNote mc n

/-- `PutNoteOn` (midi/context/context.go:92-98). -/
def Context.putNoteOn (mc : MiddleC) (ctx : Context) (ch n : UInt8) : Context :=
  { ctx with notes := fun k => if k = noteKey ch n then some (ctx.formatNote mc n) else ctx.notes k }

end Midiasm
