import Verif.Model.Event

/-!
Terminators of SysEx events while assembling (ops/assemble/assemble.go).
-/

namespace Midiasm

/-- The type assertion `event.Event.(sysex.SysExContinuationMessage)` (ops/assemble/assemble.go:26, 46). -/
def Body.isContinuation : Body → Bool
  | .sysExContinuation _ _ => true
  | _ => false

/-- First loop of `fixups` (ops/assemble/assemble.go:15-31).  Assembled tracks hold event values, never pointers
(midi/events/text.go:108, midi/events/json.go:76), so the pointer branches (lines 19-23) never match and are left out. -/
def fixMessages : List Event → List Event
  | a :: b :: rest =>
      (match a.body with
        | .sysExMessage m d _ => if !b.body.isContinuation then { a with body := .sysExMessage m d true } else a
        | _ => a) :: fixMessages (b :: rest)
  | l => l

/-- Second loop of `fixups` (ops/assemble/assemble.go:33-49), pointer branches (lines 37-41) left out as above. -/
def fixContinuations : List Event → List Event
  | a :: b :: rest =>
      (match a.body with
        | .sysExContinuation d _ => if !b.body.isContinuation then { a with body := .sysExContinuation d true } else a
        | _ => a) :: fixContinuations (b :: rest)
  | l => l

/-- `fixups` (ops/assemble/assemble.go:14-52): `mtrk.Events[1:]` panics on an empty track.  Never returns an error. -/
def fixups (events : List Event) : Outcome (List Event) :=
  match events with
  | [] => .panic
  | l => .ok (fixContinuations (fixMessages l))

end Midiasm
