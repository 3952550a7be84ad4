import Verif.Spec.Export
import Verif.Spec.Validate

/-!
The warnings about a file, as a function of what its bytes stand for.
-/

namespace Spec
open Midiasm

/-- The name of the kind of an event, in warnings. -/
def warnedName : Content → String
  | .continuation _ => "SysExContinuationMessage"
  | .escape _ => "SysExEscapeMessage"
  | c => tagOf c

/-- Whether an event is a controller with the given number; its channel. -/
def controllerOn (id : Nat) : Content → Option Nat
  | .controller ch id' _ => if id' = id then some ch else none
  | _ => none

/-- Warnings about the format of the file. -/
def formatWarnings (format : Nat) (ts : List TrackEntry) : List String :=
  if format = 0 ∧ ts.length ≠ 1 then [s!"File contains {ts.length} tracks (expected 1 track for FORMAT 0)"]
  else if format = 1 then
    ((ts.take 1).flatMap fun t => (t.events.filter fun e => ¬ TempoMapKind e.content).map fun e => s!"Track 0: unexpected event ({warnedName e.content})") ++
    (ts.drop 1).flatMap fun t => (t.events.filter fun e => TempoMapOnly e.content).map fun e =>
      s!"Track {t.number}: unexpected event ({warnedName e.content})"
  else []

/-- Warnings about the end of a track: every end of track that is not the last event, and none at all. -/
def endWarnings (t : TrackEntry) : List String :=
  ((List.range (t.events.length - 1)).filter fun k => (t.events.map (·.content))[k]? = some .endOfTrack).map
    (fun k => s!"Track {t.number}: EndOfTrack @{k + 1} (EndOfTrack) is not last event") ++
  if Content.endOfTrack ∈ t.events.map (·.content) then [] else [s!"Track {t.number}: missing EndOfTrack event"]

/-- Warnings about two events one after the other, the second of which is number `k`, and about the first event of a track. -/
def bankWarnings (track k : Nat) (before : Option Content) (c : Content) : List String :=
  match before.bind (controllerOn 0), controllerOn 32 c with
  | none, none => []
  | some _, none => [s!"Track {track}: 'Bank Select MSB' event @{k - 1} missing LSB (Controller)"]
  | none, some _ => [s!"Track {track}: 'Bank Select LSB' event @{k} missing MSB (Controller)"]
  | some a, some b =>
    if a = b then []
    else [s!"Track {track}: 'Bank Select MSB' event @{k - 1} LSB on another channel (Controller)",
      s!"Track {track}: 'Bank Select LSB' event @{k} MSB on another channel (Controller)"]

/-- Warnings about the bank selections of a track. -/
def trackBankWarnings (t : TrackEntry) : List String :=
  (List.range t.events.length).flatMap fun k =>
    match (t.events.map (·.content))[k]? with
    | some c => bankWarnings t.number (k + 1) (if k = 0 then none else (t.events.map (·.content))[k - 1]?) c
    | none => []

/-- All warnings about a file. -/
def fileWarnings (format : Nat) (ts : List TrackEntry) : List String :=
  formatWarnings format ts ++ ts.flatMap endWarnings ++ ts.flatMap trackBankWarnings

/-- The text of the warnings. -/
def warningText (ws : List String) : List UInt8 :=
  if ws = [] then [] else str "\nWARNING: there are validation errors:\n" ++ ws.flatMap (fun w => str s!"         ** {w}\n") ++ str "\n"

end Spec
