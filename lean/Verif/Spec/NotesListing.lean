import Verif.Spec.Decoded
import Verif.Spec.Notes
import Verif.Model.Notes

/-!
The notes of a file and their listing, as functions of what the bytes of the file stand for.
-/

namespace Spec
open Midiasm

/-- The tempo that an event sets. -/
def setsTempo : Content → Option Nat
  | .tempo v => some v
  | _ => none

/-- The changes of tempo in a track. -/
def tempoChanges (t : TrackEntry) : TempoMap := t.events.filterMap fun e => (setsTempo e.content).map fun v => (e.tick, v)

/-- The times of the events of a track, in milliseconds. -/
def timesMs (m : TempoMap) (ppqn : Nat) (t : TrackEntry) : List Nat :=
  (noteTimes m ppqn none 0 (t.events.map fun e => (e.tick, e.delta, setsTempo e.content))).map fun x => (x + 500000) / 1000000

/-- The notes of a track, in the order in which they end, and by channel if they end together. -/
def SpansOf (cs : List Content) (ps : List Span) : Prop :=
  ps.Nodup ∧ (∀ p, p ∈ ps ↔ IsSpan cs p) ∧ ps.Pairwise EndsFirst

/-- The velocity of a note on. -/
def velocityOf : Option Content → Nat
  | some (.noteOn _ _ v) => v
  | _ => 0

/-- A note of a track, transposed: its times in nanoseconds are whole milliseconds. -/
def noteRecord (offset n : Int) (m : TempoMap) (ppqn : Nat) (t : TrackEntry) (p : Span) : Note :=
  let cs := t.events.map (·.content)
  let key := (max 0 (min 255 ((p.key : Int) + n))).toNat
  let start := (timesMs m ppqn t).getD p.first 0
  let stop := (timesMs m ppqn t).getD p.last 0
  { channel := UInt8.ofNat p.ch
    note := UInt8.ofNat key
    formattedNote := noteName offset (flatsAfter (cs.take p.first).reverse) key
    velocity := UInt8.ofNat (velocityOf cs[p.first]?)
    startTick := UInt64.ofNat ((t.events.map (·.tick)).getD p.first 0)
    endTick := UInt64.ofNat ((t.events.map (·.tick)).getD p.last 0)
    start := (1000000 * start : Nat)
    end_ := (1000000 * stop : Nat)
    duration := (1000000 * (stop - start) : Nat) }

/-- A fraction of a second, in milliseconds, without zeros at the end. -/
def secondFraction (ms : Nat) : String :=
  if ms = 0 then ""
  else if ms % 100 = 0 then s!".{ms / 100}"
  else if ms % 10 = 0 then s!".{ms / 100}{ms / 10 % 10}"
  else s!".{ms / 100}{ms / 10 % 10}{ms % 10}"

/-- A time, in milliseconds. -/
def timeText (ms : Nat) : String :=
  if ms = 0 then "0s"
  else if ms < 1000 then s!"{ms}ms"
  else (if 3600000 ≤ ms then s!"{ms / 3600000}h" else "") ++ (if 60000 ≤ ms then s!"{ms / 60000 % 60}m" else "") ++
    s!"{ms / 1000 % 60}{secondFraction (ms % 1000)}s"

/-- A text filled up with blanks. -/
def blankFilled (w : Nat) (s : String) : String := s ++ String.ofList (List.replicate (w - s.length) ' ')

/-- The line for a note. -/
def noteLine (x : Note) : String :=
  let ms (d : Int) : Nat := d.toNat / 1000000
  blankFilled 4 x.formattedNote ++ " channel:" ++ blankFilled 2 (toString x.channel.toNat) ++ "  note:" ++ hexText x.note ++ "  velocity:" ++
    blankFilled 3 (toString x.velocity.toNat) ++ "  start:" ++ blankFilled 9 (timeText (ms x.start)) ++ "  end:" ++
    blankFilled 9 (timeText (ms x.end_)) ++ "  duration:" ++ timeText (ms x.duration)

/-- The notes of a file, those of each track together; the notes of the first track are left out. -/
def fileNotes (offset n : Int) (ppqn : Nat) (ts : List TrackEntry) (pss : List (List Span)) : List Note :=
  ((ts.drop 1).zip pss).flatMap fun (t, ps) => ps.map (noteRecord offset n (tempoChanges (ts.headD ⟨0, [], 0, [], []⟩)) ppqn t)

end Spec
