import Verif.Spec.Display

/-!
The notes of a track and the time at which they sound, specified independently of the code.
-/

namespace Spec

/-- The event starts a note: a note on with non-zero velocity. -/
def StartsNote (c : Content) (ch key : Nat) : Prop := ∃ v, 0 < v ∧ c = .noteOn ch key v

/-- The event ends a note: a note off, a note on with zero velocity or the end of the track. -/
def EndsNote (c : Content) (ch key : Nat) : Prop := (∃ v, c = .noteOff ch key v) ∨ c = .noteOn ch key 0 ∨ c = .endOfTrack

/-- Just before event `i` the note is sounding: it was started and has not been ended since. -/
def Sounding (cs : List Content) (ch key i : Nat) : Prop :=
  ∃ s, s < i ∧ (∃ c, cs[s]? = some c ∧ StartsNote c ch key) ∧
    ∀ m c, s < m → m < i → cs[m]? = some c → ¬ EndsNote c ch key

/-- The event numbers of the start and of the end of a note. -/
structure Span where
  ch : Nat
  key : Nat
  first : Nat
  last : Nat
  deriving DecidableEq, Repr

/-- One note ends before another; of the notes that end with the same event those of lower channels come first. -/
def EndsFirst (p q : Span) : Prop := p.last < q.last ∨ (p.last = q.last ∧ p.ch ≤ q.ch)

/-- A note of the track: started while it was not sounding, ended by the first event after that ends it. -/
def IsSpan (cs : List Content) (p : Span) : Prop :=
  (∃ c, cs[p.first]? = some c ∧ StartsNote c p.ch p.key) ∧ ¬ Sounding cs p.ch p.key p.first ∧
  p.first < p.last ∧ (∃ c, cs[p.last]? = some c ∧ EndsNote c p.ch p.key) ∧
  ∀ m c, p.first < m → m < p.last → cs[m]? = some c → ¬ EndsNote c p.ch p.key

/-- A tempo map: ticks and microseconds per quarter note, in order. -/
abbrev TempoMap := List (Nat × Nat)

/-- The tempo during the tick that starts at `t`: that of the last change at or before `t`, initially 120 beats per minute. -/
def tempoAt (m : TempoMap) (t : Nat) : Nat := (((m.filter (fun p => decide (p.1 ≤ t))).getLast?).map (·.2)).getD 500000

/-- Elapsed time at tick `t`, in microseconds times the number of ticks per quarter note. -/
def elapsed (m : TempoMap) : Nat → Nat
  | 0 => 0
  | t + 1 => elapsed m t + tempoAt m t

/-- The later of two changes of tempo, the last one in the tempo map and the last one in the track itself; at the same tick the one in the
tempo map.  Initially 50000 microseconds per quarter note. -/
def latestTempo : Option (Nat × Nat) → Option (Nat × Nat) → Nat
  | none, none => 50000
  | some p, none => p.2
  | none, some q => q.2
  | some p, some q => if q.1 ≤ p.1 then p.2 else q.2

/-- The times of the events of a track as they are reported, in nanoseconds, before rounding.  Each event is given by its tick, its delta
time and the tempo that it sets.  Each delta time is converted separately, with the division rounded down, at the tempo set last: by the tempo
map at an earlier tick, or by an earlier event of the track. -/
def noteTimes (m : TempoMap) (ppqn : Nat) : Option (Nat × Nat) → Nat → List (Nat × Nat × Option Nat) → List Nat
  | _, _, [] => []
  | own, at_, (t, d, v) :: l =>
    let now := at_ + 1000 * d * latestTempo ((m.filter fun p => decide (p.1 < t)).getLast?) own / ppqn
    now :: noteTimes m ppqn (match v with | some v => some (t, v) | none => own) now l

end Spec
