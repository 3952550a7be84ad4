import Verif.Spec.Transpose

/-!
What the display fields of events should show, as a function of the events before (newest first).
-/

namespace Spec

/-- The accidentals of the most recent key signature. -/
def recentKey : List Content → Option Int
  | [] => none
  | .keySignature a _ :: _ => some a
  | _ :: past => recentKey past

/-- Notes are spelled with flats after a key signature with flats. -/
def useFlats (past : List Content) : Prop := ∃ a, recentKey past = some a ∧ a < 0

/-- The value of the most recent controller event for a channel and controller. -/
def recentController (ch id : Nat) : List Content → Option Nat
  | [] => none
  | .controller ch' id' v :: past => if ch' = ch ∧ id' = id then some v else recentController ch id past
  | _ :: past => recentController ch id past

/-- The bank selected on a channel: 128 * MSB + LSB. -/
def selectedBank (ch : Nat) (past : List Content) : Nat :=
  128 * (recentController ch 0 past).getD 0 + (recentController ch 32 past).getD 0

/-- `name` names the note number `n`: a pitch name of the right pitch class, spelled with flats or with sharps, followed by the
octave, counted from `-offset` for notes 0 to 11. -/
def Names (flats : Prop) (offset : Int) (name : String) (n : Nat) : Prop :=
  ∃ pitch, name = pitch ++ toString ((n / 12 : Nat) - offset : Int) ∧ pitchClass pitch = some ((n % 12 : Nat) : Int) ∧
    (flats → '♯' ∉ pitch.toList) ∧ (¬ flats → '♭' ∉ pitch.toList)

end Spec
