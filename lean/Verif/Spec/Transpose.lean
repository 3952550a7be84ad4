import Verif.Spec.Keys

/-!
What transposition by a number of semitones means.
-/

namespace Spec

/-- A note number moved by `n` semitones, limited to the MIDI range. -/
def movedNote (n : Int) (k : Nat) : Nat := (max 0 (min 127 ((k : Int) + n))).toNat

/-- The pitch class of the tonic of a key: every accidental is a fifth (seven semitones); C is 0, A is 9. -/
def tonic (accidentals : Int) (minor : Bool) : Int := (7 * accidentals + if minor then 9 else 0) % 12

/-- The accidentals of a key moved by `n` semitones: a semitone is seven fifths; of enharmonic keys the one with at most five
flats and at most six sharps. -/
def movedKey (n : Int) (accidentals : Int) : Int := (accidentals + 7 * n + 5) % 12 - 5

/-- An event moved by `n` semitones. -/
def moved (n : Int) : Content → Content
  | .noteOff ch k v => .noteOff ch (movedNote n k) v
  | .noteOn ch k v => .noteOn ch (movedNote n k) v
  | .keySignature a m => .keySignature (movedKey n a) m
  | c => c

/-- Notes and key signatures. -/
def IsPitched : Content → Prop
  | .noteOff _ _ _ => True
  | .noteOn _ _ _ => True
  | .keySignature _ _ => True
  | _ => False

/-- Pitch class of a note name: a letter and an optional accidental. -/
def pitchClass (name : String) : Option Int :=
  let letter : Char → Option Int := fun c =>
    if c = 'C' then some 0 else if c = 'D' then some 2 else if c = 'E' then some 4 else if c = 'F' then some 5
    else if c = 'G' then some 7 else if c = 'A' then some 9 else if c = 'B' then some 11 else none
  match name.toList with
  | [c] => letter c
  | [c, a] => (letter c).bind fun p => if a = '♯' then some ((p + 1) % 12) else if a = '♭' then some ((p - 1) % 12) else none
  | _ => none

/-- The intervals between the notes of a scale and up to the octave. -/
def scaleSteps (minor : Bool) : List Int := if minor then [2, 1, 2, 2, 1, 2, 2] else [2, 2, 1, 2, 2, 2, 1]

/-- The intervals between neighbouring pitch classes and back to the first. -/
def intervals : List Int → List Int
  | [] => []
  | p :: ps => List.zipWith (fun a b => (b - a) % 12) (p :: ps) (ps ++ [p])

end Spec
