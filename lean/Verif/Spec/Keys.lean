import Verif.Spec.Wire

/-!
Key names on the circle of fifths.
-/

namespace Spec

/-- The natural notes in the order in which they follow each other by fifths. -/
def fifthLetters : List String := ["F", "C", "G", "D", "A", "E", "B"]

/-- The note `i` fifths above F: going round the seven letters once adds a sharp, going back once a flat. -/
def fifthName (i : Int) : String :=
  fifthLetters.getD (i % 7).toNat "" ++ (if i / 7 = -1 then "♭" else if i / 7 = 1 then "♯" else "")

/-- The name of the key with `accidentals` sharps (or, negative, flats).  C major and A minor have none; C is one fifth above F,
A is four. -/
def keyName (accidentals : Int) (minor : Bool) : String :=
  if minor then fifthName (accidentals + 4) ++ " minor" else fifthName (accidentals + 1) ++ " major"

end Spec
