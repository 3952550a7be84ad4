import Verif.Model.Notes
import Verif.Spec.Text
import Verif.Spec.Lines

/-!
The listing of notes, specified independently of the code that prints it.
-/

namespace Spec
open Midiasm

/-- Value in nanoseconds of an unsigned duration: numbers with units, the number read so far being `n / den`, `frac` after a decimal
point. -/
def unitsValue : Nat → Nat → Nat → Bool → Bytes → Option Nat
  | total, _, _, _, [] => some total
  | total, n, den, _, 104 :: rest => unitsValue (total + n * 3600000000000 / den) 0 1 false rest
  | total, n, den, _, 109 :: 115 :: rest => unitsValue (total + n * 1000000 / den) 0 1 false rest
  | total, n, den, _, 109 :: rest => unitsValue (total + n * 60000000000 / den) 0 1 false rest
  | total, n, den, _, 110 :: 115 :: rest => unitsValue (total + n / den) 0 1 false rest
  | total, n, den, _, 194 :: 181 :: 115 :: rest => unitsValue (total + n * 1000 / den) 0 1 false rest
  | total, n, den, _, 115 :: rest => unitsValue (total + n * 1000000000 / den) 0 1 false rest
  | total, n, _, _, 46 :: rest => unitsValue total n 1 true rest
  | total, n, den, frac, c :: rest =>
    if 48 ≤ c.toNat ∧ c.toNat ≤ 57 then unitsValue total (10 * n + (c.toNat - 48)) (if frac then 10 * den else den) frac rest else none

/-- Value in nanoseconds of a duration like `-1h2m3.5s` or `20ms`. -/
def durationValue : Bytes → Option Int
  | 45 :: s => (unitsValue 0 0 1 false s).map fun (n : Nat) => -(n : Int)
  | s => (unitsValue 0 0 1 false s).map fun (n : Nat) => (n : Int)

/-- Milliseconds of a time in nanoseconds, the rest dropped. -/
def milliseconds (d : Int) : Int := if 0 ≤ d then d / 1000000 else -(-d / 1000000)

/-- The text `c` is `s` followed by blanks up to `w` characters; longer texts are not cut. -/
def PaddedTo (w : Nat) (s c : Bytes) : Prop := ∃ k, c = s ++ List.replicate k 32 ∧ ((runes s).length + k = w ∨ (w < (runes s).length ∧ k = 0))

/-- A line of the listing shows the note. -/
def ShowsNote (n : Note) (line : Bytes) : Prop :=
  ∃ name channel velocity start end_ duration ch v s e,
    line = name ++ str " channel:" ++ channel ++ str "  note:" ++ [upperDigit (n.note.toNat / 16), upperDigit (n.note.toNat % 16)] ++
      str "  velocity:" ++ velocity ++ str "  start:" ++ start ++ str "  end:" ++ end_ ++ str "  duration:" ++ duration ∧
    PaddedTo 4 (str n.formattedNote) name ∧
    PaddedTo 2 ch channel ∧ Numeral ch n.channel.toNat ∧
    PaddedTo 3 v velocity ∧ Numeral v n.velocity.toNat ∧
    PaddedTo 9 s start ∧ durationValue s = some (1000000 * milliseconds n.start) ∧
    PaddedTo 9 e end_ ∧ durationValue e = some (1000000 * milliseconds n.end_) ∧
    durationValue duration = some (1000000 * milliseconds n.duration)

end Spec
