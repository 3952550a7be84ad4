import Verif.Model.Notes
import Verif.Spec.JsonText
import Verif.Spec.NotesPrint

/-!
The JSON listing of notes, specified independently of the code that writes it.
-/

namespace Spec
open Midiasm

/-- The text is the number `c / 10^j`, written with `j` decimals. -/
def DecimalNumber (s : Bytes) (c : Int) (j : Nat) : Prop :=
  ∃ sign int decimals, s = sign ++ int ++ (if j = 0 then [] else str "." ++ decimals) ∧
    ((sign = [] ∧ 0 ≤ c) ∨ (sign = str "-" ∧ c < 0)) ∧ int ≠ [] ∧ decimals.length = j ∧ Numeral (int ++ decimals) c.natAbs

/-- The text is a time in seconds, exact to the millisecond. -/
def ExactSeconds (d : Int) (s : Bytes) : Prop := ∃ c j, DecimalNumber s c j ∧ 1000 * c = milliseconds d * 10 ^ j

/-- The text is a time in seconds, less than 10^-14 seconds off the millisecond. -/
def CloseSeconds (d : Int) (s : Bytes) : Prop :=
  ∃ c j, DecimalNumber s c j ∧ (1000 * c - milliseconds d * 10 ^ j).natAbs * 10 ^ 11 < 10 ^ j

/-- Exact below one second and from 32 seconds on, otherwise close. -/
def NearlySeconds (d : Int) (s : Bytes) : Prop :=
  CloseSeconds d s ∧ ((milliseconds d).natAbs < 1000 ∨ 32000 ≤ (milliseconds d).natAbs → ExactSeconds d s)

/-- The characters of a name. -/
def letters (s : String) : List Nat := s.toList.map fun c => c.val.toNat

/-- The object shows the note, with times as `T` tells. -/
def NoteObject (T : Int → Bytes → Prop) (n : Note) (j : Json) : Prop :=
  ∃ ch key v start end_ duration,
    j = .obj [(letters "channel", .num ch), (letters "midi-note", .num key), (letters "note", .str (letters n.formattedNote)),
      (letters "velocity", .num v), (letters "start", .num start), (letters "end", .num end_), (letters "duration", .num duration)] ∧
    Numeral ch n.channel.toNat ∧ Numeral key n.note.toNat ∧ Numeral v n.velocity.toNat ∧
    T n.start start ∧ T n.end_ end_ ∧ T n.duration duration

/-- The document lists the notes, in order; `null` if there are none. -/
def NotesDocument (T : Int → Bytes → Prop) (notes : List Note) (j : Json) : Prop :=
  ∃ v, j = .obj [(letters "notes", v)] ∧ ((notes = [] ∧ v = .null) ∨ (notes ≠ [] ∧ ∃ l, v = .arr l ∧ List.Forall₂ (NoteObject T) notes l))

/-- An `int64`. -/
def Duration64 (d : Int) : Prop := -2 ^ 63 ≤ d ∧ d < 2 ^ 63

/-- The times of a note are durations of 64 bits. -/
def Durations (n : Note) : Prop := Duration64 n.start ∧ Duration64 n.end_ ∧ Duration64 n.duration

end Spec
