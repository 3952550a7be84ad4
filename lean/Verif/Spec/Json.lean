import Verif.Spec.Lines
import Verif.Model.Json

/-!
JSON documents that make the JSON assembler panic or loop, specified independently of the code that reads them.
-/

namespace Spec
open Midiasm

/-- The letter in lower case; the long s and the Kelvin sign count as s and k. -/
def lowerCase (c : Nat) : Nat := if 65 ≤ c ∧ c ≤ 90 then c + 32 else if c = 0x17f then 115 else if c = 0x212a then 107 else c

/-- The same name regardless of case. -/
def SameName (name : String) (key : List Nat) : Prop := key.map lowerCase = name.toList.map fun c => lowerCase c.val.toNat

/-- The object has a member of that name. -/
def Member (name : String) (j v : Json) : Prop := ∃ ms key, j = .obj ms ∧ (key, v) ∈ ms ∧ SameName name key

/-- The last of the members of that name that do not count as missing. -/
def Latest (missing : Json → Prop) (name : String) (j v : Json) : Prop :=
  ∃ a key b, j = .obj (a ++ (key, v) :: b) ∧ SameName name key ∧ ¬ missing v ∧ ∀ m ∈ b, SameName name m.1 → missing m.2

/-- The last of the members of that name. -/
def Last (name : String) (j v : Json) : Prop := Latest (fun _ => False) name j v

/-- The last of the members of that name that are not `null`. -/
def Value (name : String) (j v : Json) : Prop := Latest (· = .null) name j v

/-- A numeric member; zero if there is none. -/
def Amount (name : String) (j : Json) (n : Nat) : Prop :=
  (∃ lit, Value name j (.num lit) ∧ Numeral lit n) ∨ n = 0 ∧ ∀ v, Member name j v → v = .null

/-- The same for a number with a sign. -/
def SignedAmount (name : String) (j : Json) (n : Int) : Prop :=
  (∃ lit k, Value name j (.num lit) ∧ (Numeral lit k ∧ n = k ∨ ∃ ds, lit = 45 :: ds ∧ Numeral ds k ∧ n = -k)) ∨
    n = 0 ∧ ∀ v, Member name j v → v = .null

/-- The object has a member `tag` with that text. -/
def Tagged (tag : String) (j : Json) : Prop := ∃ s, Value "tag" j (.str s) ∧ ofRunes s = str tag

/-- An event that makes the assembler loop: a time signature with a denominator above 128. -/
def Endless (ev : Json) : Prop := Tagged "TimeSignature" ev ∧ ∃ d, Amount "denominator" ev d ∧ 128 < d ∧ d < 256

/-- An event that makes the assembler panic: an SMPTE offset out of range, a key signature that does not exist, a note with a velocity above 127, a
pressure above 127. -/
def Fatal (ev : Json) : Prop :=
  (Tagged "SMPTEOffset" ev ∧ ∃ h m s r f ff, Amount "hour" ev h ∧ Amount "minute" ev m ∧ Amount "second" ev s ∧ Amount "frame-rate" ev r ∧
    Amount "frames" ev f ∧ Amount "fractional-frames" ev ff ∧
    (24 < h ∨ 59 < m ∨ 59 < s ∨ (r ≠ 24 ∧ r ≠ 25 ∧ r ≠ 29 ∧ r ≠ 30) ∨ r ≤ f ∨ 100 < ff)) ∨
  (Tagged "KeySignature" ev ∧ ∃ a k, SignedAmount "accidentals" ev a ∧ Amount "key-type" ev k ∧ (a < -7 ∨ 7 < a ∨ 1 < k)) ∨
  (Tagged "NoteOn" ev ∧ ∃ v, Amount "velocity" ev v ∧ 127 < v) ∨
  (Tagged "PolyphonicPressure" ev ∧ ∃ v, Amount "pressure" ev v ∧ 127 < v) ∨
  (Tagged "ChannelPressure" ev ∧ ∃ v, Amount "pressure" ev v ∧ 127 < v)

instance (name : String) (key : List Nat) : Decidable (SameName name key) := by
  unfold SameName
  infer_instance

/-- The members of an object. -/
def membersOf : Json → List (List Nat × Json)
  | .obj ms => ms
  | _ => []

/-- The values of the members of that name, in order. -/
def valuesOf (name : String) (j : Json) : List Json := ((membersOf j).filter fun m => SameName name m.1).map Prod.snd

/-- The elements of an array. -/
def elementsOf : Json → List Json
  | .arr l => l
  | _ => []

/-- The arrays at the end of the list, after the last value that is not an array with elements. -/
def lastArrays (vs : List Json) : List (List Json) := ((vs.map elementsOf).reverse.takeWhile fun l => !l.isEmpty).reverse

/-- For each place of the last array, what the arrays have at that place. -/
def stacked (as : List (List Json)) : List (List Json) := (List.range (as.getLastD []).length).map fun i => as.filterMap fun l => l[i]?

/-- The tracks of a document: the elements of `tracks`.  If there are several members `tracks`, the members of the elements at the same
place are taken together. -/
def tracksOf (j : Json) : List Json := (stacked (lastArrays (valuesOf "tracks" j))).map fun vs => .obj (vs.map membersOf).flatten

/-- A track of a document. -/
def TrackIn (j track : Json) : Prop := track ∈ tracksOf j

/-- The events of a track: the members `event` of the elements of `events`. -/
def EventIn (track ev : Json) : Prop := ∃ es w, Last "events" track (.arr es) ∧ w ∈ es ∧ Last "event" w ev

/-- A track without events. -/
def Eventless (track : Json) : Prop := (∀ v, ¬ Member "events" track v) ∨ Last "events" track .null ∨ Last "events" track (.arr [])

/-- The header of a document: all the members of its members `header`. -/
def headerOf (j : Json) : Json := .obj ((((membersOf j).filter fun m => SameName "header" m.1).map fun m => membersOf m.2).flatten)

/-- The last member of that name is that text. -/
def LastText (name text : String) (j : Json) : Prop := ∃ s, Last name j (.str s) ∧ ofRunes s = str text

/-- The last member of that name is that number. -/
def LastNumber (name : String) (n : Nat) (j : Json) : Prop := ∃ lit, Last name j (.num lit) ∧ Numeral lit n

/-- All the members of that name are numbers of 16 bits or `null`. -/
def Numbers16 (name : String) (j : Json) : Prop := ∀ v, Member name j v → v = .null ∨ ∃ lit n, v = .num lit ∧ Numeral lit n ∧ n < 65536

end Spec
