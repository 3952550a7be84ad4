import Verif.Model.Go

/-!
Notes, scales and key transposition (midi/lib/note.go, midi/lib/scales.go).
-/

namespace Midiasm.Lib

/-- `lib.Note` (midi/lib/note.go:7-10).  `Ord` is a Go `int`. -/
structure Note where
  ord : Int
  name : String
  deriving DecidableEq, Repr

-- midi/lib/note.go:50-153
/-- midi/lib/note.go:50-53 -/
def C : Note := ⟨0, "C"⟩
/-- midi/lib/note.go:55-58 -/
def C_SHARP : Note := ⟨1, "C♯"⟩
/-- midi/lib/note.go:60-63 -/
def D_FLAT : Note := ⟨1, "D♭"⟩
/-- midi/lib/note.go:65-68 -/
def D : Note := ⟨2, "D"⟩
/-- midi/lib/note.go:70-73 -/
def D_SHARP : Note := ⟨3, "D♯"⟩
/-- midi/lib/note.go:75-78 -/
def E_FLAT : Note := ⟨3, "E♭"⟩
/-- midi/lib/note.go:80-83 -/
def E : Note := ⟨4, "E"⟩
/-- midi/lib/note.go:85-88 -/
def E_SHARP : Note := ⟨5, "E♯"⟩
/-- midi/lib/note.go:90-93 -/
def F_FLAT : Note := ⟨4, "F♭"⟩
/-- midi/lib/note.go:95-98 -/
def F : Note := ⟨5, "F"⟩
/-- midi/lib/note.go:100-103 -/
def F_SHARP : Note := ⟨6, "F♯"⟩
/-- midi/lib/note.go:105-108 -/
def G_FLAT : Note := ⟨6, "G♭"⟩
/-- midi/lib/note.go:110-113 -/
def G : Note := ⟨7, "G"⟩
/-- midi/lib/note.go:115-118 -/
def G_SHARP : Note := ⟨8, "G♯"⟩
/-- midi/lib/note.go:120-123 -/
def A_FLAT : Note := ⟨8, "A♭"⟩
/-- midi/lib/note.go:125-128 -/
def A : Note := ⟨9, "A"⟩
/-- midi/lib/note.go:130-133 -/
def A_SHARP : Note := ⟨10, "A♯"⟩
/-- midi/lib/note.go:135-138 -/
def B_FLAT : Note := ⟨10, "B♭"⟩
/-- midi/lib/note.go:140-143 -/
def B : Note := ⟨11, "B"⟩
/-- midi/lib/note.go:145-148 -/
def B_SHARP : Note := ⟨0, "B♯"⟩
/-- midi/lib/note.go:150-153 -/
def C_FLAT : Note := ⟨11, "C♭"⟩

/-- `Notes` (midi/lib/note.go:26-48). -/
def Notes : List Note := [C, C_SHARP, D_FLAT, D, D_SHARP, E_FLAT, E, E_SHARP, F_FLAT, F, F_SHARP, G_FLAT, G, G_SHARP, A_FLAT, A, A_SHARP, B_FLAT, B, B_SHARP, C_FLAT]

/-- `LookupNote` (midi/lib/note.go:16-24). -/
def lookupNote (s : String) : Outcome Note :=
  match Notes.find? (fun n => n.name == s) with
  | some n => .ok n
  | none => .err .other

/-- `ScaleID` (midi/lib/scales.go:7-41): the iota constants, in order. -/
inductive ScaleID where
  | cMajor
  | gMajor
  | dMajor
  | aMajor
  | eMajor
  | bMajor
  | fSharpMajor
  | cSharpMajor
  | fMajor
  | bFlatMajor
  | eFlatMajor
  | aFlatMajor
  | dFlatMajor
  | gFlatMajor
  | cFlatMajor
  | aMinor
  | eMinor
  | bMinor
  | aSharpMinor
  | dSharpMinor
  | gSharpMinor
  | cSharpMinor
  | fSharpMinor
  | dMinor
  | gMinor
  | cMinor
  | fMinor
  | bFlatMinor
  | eFlatMinor
  | aFlatMinor
  deriving DecidableEq, Repr

/-- `Scale` (midi/lib/scales.go:43-49).  `Accidentals` is a Go `int8`, `Type` a `KeyType` (uint8, scales.go:51-56). -/
structure Scale where
  id : ScaleID
  name : String
  accidentals : Int8
  keyType : UInt8
  notes : List Note
  deriving DecidableEq, Repr

/-- `Major` (midi/lib/scales.go:54). -/
def Major : UInt8 := 0
/-- `Minor` (midi/lib/scales.go:55). -/
def Minor : UInt8 := 1

/-- midi/lib/scales.go:198-204 -/
def C_MAJOR : Scale := ⟨.cMajor, "C major", 0, Major, [C, D, E, F, G, A, B]⟩
/-- midi/lib/scales.go:206-212 -/
def G_MAJOR : Scale := ⟨.gMajor, "G major", 1, Major, [G, A, B, C, D, E, F_SHARP]⟩
/-- midi/lib/scales.go:214-220 -/
def D_MAJOR : Scale := ⟨.dMajor, "D major", 2, Major, [D, E, F_SHARP, G, A, B, C_SHARP]⟩
/-- midi/lib/scales.go:222-228 -/
def A_MAJOR : Scale := ⟨.aMajor, "A major", 3, Major, [A, B, C_SHARP, D, E, F_SHARP, G_SHARP]⟩
/-- midi/lib/scales.go:230-236 -/
def E_MAJOR : Scale := ⟨.eMajor, "E major", 4, Major, [E, F_SHARP, G_SHARP, A, B, C_SHARP, D_SHARP]⟩
/-- midi/lib/scales.go:239-245 -/
def B_MAJOR : Scale := ⟨.bMajor, "B major", 5, Major, [B, C_SHARP, D_SHARP, E, F_SHARP, G_SHARP, A_SHARP]⟩
/-- midi/lib/scales.go:248-254 -/
def F_SHARP_MAJOR : Scale := ⟨.fSharpMajor, "F♯ major", 6, Major, [F_SHARP, G_SHARP, A_SHARP, B, C_SHARP, D_SHARP, E_SHARP]⟩
/-- midi/lib/scales.go:257-263 -/
def C_SHARP_MAJOR : Scale := ⟨.cSharpMajor, "C♯ major", 7, Major, [C_SHARP, D_SHARP, E_SHARP, F_SHARP, G_SHARP, A_SHARP, B_SHARP]⟩
/-- midi/lib/scales.go:265-271 -/
def F_MAJOR : Scale := ⟨.fMajor, "F major", -1, Major, [F, G, A, B_FLAT, C, D, E]⟩
/-- midi/lib/scales.go:273-279 -/
def B_FLAT_MAJOR : Scale := ⟨.bFlatMajor, "B♭ major", -2, Major, [B_FLAT, C, D, E_FLAT, F, G, A]⟩
/-- midi/lib/scales.go:281-287 -/
def E_FLAT_MAJOR : Scale := ⟨.eFlatMajor, "E♭ major", -3, Major, [E_FLAT, F, G, A_FLAT, B_FLAT, C, D]⟩
/-- midi/lib/scales.go:289-295 -/
def A_FLAT_MAJOR : Scale := ⟨.aFlatMajor, "A♭ major", -4, Major, [A_FLAT, B_FLAT, C, D_FLAT, E_FLAT, F, G]⟩
/-- midi/lib/scales.go:298-304 -/
def D_FLAT_MAJOR : Scale := ⟨.dFlatMajor, "D♭ major", -5, Major, [D_FLAT, E_FLAT, F, G_FLAT, A_FLAT, B_FLAT, C]⟩
/-- midi/lib/scales.go:307-313 -/
def G_FLAT_MAJOR : Scale := ⟨.gFlatMajor, "G♭ major", -6, Major, [G_FLAT, A_FLAT, B_FLAT, C_FLAT, D_FLAT, E_FLAT, F]⟩
/-- midi/lib/scales.go:316-322 -/
def C_FLAT_MAJOR : Scale := ⟨.cFlatMajor, "C♭ major", -7, Major, [C_FLAT, D_FLAT, E_FLAT, F_FLAT, G_FLAT, A_FLAT, B_FLAT]⟩
/-- midi/lib/scales.go:326-332 -/
def A_MINOR : Scale := ⟨.aMinor, "A minor", 0, Minor, [A, B, C, D, E, F, G]⟩
/-- midi/lib/scales.go:334-340 -/
def E_MINOR : Scale := ⟨.eMinor, "E minor", 1, Minor, [E, F_SHARP, G, A, B, C, D]⟩
/-- midi/lib/scales.go:342-348 -/
def B_MINOR : Scale := ⟨.bMinor, "B minor", 2, Minor, [B, C_SHARP, D, E, F_SHARP, G, A]⟩
/-- midi/lib/scales.go:350-356 -/
def F_SHARP_MINOR : Scale := ⟨.fSharpMinor, "F♯ minor", 3, Minor, [F_SHARP, G_SHARP, A, B, C_SHARP, D, E]⟩
/-- midi/lib/scales.go:358-364 -/
def C_SHARP_MINOR : Scale := ⟨.cSharpMinor, "C♯ minor", 4, Minor, [C_SHARP, D_SHARP, E, F_SHARP, G_SHARP, A, B]⟩
/-- midi/lib/scales.go:366-372 -/
def G_SHARP_MINOR : Scale := ⟨.gSharpMinor, "G♯ minor", 5, Minor, [G_SHARP, A_SHARP, B, C_SHARP, D_SHARP, E, F_SHARP]⟩
/-- midi/lib/scales.go:375-381 -/
def D_SHARP_MINOR : Scale := ⟨.dSharpMinor, "D♯ minor", 6, Minor, [D_SHARP, E_SHARP, F_SHARP, G_SHARP, A_SHARP, B, C_SHARP]⟩
/-- midi/lib/scales.go:384-390 -/
def A_SHARP_MINOR : Scale := ⟨.aSharpMinor, "A♯ minor", 7, Minor, [A_SHARP, B_SHARP, C_SHARP, D_SHARP, E_SHARP, F_SHARP, G_SHARP]⟩
/-- midi/lib/scales.go:392-398 -/
def D_MINOR : Scale := ⟨.dMinor, "D minor", -1, Minor, [D, E, F, G, A, B_FLAT, C]⟩
/-- midi/lib/scales.go:400-406 -/
def G_MINOR : Scale := ⟨.gMinor, "G minor", -2, Minor, [G, A, B_FLAT, C, D, E_FLAT, F]⟩
/-- midi/lib/scales.go:408-414 -/
def C_MINOR : Scale := ⟨.cMinor, "C minor", -3, Minor, [C, D, E_FLAT, F, G, A_FLAT, B_FLAT]⟩
/-- midi/lib/scales.go:416-422 -/
def F_MINOR : Scale := ⟨.fMinor, "F minor", -4, Minor, [F, G, A_FLAT, B_FLAT, C, D_FLAT, E_FLAT]⟩
/-- midi/lib/scales.go:425-431 -/
def B_FLAT_MINOR : Scale := ⟨.bFlatMinor, "B♭ minor", -5, Minor, [B_FLAT, C, D_FLAT, E_FLAT, F, G_FLAT, A_FLAT]⟩
/-- midi/lib/scales.go:434-440 -/
def E_FLAT_MINOR : Scale := ⟨.eFlatMinor, "E♭ minor", -6, Minor, [E_FLAT, F, G_FLAT, A_FLAT, B_FLAT, C_FLAT, D_FLAT]⟩
/-- midi/lib/scales.go:443-449 -/
def A_FLAT_MINOR : Scale := ⟨.aFlatMinor, "A♭ minor", -7, Minor, [A_FLAT, B_FLAT, C_FLAT, D_FLAT, E_FLAT, F_FLAT, G_FLAT]⟩

/-- `MAJOR_SCALES` (midi/lib/scales.go:159-175). -/
def MAJOR_SCALES : List Scale := [C_MAJOR, G_MAJOR, D_MAJOR, A_MAJOR, E_MAJOR, B_MAJOR, F_SHARP_MAJOR, C_SHARP_MAJOR, F_MAJOR, B_FLAT_MAJOR, E_FLAT_MAJOR, A_FLAT_MAJOR, D_FLAT_MAJOR, G_FLAT_MAJOR, C_FLAT_MAJOR]

/-- `MINOR_SCALES` (midi/lib/scales.go:177-194). -/
def MINOR_SCALES : List Scale := [A_MINOR, E_MINOR, B_MINOR, A_SHARP_MINOR, D_SHARP_MINOR, G_SHARP_MINOR, C_SHARP_MINOR, F_SHARP_MINOR, D_MINOR, G_MINOR, C_MINOR, F_MINOR, B_FLAT_MINOR, E_FLAT_MINOR, A_FLAT_MINOR]

/-- `SCALE` (midi/lib/scales.go:135-137). -/
def SCALE : List Note := [C, C_SHARP, D, D_SHARP, E, F, F_SHARP, G, G_SHARP, A, A_SHARP, B]

/-- `MajorScale` (midi/lib/scales.go:139-147): `none` for the `ok == false` result. -/
def majorScale (accidentals : Int8) : Option Scale :=
  MAJOR_SCALES.find? (fun s => s.accidentals == accidentals)

/-- `MinorScale` (midi/lib/scales.go:149-157). -/
def minorScale (accidentals : Int8) : Option Scale :=
  MINOR_SCALES.find? (fun s => s.accidentals == accidentals)

/-- The index arithmetic of `transpose` (midi/lib/scales.go:121-126): `ix += steps`, add 12 while negative,
then `% 12`.  On a negative number the loop `for ix < 0 { ix += 12 }` stops at the least non-negative value of
the same residue, which is the Euclidean remainder; on a non-negative number Go's `%` is the Euclidean remainder.
The sum `ix + steps` wraps around in 64 bits.  (The loop makes one iteration per octave; its running time is not modelled.) -/
def transposeIndex (ix : Nat) (steps : Int) : Nat := (wrap64 ((ix : Int) + steps) % 12).toNat

/-- `transpose(note, steps)` (midi/lib/scales.go:118-133): panics for a note whose `Ord` is not in `SCALE`. -/
def transposeNote (note : Note) (steps : Int) : Outcome Note :=
  match SCALE.findIdx? (fun n => n.ord == note.ord) with
  | none => .panic
  | some ix =>
    match SCALE[transposeIndex ix steps]? with
    | some n => .ok n
    | none => .panic

/-- The loop of scales.go:64-66. -/
def transposeNotes (steps : Int) : List Note → Outcome (List Note)
  | [] => .ok []
  | n :: ns => do
    let n' ← transposeNote n steps
    let ns' ← transposeNotes steps ns
    .ok (n' :: ns')

/-- The inner loop of scales.go:81-89: every transposed note has the `Ord` of the candidate's note at the same position. -/
def sameOrds : List Note → List Note → Bool
  | [], _ => true
  | _ :: _, [] => false
  | n :: ns, m :: ms => n.ord == m.ord && sameOrds ns ms

/-- The enharmonic substitution (midi/lib/scales.go:92-112). -/
def enharmonic (scale : Scale) : Scale :=
  if scale.id = C_SHARP_MAJOR.id then D_FLAT_MAJOR
  else if scale.id = G_FLAT_MAJOR.id then F_SHARP_MAJOR
  else if scale.id = C_FLAT_MAJOR.id then B_MAJOR
  else if scale.id = A_FLAT_MINOR.id then G_SHARP_MINOR
  else if scale.id = E_FLAT_MINOR.id then D_SHARP_MINOR
  else if scale.id = A_SHARP_MINOR.id then B_FLAT_MINOR
  else scale

/-- `Scale.Transpose` (midi/lib/scales.go:62-116). -/
def Scale.transpose (s : Scale) (steps : Int) : Outcome Scale := do
  let notes ← transposeNotes steps s.notes
  let scales := if s.keyType = Major then some MAJOR_SCALES else if s.keyType = Minor then some MINOR_SCALES else none
  match scales with
  | none => .ok s
  | some scales =>
    match scales.find? (fun c => sameOrds notes c.notes) with
    | some c => .ok (enharmonic c)
    | none => .ok s

end Midiasm.Lib
