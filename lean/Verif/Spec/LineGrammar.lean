import Verif.Spec.TextFile
import Verif.Spec.Text
import Verif.Spec.Keys
import Verif.Spec.Display

/-!
What an event line of the assembly language says, specified independently of regular expressions: the parts of a line from left to
right, and for each kind of event the values the parts stand for.
-/

namespace Spec
open Midiasm

/-- Parts of the form of a line. -/
inductive LinePart where
  /-- a word, in upper or lower case -/
  | word (w : String)
  /-- a value: digits, as many as there are -/
  | digits
  /-- a value: a digit other than 0, then digits up to `top`, as many as there are -/
  | positive (top : UInt8)
  /-- white space, as much as there is, at least one -/
  | blanks
  /-- white space, as much as there is, or none -/
  | blanks0
  /-- white space, as much as there is, that ends with a space -/
  | space
  /-- anything up to the first place where the other parts follow -/
  | skip
  /-- anything up to the last place where the other parts follow -/
  | skipLast
  /-- a value: anything up to the first place where the other parts follow -/
  | upTo
  /-- a value: the rest of the line -/
  | rest
  /-- a value: a letter from A to G with or without an accidental, and a digit -/
  | note
  /-- a value: a letter from A to G with or without an accidental -/
  | key
  /-- a value: `major` or `minor` -/
  | mode
  deriving DecidableEq

/-- The same letter in upper or lower case, or the same character. -/
def SameLetter (c b : UInt8) : Prop :=
  b = c ∨ (65 ≤ c.toNat ∧ c.toNat ≤ 90 ∧ b.toNat = c.toNat + 32) ∨ (65 ≤ b.toNat ∧ b.toNat ≤ 90 ∧ c.toNat = b.toNat + 32)

/-- The word in upper or lower case.  In Unicode the Kelvin sign is a `k`, and the long s is an `s`. -/
inductive Folded : Bytes → Bytes → Prop
  | nil : Folded [] []
  | letter (c b w x) : SameLetter c b → Folded w x → Folded (c :: w) (b :: x)
  | kelvin (c w x) : SameLetter c 107 → Folded w x → Folded (c :: w) (0xe2 :: 0x84 :: 0xaa :: x)
  | long (c w x) : SameLetter c 115 → Folded w x → Folded (c :: w) (0xc5 :: 0xbf :: x)

/-- The text does not begin with such a character. -/
def NoStart (P : UInt8 → Prop) (s : Bytes) : Prop := ∀ b t, s = b :: t → ¬ P b

/-- A digit up to `top`. -/
def DigitTo (top b : UInt8) : Prop := 48 ≤ b.toNat ∧ b.toNat ≤ top.toNat

/-- White space. -/
def Blank (b : UInt8) : Prop := b ∈ ([9, 10, 12, 13, 32] : Bytes)

/-- A letter from A to G, in upper or lower case. -/
def KeyLetter (b : UInt8) : Prop := (65 ≤ b.toNat ∧ b.toNat ≤ 71) ∨ (97 ≤ b.toNat ∧ b.toNat ≤ 103)

/-- A sharp, a flat or nothing. -/
def Accidental (a : Bytes) : Prop := a = [] ∨ a = str "♯" ∨ a = str "♭"

/-- The text begins with the parts; `gs` are the values, from left to right. -/
def Reads : List LinePart → Bytes → List Bytes → Prop
  | [], _, gs => gs = []
  | .word w :: ps, s, gs => ∃ x s', s = x ++ s' ∧ Folded (str w) x ∧ Reads ps s' gs
  | .digits :: ps, s, gs => ∃ x s' gs', s = x ++ s' ∧ gs = x :: gs' ∧ x ≠ [] ∧ (∀ b ∈ x, DigitTo 57 b) ∧ NoStart (DigitTo 57) s' ∧ Reads ps s' gs'
  | .positive top :: ps, s, gs => ∃ d x s' gs', s = d :: (x ++ s') ∧ gs = (d :: x) :: gs' ∧ (49 ≤ d.toNat ∧ d.toNat ≤ 57) ∧
      (∀ b ∈ x, DigitTo top b) ∧ NoStart (DigitTo top) s' ∧ Reads ps s' gs'
  | .blanks :: ps, s, gs => ∃ x s', s = x ++ s' ∧ x ≠ [] ∧ (∀ b ∈ x, Blank b) ∧ NoStart Blank s' ∧ Reads ps s' gs
  | .blanks0 :: ps, s, gs => ∃ x s', s = x ++ s' ∧ (∀ b ∈ x, Blank b) ∧ NoStart Blank s' ∧ Reads ps s' gs
  | .space :: ps, s, gs => ∃ x s', s = x ++ 32 :: s' ∧ (∀ b ∈ x, Blank b) ∧ NoStart Blank s' ∧ Reads ps s' gs
  | .skip :: ps, s, gs => ∃ x s', s = x ++ s' ∧ 10 ∉ x ∧ Reads ps s' gs ∧
      ∀ y t hs, s = y ++ t → Reads ps t hs → x.length ≤ y.length
  | .skipLast :: ps, s, gs => ∃ x s', s = x ++ s' ∧ 10 ∉ x ∧ Reads ps s' gs ∧
      ∀ y t hs, s = y ++ t → 10 ∉ y → Reads ps t hs → y.length ≤ x.length
  | .upTo :: ps, s, gs => ∃ x s' gs', s = x ++ s' ∧ gs = x :: gs' ∧ 10 ∉ x ∧ Reads ps s' gs' ∧
      ∀ y t hs, s = y ++ t → Reads ps t hs → x.length ≤ y.length
  | .rest :: ps, s, gs => ∃ x s' gs', s = x ++ s' ∧ gs = x :: gs' ∧ 10 ∉ x ∧ (s' = [] ∨ s'.head? = some 10) ∧ Reads ps s' gs'
  | .note :: ps, s, gs => ∃ l a d s' gs', s = (l :: (a ++ [d])) ++ s' ∧ gs = (l :: (a ++ [d])) :: gs' ∧ KeyLetter l ∧ Accidental a ∧ DigitTo 57 d ∧
      Reads ps s' gs'
  | .key :: ps, s, gs => ∃ l a s' gs', s = (l :: a) ++ s' ∧ gs = (l :: a) :: gs' ∧ KeyLetter l ∧ Accidental a ∧ Reads ps s' gs'
  | .mode :: ps, s, gs => ∃ x s' gs', s = x ++ s' ∧ gs = x :: gs' ∧ (Folded (str "major") x ∨ Folded (str "minor") x) ∧ Reads ps s' gs'

/-- The values of the first place of the line where the parts are. -/
def Finds (ps : List LinePart) (line : Bytes) (gs : List Bytes) : Prop := FirstAt (Reads ps) line gs

/-- What every line begins with: the delta time, and later on the name of the event. -/
def named (tag : String) : List LinePart := [.word "delta:", .digits, .skip, .word tag]

/-- The start of the lines of most MIDI events. -/
def channelled (tag : String) : List LinePart := named tag ++ [.blanks, .word "channel:", .digits, .blanks]

/-- The form of a line, by the name of the event. -/
def form : String → List LinePart
  | "SequenceNumber" => named "SequenceNumber" ++ [.blanks, .digits]
  | "MIDIChannelPrefix" => named "MIDIChannelPrefix" ++ [.blanks, .digits]
  | "MIDIPort" => named "MIDIPort" ++ [.blanks, .digits]
  | "EndOfTrack" => named "EndOfTrack"
  | "Tempo" => named "Tempo" ++ [.blanks, .word "tempo:", .digits]
  | "TimeSignature" => named "TimeSignature" ++ [.blanks, .digits, .word "/", .positive 57, .word ",", .space, .digits,
      .word " ticks per click,", .blanks0, .positive 56, .word "/32 per quarter"]
  | "KeySignature" => named "KeySignature" ++ [.blanks, .key, .blanks, .mode]
  | "SMPTEOffset" => named "SMPTEOffset" ++ [.blanks, .digits, .blanks, .digits, .blanks, .digits, .blanks, .digits, .blanks, .digits, .blanks, .digits]
  | "SequencerSpecificEvent" => named "SequencerSpecificEvent" ++ [.blanks, .upTo, .word ",", .rest]
  | "NoteOff" => channelled "NoteOff" ++ [.word "note:", .note, .word ",", .blanks0, .word "velocity:", .digits]
  | "NoteOn" => channelled "NoteOn" ++ [.word "note:", .note, .word ",", .blanks0, .word "velocity:", .digits]
  | "PolyphonicPressure" => channelled "PolyphonicPressure" ++ [.word "pressure:", .digits]
  | "Controller" => named "Controller" ++ [.skipLast, .blanks, .word "channel:", .digits, .blanks, .digits, .skipLast, .word "value:", .digits]
  | "ProgramChange" => channelled "ProgramChange" ++ [.word "bank:", .digits, .word ",", .blanks0, .word "program:", .digits]
  | "ChannelPressure" => channelled "ChannelPressure" ++ [.word "pressure:", .digits]
  | "PitchBend" => channelled "PitchBend" ++ [.word "bend:", .digits]
  | "SysExMessage" => named "SysExMessage" ++ [.blanks, .upTo, .word ",", .rest]
  | tag => named tag ++ [.blanks, .rest]

/-- The first entry of the table with the name. -/
def FirstNamed (table : List (String × Lib.Manufacturer)) (name : Bytes) (m : Lib.Manufacturer) : Prop :=
  ∃ l k r, table = l ++ (k, m) :: r ∧ str m.name = name ∧ ∀ e ∈ l, str e.2.name ≠ name

/-- The note of a name.  Values wrap around at 256. -/
def NoteNamed (s : Bytes) (n : NoteVal) : Prop :=
  ∃ (pitch : String) (v : Int) (octave : Nat), pitchClass pitch = some v ∧ octave ≤ 9 ∧ s = str (pitch ++ toString octave) ∧
    (n.value.toNat : Int) = (12 * ((octave : Int) + 1) + v) % 256 ∧ n.name = pitch ++ toString octave ∧ n.alias = n.name

/-- The key of a name: any other name is C major. -/
def KeyNamed (s : Bytes) (accidentals : Int) (minor : Bool) : Prop :=
  (-7 ≤ accidentals ∧ accidentals ≤ 7 ∧ List.Forall₂ SameLetter (str (keyName accidentals minor)) s) ∨
  (accidentals = 0 ∧ minor = false ∧ ∀ (a : Int) (m : Bool), -7 ≤ a → a ≤ 7 → ¬ List.Forall₂ SameLetter (str (keyName a m)) s)

/-- What the line says: the delta time and the event. -/
def LineSays (table : List (String × Lib.Manufacturer)) (line : Bytes) (delta : UInt32) (b : Body) : Prop :=
  ∃ d gs, Finds (form b.tag) line (d :: gs) ∧ Numeral d delta.toNat ∧
    match b with
    | .sequenceNumber n => ∃ s, gs = [s] ∧ Numeral s n.toNat
    | .text _ t => gs = [t]
    | .midiChannelPrefix ch => ∃ s, gs = [s] ∧ Numeral s ch.toNat ∧ ch.toNat ≤ 15
    | .midiPort p => ∃ s, gs = [s] ∧ Numeral s p.toNat ∧ p.toNat ≤ 127
    | .endOfTrack => gs = []
    | .tempo t => ∃ s, gs = [s] ∧ Numeral s t.toNat
    | .smpteOffset h m s r f ff => ∃ sh sm ss sr sf sff, gs = [sh, sm, ss, sr, sf, sff] ∧ Numeral sh h.toNat ∧ Numeral sm m.toNat ∧ Numeral ss s.toNat ∧
        Numeral sr r.toNat ∧ Numeral sf f.toNat ∧ Numeral sff ff.toNat ∧ h.toNat ≤ 24 ∧ m.toNat ≤ 59 ∧ s.toNat ≤ 59 ∧
        r.toNat ∈ [24, 25, 29, 30] ∧ f.toNat < r.toNat ∧ ff.toNat ≤ 100
    | .timeSignature n dd t q => ∃ sn sd st sq, gs = [sn, sd, st, sq] ∧ Numeral sn n.toNat ∧ Numeral sd dd.toNat ∧ Numeral st t.toNat ∧
        Numeral sq q.toNat ∧ dd.toNat ≤ 128
    | .keySignature a k name => ∃ key mode, gs = [key, mode] ∧ KeyNamed (key ++ 32 :: mode) a.toInt (k == 1) ∧ k.toNat ≤ 1 ∧ name = keyName a.toInt (k == 1)
    | .sequencerSpecific m data => ∃ name s, gs = [name, s] ∧ FirstNamed table name m ∧ HexText s data
    | .noteOff ch n v => ∃ sc sn sv, gs = [sc, sn, sv] ∧ Numeral sc ch.toNat ∧ ch.toNat ≤ 15 ∧ NoteNamed sn n ∧ Numeral sv v.toNat ∧ v.toNat ≤ 127
    | .noteOn ch n v => ∃ sc sn sv, gs = [sc, sn, sv] ∧ Numeral sc ch.toNat ∧ ch.toNat ≤ 15 ∧ NoteNamed sn n ∧ Numeral sv v.toNat ∧ v.toNat ≤ 127
    | .polyphonicPressure ch p => ∃ sc sp, gs = [sc, sp] ∧ Numeral sc ch.toNat ∧ ch.toNat ≤ 15 ∧ Numeral sp p.toNat ∧ p.toNat ≤ 127
    | .controller ch c v => ∃ sc sn sv, gs = [sc, sn, sv] ∧ Numeral sc ch.toNat ∧ ch.toNat ≤ 15 ∧ Numeral sn c.id.toNat ∧ c = Lib.lookupController c.id ∧
        Numeral sv v.toNat
    | .programChange ch bank p => ∃ sc sb sp, gs = [sc, sb, sp] ∧ Numeral sc ch.toNat ∧ ch.toNat ≤ 15 ∧ Numeral sb bank.toNat ∧ Numeral sp p.toNat
    | .channelPressure ch p => ∃ sc sp, gs = [sc, sp] ∧ Numeral sc ch.toNat ∧ ch.toNat ≤ 15 ∧ Numeral sp p.toNat ∧ p.toNat ≤ 127
    | .pitchBend ch v => ∃ sc sv, gs = [sc, sv] ∧ Numeral sc ch.toNat ∧ ch.toNat ≤ 15 ∧ Numeral sv v.toNat
    | .sysExMessage m data single => ∃ name s, gs = [name, s] ∧ FirstNamed table name m ∧ HexText s data ∧ single = false
    | .sysExContinuation data last => ∃ s, gs = [s] ∧ HexText s data ∧ last = false
    | .sysExEscape data => ∃ s, gs = [s] ∧ HexText s data

end Spec
