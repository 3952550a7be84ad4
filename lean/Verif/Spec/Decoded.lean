import Verif.Spec.File
import Verif.Spec.View
import Verif.Spec.Keys
import Verif.Spec.Display

/-!
The file that a sequence of bytes stands for: the header, and for every event its time, its bytes, its field values and the names shown with
it.
-/

namespace Spec
open Midiasm

/-- An event of a file. -/
structure Entry where
  tick : Nat
  delta : Nat
  bytes : List UInt8
  content : Content
  /-- the two names of a note, the name of a key, of a controller, the region and name of a manufacturer -/
  names : List String
  /-- the bank of a program change -/
  bank : Option Nat
  deriving DecidableEq

/-- A track of a file. -/
structure TrackEntry where
  number : Nat
  tag : List UInt8
  length : Nat
  bytes : List UInt8
  events : List Entry
  deriving DecidableEq

/-- The name of a note; the octave of the notes 0 to 11 is `-offset`. -/
def noteName (offset : Int) (flats : Bool) (n : Nat) : String :=
  (if flats then ["C", "D♭", "D", "E♭", "E", "F", "G♭", "G", "A♭", "A", "B♭", "B"]
    else ["C", "C♯", "D", "D♯", "E", "F", "F♯", "G", "G♯", "A", "A♯", "B"]).getD (n % 12) "" ++ toString ((n / 12 : Nat) - offset : Int)

/-- Notes are spelled with flats after a key signature with flats. -/
def flatsAfter (past : List Content) : Bool :=
  match recentKey past with
  | some a => decide (a < 0)
  | none => false

/-- The name that the most recent note on for a note has. -/
def soundingName (offset : Int) (ch n : Nat) : List Content → Option String
  | [] => none
  | .noteOn ch' n' _ :: past => if ch' = ch ∧ n' = n then some (noteName offset (flatsAfter past) n) else soundingName offset ch n past
  | _ :: past => soundingName offset ch n past

/-- The two hexadecimal digits of a byte. -/
def hexText (b : UInt8) : String :=
  String.ofList ["0123456789ABCDEF".toList.getD (b.toNat / 16) '0', "0123456789ABCDEF".toList.getD (b.toNat % 16) '0']

/-- The region and the name of a manufacturer. -/
def makerNames (id : List UInt8) : List String :=
  match Lib.manufacturers.find? (fun e => e.1 == match id with | [a] => hexText a | [_, b, c] => hexText b ++ hexText c | _ => "") with
  | some e => [e.2.region, e.2.name]
  | none => ["<unknown>", "<unknown>"]

/-- The names shown with an event after others (newest first). -/
def namesOf (offset : Int) (past : List Content) : Content → List String
  | .noteOn _ n _ => [noteName offset (flatsAfter past) n, noteName offset (flatsAfter past) n]
  | .noteOff ch n _ =>
    [(soundingName offset ch n past).getD (noteName offset (flatsAfter past) n), noteName offset (flatsAfter past) n]
  | .keySignature a minor => [keyName a (minor == 1)]
  | .controller _ id _ => [((Lib.controllers.find? (fun e => e.1.toNat == id)).map (·.2.name)).getD "<unknown>"]
  | .sequencerSpecific id _ => makerNames id
  | .sysex id _ _ => makerNames id
  | _ => []

/-- The bank of a program change: six bits of the most recent Bank Select values. -/
def bankOf (past : List Content) : Content → Option Nat
  | .program ch _ => some (128 * ((recentController ch 0 past).getD 0 % 64) + (recentController ch 32 past).getD 0 % 64)
  | _ => none

/-- The events of a track: `past` are the events before (newest first), `elapsed` is the sum of their delta times, of which 32 bits are kept. -/
def entries (offset : Int) : List Content → Nat → List (Item × Content) → List Entry
  | _, _, [] => []
  | past, elapsed, (i, c) :: rest =>
    ⟨elapsed % 2 ^ 32 + i.delta.toNat, i.delta.toNat, i.bytes, asShown c, namesOf offset past c, bankOf past c⟩ ::
      entries offset (asShown c :: past) (elapsed + i.delta.toNat) rest

/-- A track chunk stands for a track: the events up to the end, or up to one that is cut off. -/
def ChunkSays (offset : Int) (i : Nat) (c : Chunk) (t : TrackEntry) : Prop :=
  ∃ items tail rs' cs, c.body = trackBytes items ++ tail ∧ FramedTrack 1 none items rs' ∧ Truncated 1 rs' tail ∧
    meanings false (items.map Item.raw) = some cs ∧ t = ⟨i, tagMTrk, c.body.length, c.bytes, entries offset [] 0 (items.zip cs)⟩

/-- The bytes stand for a file: a valid header, then chunks, of which those with the tag MTrk are the tracks, as many as the header says.  At the
end there may be the head of a chunk without any of its body. -/
def FileSays (offset : Int) (bytes : List UInt8) (h : Header) (ts : List TrackEntry) : Prop :=
  ∃ cs tail, bytes = fileBytes (h.chunk :: cs) ++ tail ∧ h.Valid ∧ (∀ c ∈ cs, c.Wf) ∧ EndTail tail ∧
    ts.length = h.tracks ∧ (cs.filter fun c => c.tag == tagMTrk).length = h.tracks ∧
    ∀ i c t, (cs.filter fun c => c.tag == tagMTrk)[i]? = some c → ts[i]? = some t → ChunkSays offset i c t

end Spec
