import Verif.Spec.Assembled
import Verif.Spec.Lines
import Verif.Props.AssembleText

/-!
The texts that crash the assembler and those that it never finishes, specified from the lines: what comes before has a meaning, and then there
is a line, or a track, with which the assembler cannot go on.
-/

namespace Spec
open Midiasm

/-- A line with an SMPTE offset of a known frame rate that is out of range: hour, minute, second or frame. -/
def CrashLine (line : Bytes) : Prop :=
  FirstOf keywords (fun k => Occurs k line) "SMPTEOffset" ∧
  ∃ (d sh sm ss sr sf sff : Bytes) (delta : UInt32) (h m s r f ff : UInt8), Finds (form "SMPTEOffset") line [d, sh, sm, ss, sr, sf, sff] ∧
    Numeral d delta.toNat ∧ Numeral sh h.toNat ∧ Numeral sm m.toNat ∧ Numeral ss s.toNat ∧ Numeral sr r.toNat ∧ Numeral sf f.toNat ∧
    Numeral sff ff.toNat ∧ r.toNat ∈ [24, 25, 29, 30] ∧ ff.toNat ≤ 100 ∧ (24 < h.toNat ∨ 59 < m.toNat ∨ 59 < s.toNat ∨ r.toNat ≤ f.toNat)

/-- A line with a time signature with a denominator above 128. -/
def HangLine (line : Bytes) : Prop :=
  FirstOf keywords (fun k => Occurs k line) "TimeSignature" ∧
  ∃ (d sn sd st sq : Bytes) (delta : UInt32) (n dd t q : UInt8), Finds (form "TimeSignature") line [d, sn, sd, st, sq] ∧
    Numeral d delta.toNat ∧ Numeral sn n.toNat ∧ Numeral sd dd.toNat ∧ Numeral st t.toNat ∧ Numeral sq q.toNat ∧ 128 < dd.toNat

/-- The lines of a track up to one of a kind say events. -/
def TrackStops (table : List (String × Lib.Manufacturer)) (P : Bytes → Prop) (ls : List Bytes) : Prop :=
  ∃ a l b es, ls = a ++ l :: b ∧ TrackHolds table a es ∧ ¬ Empty l ∧ P l

/-- The sections of a text up to a track of a kind stand for something; what is asked of the track depends on the header so far. -/
def TextStops (table : List (String × Lib.Manufacturer)) (P : Option Header → List Bytes → Prop) (text : Bytes) : Prop :=
  ShortLines text ∧ ∃ lines ss l t rest h ts, Lines text lines ∧ Chunked lines (ss ++ (l :: t) :: rest) ∧ Stands table ss h ts ∧
    ¬ Comment l ∧ ¬ str "MThd" <:+: l ∧ str "MTrk" <:+: l ∧ P h t

/-- A text that crashes the assembler: with a bad offset, a track without events, or a track without a header. -/
def TextCrashes (table : List (String × Lib.Manufacturer)) (text : Bytes) : Prop :=
  TextStops table (fun h t => TrackStops table CrashLine t ∨ TrackHolds table t [] ∨ (h = none ∧ ∃ es, TrackHolds table t es)) text

/-- A text that the assembler does not finish. -/
def TextHangs (table : List (String × Lib.Manufacturer)) (text : Bytes) : Prop :=
  TextStops table (fun _ t => TrackStops table HangLine t) text

end Spec
