import Verif.Spec.Lines
import Verif.Spec.File
import Verif.Model.EventText
import Verif.Model.Fixups

/-!
What a text means to the assembler, specified independently of the way it is read: lines, sections, the header line and the tracks.
-/

namespace Spec
open Midiasm

/-- The first place of the line where something is found. -/
def FirstAt {α : Type} (P : Bytes → α → Prop) (line : Bytes) (x : α) : Prop :=
  ∃ pre s, line = pre ++ s ∧ P s x ∧ ∀ pre' s' x', line = pre' ++ s' → P s' x' → pre.length ≤ pre'.length

/-- A format: `format:` and one of the digits 0, 1 and 2. -/
def FormatAt (s : Bytes) (f : Nat) : Prop := f ≤ 2 ∧ str "format:" ++ [UInt8.ofNat (48 + f)] <+: s

/-- A division: `metrical time:`, `metrical-time:` or `metricaltime:`, digits, white space or none, and `ppqn`. -/
def DivisionAt (s ds : Bytes) : Prop :=
  ∃ sep sp : Bytes, (sep = [] ∨ sep = [32] ∨ sep = [45]) ∧ ds ≠ [] ∧ (∀ d ∈ ds, 48 ≤ d.toNat ∧ d.toNat ≤ 57) ∧
    (∀ c ∈ sp, c ∈ ([9, 10, 12, 13, 32] : Bytes)) ∧ str "metrical" ++ (sep ++ (str "time:" ++ (ds ++ (sp ++ str "ppqn")))) <+: s

/-- The line states the format and the division of a header. -/
def HeaderLine (line : Bytes) (f d : Nat) : Prop :=
  FirstAt FormatAt line f ∧ (∃ ds, FirstAt DivisionAt line ds ∧ Numeral ds d) ∧ (Header.mk f 0 d).Valid

/-- The events of the lines of a track: one for each line that is neither blank nor a comment. -/
inductive Says (table : List (String × Lib.Manufacturer)) : List Bytes → List Event → Prop
  | nil : Says table [] []
  | skip (l ls es) : Empty l → Says table ls es → Says table (l :: ls) es
  | event (l ls e es) : ¬ Empty l → readEvent table l = .ok e → Says table ls es → Says table (l :: ls) (e :: es)

/-- What the sections of a text mean, from the first to the last: the header so far, with the number of tracks counted since it was
read (modulo 2¹⁶), and the events of all tracks.  Terminators of SysEx packets are restored (C73). -/
inductive Means (table : List (String × Lib.Manufacturer)) : List (List Bytes) → Option Header → List (List Event) → Prop
  /-- nothing -/
  | nil : Means table [] none []
  /-- a section that begins with a comment does not count -/
  | comment (ss h ts l t) : Means table ss h ts → Comment l → Means table (ss ++ [l :: t]) h ts
  /-- a header: the lines after the first one do not count -/
  | header (ss h ts l t f d) : Means table ss h ts → ¬ Comment l → str "MThd" <:+: l → HeaderLine l f d →
      Means table (ss ++ [l :: t]) (some ⟨f, 0, d⟩) ts
  /-- a track -/
  | track (ss h ts l t es es') : Means table ss (some h) ts → ¬ Comment l → ¬ str "MThd" <:+: l → str "MTrk" <:+: l →
      Says table t es → fixups es = .ok es' →
      Means table (ss ++ [l :: t]) (some ⟨h.format, (h.tracks + 1) % 65536, h.division⟩) (ts ++ [es'])

end Spec
