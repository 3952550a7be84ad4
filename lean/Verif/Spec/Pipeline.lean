import Verif.Model.Go
import Mathlib.Data.List.Infix

/-!
Splitting a text into chunks, specified independently of the goroutines.
-/

namespace Spec
open Midiasm

/-- The line starts a chunk. -/
def Starts (line : Bytes) : Prop := str "MThd" <:+: line ∨ str "MTrk" <:+: line

/-- The chunks of a text: together they are the lines from the first line containing `MThd` on, and a line is the first of its chunk
exactly when it contains `MThd` or `MTrk`. -/
structure Chunked (lines : List Bytes) (chunks : List (List Bytes)) : Prop where
  /-- No line is lost, duplicated or reordered. -/
  all : ∃ skipped, lines = skipped ++ chunks.flatten ∧ (∀ l ∈ skipped, ¬ str "MThd" <:+: l) ∧
    ∀ l, chunks.flatten.head? = some l → str "MThd" <:+: l
  /-- Chunks start at the tags. -/
  split : ∀ c ∈ chunks, ∃ l t, c = l :: t ∧ Starts l ∧ ∀ x ∈ t, ¬ Starts x

end Spec
