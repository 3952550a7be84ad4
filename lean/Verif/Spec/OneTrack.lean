import Verif.Spec.Assembled
import Mathlib.Data.List.Forall2

/-!
Files that differ in one track, specified independently of the code.
-/

namespace Spec
open Midiasm

/-- Two files that differ only in one chunk of a track: the header and the chunks before and after it are the same.  The events of this track are the
same except for those of the lines `t` in one and `t'` in the other. -/
def DifferInOne (table : List (String × Lib.Manufacturer)) (t t' : List Bytes) (file file' : Bytes) : Prop :=
  ∃ (h : Header) (before after : List (List Event)) (p q : List Bytes) (chunk chunk' : Bytes), h.tracks = before.length + 1 + after.length ∧
    List.Forall₂ TrackChunk before p ∧ List.Forall₂ TrackChunk after q ∧ file = h.chunk.bytes ++ p.flatten ++ chunk ++ q.flatten ∧
    file' = h.chunk.bytes ++ p.flatten ++ chunk' ++ q.flatten ∧
    ∃ es es' x y y' z, TrackChunk es chunk ∧ TrackChunk es' chunk' ∧ TrackHolds table t y ∧ TrackHolds table t' y' ∧
      TerminatorsRestored (x ++ y ++ z) es ∧ TerminatorsRestored (x ++ y' ++ z) es'

end Spec
