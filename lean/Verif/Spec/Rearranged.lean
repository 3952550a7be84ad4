import Verif.Spec.JsonFile

/-!
JSON documents that differ only in the order and the spelling of the names of members and in members that mean nothing, specified
independently of the code that reads them.
-/

namespace Spec
open Midiasm

/-- The names of members that mean something somewhere in a document. -/
def memberNames : List String :=
  ["header", "tracks", "tag", "format", "PPQN", "tracknumber", "events", "event", "delta", "sequence-number", "text", "copyright", "name", "lyric",
    "marker", "cuepoint", "channel", "port", "tempo", "hour", "minute", "second", "frame-rate", "frames", "fractional-frames", "numerator",
    "denominator", "ticks-per-click", "thirty-seconds-per-quarter", "accidentals", "key-type", "manufacturer", "data", "id", "note", "value", "alias",
    "velocity", "pressure", "controller", "bank", "program", "bend", "single", "end"]

/-- The second document is the first one with members of different names in another order, names of members in other case, and members of
other names than those above added or left out, anywhere in it. -/
inductive Rearranged : Json → Json → Prop
  | same (v : Json) : Rearranged v v
  | back {v w : Json} : Rearranged v w → Rearranged w v
  | trans {u v w : Json} : Rearranged u v → Rearranged v w → Rearranged u w
  | element (a b : List Json) {v w : Json} : Rearranged v w → Rearranged (.arr (a ++ v :: b)) (.arr (a ++ w :: b))
  | member (a b : List (List Nat × Json)) (n : List Nat) {v w : Json} : Rearranged v w →
      Rearranged (.obj (a ++ (n, v) :: b)) (.obj (a ++ (n, w) :: b))
  | order (a b : List (List Nat × Json)) (n m : List Nat) (v w : Json) : n.map lowerCase ≠ m.map lowerCase →
      Rearranged (.obj (a ++ (n, v) :: (m, w) :: b)) (.obj (a ++ (m, w) :: (n, v) :: b))
  | spelling (a b : List (List Nat × Json)) (n m : List Nat) (v : Json) : n.map lowerCase = m.map lowerCase →
      Rearranged (.obj (a ++ (n, v) :: b)) (.obj (a ++ (m, v) :: b))
  | meaningless (a b : List (List Nat × Json)) (n : List Nat) (v : Json) : (∀ name ∈ memberNames, ¬ SameName name n) →
      Rearranged (.obj (a ++ b)) (.obj (a ++ (n, v) :: b))

end Spec
