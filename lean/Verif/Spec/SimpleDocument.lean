import Verif.Spec.JsonFile

/-!
JSON documents with one header and one array of tracks, specified independently of the code.
-/

namespace Spec
open Midiasm

/-- The document has one member `header` and one member `tracks`, an array; further members of other names do not matter. -/
def SimpleDocument (j header : Json) (tracks : List Json) : Prop := valuesOf "header" j = [header] ∧ valuesOf "tracks" j = [.arr tracks]

/-- The header of a document with one header. -/
def HeaderObject (header : Json) (f d : Nat) : Prop :=
  ObjectLike header ∧ LastIs StringIs (valuesOf "tag" header) (str "MThd") ∧ LastIs (NumberBelow 65536) (valuesOf "format" header) f ∧
    LastIs (NumberBelow 65536) (valuesOf "PPQN" header) d ∧ (Header.mk f 0 d).Valid

/-- The chunk that a track of a document is assembled to. -/
def TrackGives (track : Json) (chunk : Bytes) : Prop := TrackLike track ∧ ∃ es, TrackSays track es ∧ TrackChunk es chunk

end Spec
