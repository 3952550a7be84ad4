import Verif.Model.Go

/-!
What a path names: the directories from the root on, last one first.  Symbolic links are not followed.
-/

namespace Spec
open Midiasm

/-- One element of a path. -/
def enter (at_ : List Bytes) (e : Bytes) : List Bytes :=
  if e = [] ∨ e = str "." then at_ else if e = str ".." then at_.tail else e :: at_

/-- Walks along a path; `cur` is the element read so far, in reverse. -/
def walk (at_ : List Bytes) (cur : Bytes) : Bytes → List Bytes
  | [] => enter at_ cur.reverse
  | c :: rest => if c = 47 then walk (enter at_ cur.reverse) [] rest else walk at_ (c :: cur) rest

/-- What the path names in the directory `cwd`. -/
def place (cwd : List Bytes) (p : Bytes) : List Bytes := walk (if p.head? = some 47 then [] else cwd) [] p

end Spec
