import Verif.Spec.Tsv

/-!
Reading text delimited by a character that takes several bytes.
-/

namespace Spec
open Midiasm

/-- Reading text delimited by the bytes `d`: as many bytes as the number says are skipped first; `f` is the current field and `r` the current
record, both in reverse. -/
def readWide (d : Bytes) : Nat → CsvState → Bytes → List Bytes → Bytes → List (List Bytes)
  | _, _, f, r, [] => if f = [] ∧ r = [] then [] else [(f.reverse :: r).reverse]
  | k + 1, st, f, r, _ :: rest => readWide d k st f r rest
  | 0, st, f, r, c :: rest =>
      if st = .quoted then (if c = 34 then readWide d 0 .quote f r rest else readWide d 0 .quoted (c :: f) r rest)
      else if st = .start ∧ c = 34 then readWide d 0 .quoted f r rest
      else if st = .quote ∧ c = 34 then readWide d 0 .quoted (34 :: f) r rest
      else if d <+: c :: rest then readWide d (d.length - 1) .start [] (f.reverse :: r) rest
      else if c = 10 then (f.reverse :: r).reverse :: readWide d 0 .start [] [] rest
      else readWide d 0 (if st = .quote then .quote else .plain) (c :: f) r rest

end Spec
