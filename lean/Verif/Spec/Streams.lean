import Verif.Spec.File
import Verif.Model.Streams

/-!
What a reader delivers and what a writer promises.
-/

namespace Spec
open Midiasm

/-- From state `s` on, every read fails with `e` and delivers nothing. -/
def Ended {σ : Type} (R : Reader σ) (e : ReadErr) (s : σ) : Prop :=
  ∃ P : σ → Prop, P s ∧ ∀ s, P s → ∀ n, 0 < n →
    (R.read s n).1 = [] ∧ (R.read s n).2.1 = some e ∧ P (R.read s n).2.2

/-- In state `s` the reader delivers `bytes` and then fails with `e`, whatever the sizes of the buffers it is given.  Each
read delivers some of the bytes, none included, at most as many as were asked for.  The error comes after the last byte
or along with the last bytes.  The reader does not deliver nothing for ever: every sequence of reads ends. -/
inductive Yields {σ : Type} (R : Reader σ) (e : ReadErr) : σ → List UInt8 → Prop
  | step {s : σ} {bytes : List UInt8}
    (some_bytes : ∀ n, 0 < n → (R.read s n).1.length ≤ n ∧ (R.read s n).1 <+: bytes)
    (no_error : ∀ n, 0 < n → (R.read s n).2.1 = none →
      Yields R e (R.read s n).2.2 (bytes.drop (R.read s n).1.length))
    (error : ∀ n, 0 < n → ∀ e', (R.read s n).2.1 = some e' →
      e' = e ∧ (R.read s n).1 = bytes ∧ Ended R e (R.read s n).2.2) :
    Yields R e s bytes

/-- A reader that delivers given pieces, one per read if the buffer is large enough, and then fails with `e`; with
`together` the error comes along with the end of the last piece. -/
def pieces (e : ReadErr) (together : Bool) : Reader (List (List UInt8)) where
  read s n :=
    match s with
    | [] => ([], some e, [])
    | [p] => if p.length ≤ n then (p, if together then some e else none, []) else (p.take n, none, [p.drop n])
    | p :: q :: ps => if p.length ≤ n then (p, none, q :: ps) else (p.take n, none, p.drop n :: q :: ps)

/-- What `io.Writer` promises: never more bytes than it was given, and all of them unless there is an error. -/
def Honest {ω : Type} (W : Writer ω) : Prop :=
  ∀ s p, (W.write s p).1 ≤ p.length ∧ ((W.write s p).2.1 = false → (W.write s p).1 = p.length)

/-- A writer that never fails. -/
def Faultless {ω : Type} (W : Writer ω) : Prop := ∀ s p, (W.write s p).2.1 = false

/-- A writer on a device with room for a number of bytes. -/
def device : Writer Nat where
  write room p := if p.length ≤ room then (p.length, false, room - p.length) else (room, true, 0)

end Spec
