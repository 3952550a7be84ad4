import Verif.Spec.Streams

/-!
Readers that do not come to an end.
-/

namespace Spec
open Midiasm

/-- From state `s` on, no read fails. -/
def NeverFails {σ : Type} (R : Reader σ) (s : σ) : Prop :=
  ∃ P : σ → Prop, P s ∧ ∀ s, P s → ∀ n, 0 < n → (R.read s n).2.1 = none ∧ P (R.read s n).2.2

/-- From state `s` on, every read delivers nothing and does not fail. -/
def Idle {σ : Type} (R : Reader σ) (s : σ) : Prop :=
  ∃ P : σ → Prop, P s ∧ ∀ s, P s → ∀ n, 0 < n → (R.read s n).1 = [] ∧ (R.read s n).2.1 = none ∧ P (R.read s n).2.2

/-- In state `s` the reader delivers `bytes`, at least one with every read, and from then on nothing for ever, without an error. -/
inductive Stalls {σ : Type} (R : Reader σ) : σ → List UInt8 → Prop
  | idle {s : σ} (h : Idle R s) : Stalls R s []
  | step {s : σ} {bytes : List UInt8}
    (some_bytes : ∀ n, 0 < n → (R.read s n).1 ≠ [] ∧ (R.read s n).1.length ≤ n ∧ (R.read s n).1 <+: bytes ∧ (R.read s n).2.1 = none)
    (then_on : ∀ n, 0 < n → Stalls R (R.read s n).2.2 (bytes.drop (R.read s n).1.length)) :
    Stalls R s bytes

/-- A reader that delivers given bytes, as many as fit in the buffer at a time, and then nothing. -/
def stalled : Reader (List UInt8) where
  read s n := (s.take n, none, s.drop n)

end Spec
