import Verif.Spec.Streams
import Verif.Spec.Lines

/-!
What a reader of a text delivers.
-/

namespace Spec
open Midiasm

/-- In state `s` the reader delivers `bytes` and then fails with `e`, whatever the sizes of the buffers it is given, after at most a
hundred reads in a row that deliver nothing, `idle` of them already made.  With `together = some true` the error always comes along
with the last bytes, with `some false` always after them. -/
inductive Feeds {σ : Type} (R : Reader σ) (e : ReadErr) (together : Option Bool) : Nat → σ → List UInt8 → Prop
  | step {idle : Nat} {s : σ} {bytes : List UInt8}
    (some_bytes : ∀ n, 0 < n → (R.read s n).1.length ≤ n ∧ (R.read s n).1 <+: bytes)
    (not_idle : ∀ n, 0 < n → (R.read s n).2.1 = none → (R.read s n).1 = [] → idle < 100)
    (nothing : ∀ n, 0 < n → (R.read s n).2.1 = none → (R.read s n).1 = [] → Feeds R e together (idle + 1) (R.read s n).2.2 bytes)
    (no_error : ∀ n, 0 < n → (R.read s n).2.1 = none → (R.read s n).1 ≠ [] →
      Feeds R e together 0 (R.read s n).2.2 (bytes.drop (R.read s n).1.length))
    (more : ∀ n, 0 < n → (R.read s n).2.1 = none → (R.read s n).1 ≠ [] → together = some true → (R.read s n).1 ≠ bytes)
    (error : ∀ n, 0 < n → ∀ e', (R.read s n).2.1 = some e' →
      e' = e ∧ (R.read s n).1 = bytes ∧ (together = some false → bytes = [])) :
    Feeds R e together idle s bytes

/-- The text has no stretch of 65536 bytes without a newline, except perhaps at its end and of exactly that length. -/
def NearlyShort (text : List UInt8) : Prop :=
  ∀ a x b : List UInt8, text = a ++ (x ++ b) → 10 ∉ x → x.length < 65536 ∨ (x.length = 65536 ∧ b = [])

end Spec
