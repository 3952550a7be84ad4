import Verif.Spec.Wire

/-!
What makes a file questionable, stated on event contents.
-/

namespace Spec

/-- Events without an End of Track followed by one End of Track. -/
def ProperlyEnded (cs : List Content) : Prop := ∃ pre, cs = pre ++ [.endOfTrack] ∧ Content.endOfTrack ∉ pre

/-- The kinds of event allowed in the tempo map track of a format 1 file: tempo, time signature, SMPTE offset, track name,
copyright and end of track. -/
def TempoMapKind : Content → Prop
  | .tempo _ => True
  | .timeSignature .. => True
  | .smpteOffset .. => True
  | .text t _ => t = 3 ∨ t = 2
  | .endOfTrack => True
  | _ => False

instance : DecidablePred TempoMapKind := fun c => by
  cases c <;> simp only [TempoMapKind] <;> infer_instance

/-- The kinds of event that belong in the tempo map track only. -/
def TempoMapOnly : Content → Prop
  | .tempo _ => True
  | .smpteOffset .. => True
  | _ => False

instance : DecidablePred TempoMapOnly := fun c => by
  cases c <;> simp only [TempoMapOnly] <;> infer_instance

/-- A Bank Select MSB on a channel. -/
def IsMSB (ch : Nat) (c : Content) : Prop := ∃ v, c = .controller ch 0 v

/-- A Bank Select LSB on a channel. -/
def IsLSB (ch : Nat) (c : Content) : Prop := ∃ v, c = .controller ch 32 v

/-- The event at `k` is a Bank Select MSB not immediately followed by an LSB on the same channel. -/
def LonelyMSB (cs : List Content) (k : Nat) : Prop :=
  ∃ ch c, cs[k]? = some c ∧ IsMSB ch c ∧ ¬ ∃ c', cs[k + 1]? = some c' ∧ IsLSB ch c'

/-- The event at `k` is a Bank Select LSB not immediately preceded by an MSB on the same channel. -/
def LonelyLSB (cs : List Content) (k : Nat) : Prop :=
  ∃ ch c, cs[k]? = some c ∧ IsLSB ch c ∧ ¬ ∃ j c', j + 1 = k ∧ cs[j]? = some c' ∧ IsMSB ch c'

end Spec
