import Verif.Spec.Validate

/-!
Files about which there is nothing to warn.
-/

namespace Spec

/-- A track that ends properly, with bank selections in pairs on the same channel. -/
def BlamelessTrack (cs : List Content) : Prop := ProperlyEnded cs ∧ ∀ k, ¬ LonelyMSB cs k ∧ ¬ LonelyLSB cs k

/-- A file of format 0 with one track, of format 1 with a tempo map first and nothing of it elsewhere, or of another format, whose tracks are blameless. -/
def Blameless (format : Nat) (tracks : List (List Content)) : Prop :=
  (format = 0 → tracks.length = 1) ∧
  (format = 1 → ∀ (i : Nat) (cs : List Content), tracks[i]? = some cs → ∀ c ∈ cs, if i = 0 then TempoMapKind c else ¬ TempoMapOnly c) ∧
  ∀ cs ∈ tracks, BlamelessTrack cs

end Spec
