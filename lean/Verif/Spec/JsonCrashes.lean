import Verif.Spec.JsonFile
import Verif.Spec.JsonText

/-!
The JSON texts that crash the assembler and those that it never finishes: what comes before has a meaning, and then there is a track without
events, or an event with which the assembler cannot go on.
-/

namespace Spec
open Midiasm

/-- The members of an event that all events have. -/
def EventOf (tag : String) (ev : Json) : Prop :=
  MembersSay StringIs [] (valuesOf "tag" ev) (str tag) ∧ ∃ delta : UInt32, NumberIn (2 ^ 32) "delta" ev delta.toNat

/-- An event that crashes the assembler: values of the right kind out of range. -/
def CrashEvent (ev : Json) : Prop :=
  (EventOf "SMPTEOffset" ev ∧ ∃ h m s r f ff : UInt8, NumberIn 256 "hour" ev h.toNat ∧ NumberIn 256 "minute" ev m.toNat ∧
    NumberIn 256 "second" ev s.toNat ∧ NumberIn 256 "frame-rate" ev r.toNat ∧ NumberIn 256 "frames" ev f.toNat ∧
    NumberIn 256 "fractional-frames" ev ff.toNat ∧
    ¬ (h.toNat ≤ 24 ∧ m.toNat ≤ 59 ∧ s.toNat ≤ 59 ∧ r.toNat ∈ [24, 25, 29, 30] ∧ f.toNat < r.toNat ∧ ff.toNat ≤ 100)) ∨
  (EventOf "KeySignature" ev ∧ ∃ (a : Int8) (k : UInt8), MembersSay SignedByte 0 (valuesOf "accidentals" ev) a.toInt ∧ NumberIn 256 "key-type" ev k.toNat ∧
    ¬ (-7 ≤ a.toInt ∧ a.toInt ≤ 7 ∧ k.toNat ≤ 1)) ∨
  (EventOf "NoteOn" ev ∧ ∃ ch n v : UInt8, LastSays ChannelIs 0 (valuesOf "channel" ev) ch ∧ NoteIs ev n ∧ NumberIn 256 "velocity" ev v.toNat ∧
    127 < v.toNat) ∨
  ((EventOf "PolyphonicPressure" ev ∨ EventOf "ChannelPressure" ev) ∧ ∃ ch p : UInt8, LastSays ChannelIs 0 (valuesOf "channel" ev) ch ∧
    NumberIn 256 "pressure" ev p.toNat ∧ 127 < p.toNat)

/-- An event that the assembler does not finish: a time signature with a denominator above 128. -/
def HangEvent (ev : Json) : Prop :=
  EventOf "TimeSignature" ev ∧ ∃ n d c q : UInt8, NumberIn 256 "numerator" ev n.toNat ∧ NumberIn 256 "denominator" ev d.toNat ∧
    NumberIn 256 "ticks-per-click" ev c.toNat ∧ NumberIn 256 "thirty-seconds-per-quarter" ev q.toNat ∧ 128 < d.toNat

/-- The elements of the last member `events` of a track; without one, or if it is `null`, there are none. -/
def EventsOf (t : Json) (l : List Json) : Prop :=
  (∃ before, valuesOf "events" t = before ++ [.arr l]) ∨ (l = [] ∧ (valuesOf "events" t = [] ∨ ∃ before, valuesOf "events" t = before ++ [.null]))

/-- The elements up to one with an event of a kind say events. -/
def EventsStop (P : Json → Prop) (l : List Json) : Prop :=
  ∃ a w b given before ev, l = a ++ w :: b ∧ List.Forall₂ EventSays a given ∧ valuesOf "event" w = before ++ [ev] ∧ P ev

/-- The header has a meaning and so have the tracks up to one with events of a kind. -/
def DocumentStops (Q : List Json → Prop) (j : Json) : Prop :=
  (∃ f d, HeaderSays j f d) ∧ (∀ v ∈ valuesOf "tracks" j, v = .null ∨ ∃ l, v = .arr l ∧ ∀ t ∈ l, TrackLike t) ∧
  ∃ a t b ts l before v, tracksOf j = a ++ t :: b ∧ List.Forall₂ TrackSays a ts ∧ valuesOf "tag" t = before ++ [v] ∧ StringIs v (str "MTrk") ∧
    EventsOf t l ∧ Q l

/-- A document that crashes the assembler. -/
def DocumentCrashes (j : Json) : Prop := DocumentStops (fun l => l = [] ∨ EventsStop CrashEvent l) j

/-- A document that the assembler does not finish. -/
def DocumentHangs (j : Json) : Prop := DocumentStops (EventsStop HangEvent) j

/-- A text begins with a document of a kind, after white space. -/
def BeginsWith (D : Json → Prop) (text : Bytes) : Prop :=
  ∃ a s rest j, text = a ++ s ++ rest ∧ Space a ∧ JsonText CharsRead j s ∧ nesting j ≤ 10000 ∧ D j

end Spec
