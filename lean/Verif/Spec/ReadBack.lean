import Verif.Model.Go
import Mathlib.Data.List.Infix

/-!
Event kinds of a text line, and the events that can be read back, specified independently of the patterns of the code.
-/

namespace Spec
open Midiasm

/-- The event names of the assembly language, in the order in which they are looked for. -/
def keywords : List String := [
  "SequenceNumber", "Text", "Copyright", "TrackName", "InstrumentName", "Lyric", "Marker", "CuePoint", "ProgramName", "DeviceName",
  "MIDIChannelPrefix", "MIDIPort", "Tempo", "TimeSignature", "KeySignature", "SMPTEOffset", "EndOfTrack", "SequencerSpecificEvent",
  "NoteOff", "NoteOn", "PolyphonicPressure", "Controller", "ProgramChange", "ChannelPressure", "PitchBend", "SysExMessage",
  "SysExContinuation", "SysExEscape"]

/-- `k` is the first of the names with the property. -/
def FirstOf (names : List String) (p : String → Prop) (k : String) : Prop :=
  ∃ l r, names = l ++ k :: r ∧ p k ∧ ∀ x ∈ l, ¬ p x

/-- The name is in the text. -/
def Occurs (k : String) (s : Bytes) : Prop := str k <:+: s

/-- No event name that is looked for before `k` is in the text. -/
def Unambiguous (k : String) (s : Bytes) : Prop := ∀ l r, keywords = l ++ k :: r → ∀ x ∈ l, ¬ Occurs x s

end Spec
