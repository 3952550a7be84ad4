import Verif.Spec.Assembled
import Verif.Spec.Manufacturers

/-!
The file that a JSON document stands for, specified without reference to the code that reads it.  The document is the tree of `Json`; the
bytes of the file are those of `Verif/Spec/Assembled.lean`.  Members of the same name (in any case) may repeat.
-/

namespace Spec
open Midiasm

/-! ### Members of the same name -/

/-- What the values of a member say if `null` says nothing: each of the other values must be of the right kind, and the last of them
counts. -/
def MembersSay {α : Type} (kind : Json → α → Prop) (zero : α) (vs : List Json) (a : α) : Prop :=
  (∀ v ∈ vs, v = .null ∨ ∃ x, kind v x) ∧
    ((∃ before v after, vs = before ++ v :: after ∧ kind v a ∧ ∀ w ∈ after, w = .null) ∨ (∀ v ∈ vs, v = .null) ∧ a = zero)

/-- What the values of a member say if the last one counts, whatever it is: all of them must be of the right kind. -/
def LastSays {α : Type} (kind : Json → α → Prop) (zero : α) (vs : List Json) (a : α) : Prop :=
  (∀ v ∈ vs, ∃ x, kind v x) ∧ ((∃ before v, vs = before ++ [v] ∧ kind v a) ∨ vs = [] ∧ a = zero)

/-- The same for a member that must not be missing, nor `null` in the end. -/
def LastIs {α : Type} (kind : Json → α → Prop) (vs : List Json) (a : α) : Prop :=
  (∀ v ∈ vs, v = .null ∨ ∃ x, kind v x) ∧ ∃ before v, vs = before ++ [v] ∧ kind v a

/-- An unsigned number below the bound. -/
def NumberBelow (bound : Nat) (v : Json) (n : Nat) : Prop := ∃ lit, v = .num lit ∧ Numeral lit n ∧ n < bound

/-- A number of eight bits with a sign. -/
def SignedByte (v : Json) (n : Int) : Prop :=
  ∃ lit k, v = .num lit ∧ (Numeral lit k ∧ n = k ∧ k < 128 ∨ ∃ ds, lit = 45 :: ds ∧ Numeral ds k ∧ n = -k ∧ k ≤ 128)

/-- A string, in UTF-8. -/
def StringIs (v : Json) (s : Bytes) : Prop := ∃ cs, v = .str cs ∧ s = ofRunes cs

/-- A truth value. -/
def TruthIs (v : Json) (b : Bool) : Prop := v = .bool b

/-- A channel: `null` is channel 0. -/
def ChannelIs (v : Json) (ch : UInt8) : Prop := v = .null ∧ ch = 0 ∨ NumberBelow 16 v ch.toNat

/-- Bytes: numbers, of which the last eight bits count; `null` is none of them, or a zero among them. -/
def BytesAre (v : Json) (bs : Bytes) : Prop :=
  v = .null ∧ bs = [] ∨
    ∃ l, v = .arr l ∧ List.Forall₂ (fun x b => x = .null ∧ b = 0 ∨ ∃ n, NumberBelow (2 ^ 64) x n ∧ b = UInt8.ofNat n) l bs

/-- Only objects have members; `null` is taken for an object without any. -/
def ObjectLike (v : Json) : Prop := v = .null ∨ ∃ ms, v = .obj ms

/-- The members of all the objects with that name, taken together. -/
def together (name : String) (j : Json) : Json := .obj ((valuesOf name j).map membersOf).flatten

/-- The ID that is written for a manufacturer: instead of 7F it is 7E, and for a long ID whose last two bytes are known it begins with 0. -/
def writtenId : Bytes → Bytes
  | [a] => if a = 0x7f then [0x7e] else [a]
  | [x, b, c] => if ∃ e ∈ Lib.manufacturers, e.2.id = [0, b, c] then [0, b, c] else [x, b, c]
  | id => id

/-- A manufacturer: only the ID counts. -/
def MakerIs (v : Json) (id : Bytes) : Prop :=
  ObjectLike v ∧ (∀ w ∈ valuesOf "id" v, w = .null ∨ ∃ l, w = .arr l ∧ ∀ x ∈ l, x = .null ∨ ∃ n, NumberBelow (2 ^ 64) x n) ∧
    ∃ given, IdOf v given ∧ id = writtenId given

/-! ### Events -/

/-- A number in a member of an event. -/
def NumberIn (bound : Nat) (name : String) (ev : Json) (n : Nat) : Prop := MembersSay (NumberBelow bound) 0 (valuesOf name ev) n

/-- All the members of that name are strings or `null`. -/
def Strings (name : String) (j : Json) : Prop := ∀ v ∈ valuesOf name j, v = .null ∨ ∃ s, StringIs v s

/-- The number of a note, of which the name and the alias do not count. -/
def NoteIs (ev : Json) (n : UInt8) : Prop :=
  (∀ v ∈ valuesOf "note" ev, ObjectLike v) ∧ NumberIn 256 "value" (together "note" ev) n.toNat ∧ Strings "name" (together "note" ev) ∧
    Strings "alias" (together "note" ev)

/-- The number of a controller, of which the name does not count. -/
def ControllerIs (ev : Json) (n : UInt8) : Prop :=
  (∀ v ∈ valuesOf "controller" ev, ObjectLike v) ∧ NumberIn 256 "id" (together "controller" ev) n.toNat ∧ Strings "name" (together "controller" ev)

/-- The member with the text. -/
def textMember : TextKind → String
  | .text => "text"
  | .copyright => "copyright"
  | .trackName => "name"
  | .instrumentName => "name"
  | .lyric => "lyric"
  | .marker => "marker"
  | .cuePoint => "cuepoint"
  | .programName => "name"
  | .deviceName => "name"

/-- What the members of an event say.  (Names of notes, controllers, manufacturers and keys are left open: they are not written.) -/
def JsonSays (ev : Json) (delta : UInt32) (b : Body) : Prop :=
  MembersSay StringIs [] (valuesOf "tag" ev) (str b.tag) ∧ NumberIn (2 ^ 32) "delta" ev delta.toNat ∧
    match b with
    | .sequenceNumber n => NumberIn 65536 "sequence-number" ev n.toNat
    | .text k s => MembersSay StringIs [] (valuesOf (textMember k) ev) s
    | .midiChannelPrefix ch => NumberIn 256 "channel" ev ch.toNat ∧ ch.toNat ≤ 15
    | .midiPort p => NumberIn 256 "port" ev p.toNat ∧ p.toNat ≤ 127
    | .endOfTrack => True
    | .tempo t => NumberIn (2 ^ 32) "tempo" ev t.toNat
    | .smpteOffset h m s r f ff => NumberIn 256 "hour" ev h.toNat ∧ NumberIn 256 "minute" ev m.toNat ∧ NumberIn 256 "second" ev s.toNat ∧
        NumberIn 256 "frame-rate" ev r.toNat ∧ NumberIn 256 "frames" ev f.toNat ∧ NumberIn 256 "fractional-frames" ev ff.toNat ∧
        h.toNat ≤ 24 ∧ m.toNat ≤ 59 ∧ s.toNat ≤ 59 ∧ r.toNat ∈ [24, 25, 29, 30] ∧ f.toNat < r.toNat ∧ ff.toNat ≤ 100
    | .timeSignature n d c q => NumberIn 256 "numerator" ev n.toNat ∧ NumberIn 256 "denominator" ev d.toNat ∧
        NumberIn 256 "ticks-per-click" ev c.toNat ∧ NumberIn 256 "thirty-seconds-per-quarter" ev q.toNat ∧ d.toNat ≤ 128
    | .keySignature a k _ => MembersSay SignedByte 0 (valuesOf "accidentals" ev) a.toInt ∧ NumberIn 256 "key-type" ev k.toNat ∧
        -7 ≤ a.toInt ∧ a.toInt ≤ 7 ∧ k.toNat ≤ 1
    | .sequencerSpecific m data => LastSays MakerIs [] (valuesOf "manufacturer" ev) m.id ∧ LastSays BytesAre [] (valuesOf "data" ev) data
    | .noteOff ch n v => LastSays ChannelIs 0 (valuesOf "channel" ev) ch ∧ NoteIs ev n.value ∧ NumberIn 256 "velocity" ev v.toNat
    | .noteOn ch n v => LastSays ChannelIs 0 (valuesOf "channel" ev) ch ∧ NoteIs ev n.value ∧ NumberIn 256 "velocity" ev v.toNat ∧ v.toNat ≤ 127
    | .polyphonicPressure ch p => LastSays ChannelIs 0 (valuesOf "channel" ev) ch ∧ NumberIn 256 "pressure" ev p.toNat ∧ p.toNat ≤ 127
    | .controller ch c v => LastSays ChannelIs 0 (valuesOf "channel" ev) ch ∧ ControllerIs ev c.id ∧ NumberIn 256 "value" ev v.toNat
    | .programChange ch bank p => LastSays ChannelIs 0 (valuesOf "channel" ev) ch ∧ NumberIn 65536 "bank" ev bank.toNat ∧ NumberIn 256 "program" ev p.toNat
    | .channelPressure ch p => LastSays ChannelIs 0 (valuesOf "channel" ev) ch ∧ NumberIn 256 "pressure" ev p.toNat ∧ p.toNat ≤ 127
    | .pitchBend ch v => LastSays ChannelIs 0 (valuesOf "channel" ev) ch ∧ NumberIn 65536 "bend" ev v.toNat
    | .sysExMessage m data single => LastSays MakerIs [] (valuesOf "manufacturer" ev) m.id ∧ LastSays BytesAre [] (valuesOf "data" ev) data ∧
        MembersSay TruthIs false (valuesOf "single" ev) single
    | .sysExContinuation data last => LastSays BytesAre [] (valuesOf "data" ev) data ∧ (∃ x, MembersSay TruthIs false (valuesOf "end" ev) x) ∧ last = false
    | .sysExEscape data => LastSays BytesAre [] (valuesOf "data" ev) data

/-- An element of `events`: what its last member `event` says. -/
def EventSays (w : Json) (e : Event) : Prop := ∃ before ev, valuesOf "event" w = before ++ [ev] ∧ JsonSays ev e.delta e.body

/-! ### Documents -/

/-- The header of a document. -/
def HeaderSays (j : Json) (f d : Nat) : Prop :=
  (∀ v ∈ valuesOf "header" j, ObjectLike v) ∧ LastIs StringIs (valuesOf "tag" (together "header" j)) (str "MThd") ∧
    LastIs (NumberBelow 65536) (valuesOf "format" (together "header" j)) f ∧ LastIs (NumberBelow 65536) (valuesOf "PPQN" (together "header" j)) d ∧
    (Header.mk f 0 d).Valid

/-- What every element of every member `tracks` must be like, whether it counts or not. -/
def TrackLike (t : Json) : Prop :=
  ObjectLike t ∧ Strings "tag" t ∧ (∀ v ∈ valuesOf "tracknumber" t, v = .null ∨ ∃ n, NumberBelow 65536 v n) ∧
    ∀ v ∈ valuesOf "events" t, v = .null ∨ ∃ l, v = .arr l

/-- The events of a track. -/
def TrackSays (t : Json) (es : List Event) : Prop :=
  (∃ before v, valuesOf "tag" t = before ++ [v] ∧ StringIs v (str "MTrk")) ∧
    ∃ before l given, valuesOf "events" t = before ++ [.arr l] ∧ List.Forall₂ EventSays l given ∧ TerminatorsRestored given es

/-- The document stands for a file with that format and division and with these tracks. -/
def DocumentSays (j : Json) (f d : Nat) (ts : List (List Event)) : Prop :=
  HeaderSays j f d ∧ (∀ v ∈ valuesOf "tracks" j, v = .null ∨ ∃ l, v = .arr l ∧ ∀ t ∈ l, TrackLike t) ∧ List.Forall₂ TrackSays (tracksOf j) ts

end Spec
