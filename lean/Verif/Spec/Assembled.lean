import Verif.Spec.LineGrammar
import Verif.Spec.TextFile
import Verif.Spec.File
import Verif.Spec.Vlq

/-!
The file that a text stands for, specified from its lines to its bytes without reference to the code: what a line says is in
`Verif/Spec/LineGrammar.lean`, what the sections of a text are in `Verif/Spec/TextFile.lean`; here are the events of the tracks and the
bytes that are written for them.
-/

namespace Spec
open Midiasm

/-! ### From lines to tracks -/

/-- The line is read as the event. -/
def EventLine (table : List (String × Lib.Manufacturer)) (line : Bytes) (e : Event) : Prop :=
  FirstOf keywords (fun k => Occurs k line) e.body.tag ∧ LineSays table line e.delta e.body ∧ e.tick = 0 ∧ e.bytes = []

/-- The events of the lines of a track: one for each line that is neither blank nor a comment. -/
inductive TrackHolds (table : List (String × Lib.Manufacturer)) : List Bytes → List Event → Prop
  | nil : TrackHolds table [] []
  | skip (l ls es) : Empty l → TrackHolds table ls es → TrackHolds table (l :: ls) es
  | event (l ls e es) : ¬ Empty l → EventLine table l e → TrackHolds table ls es → TrackHolds table (l :: ls) (e :: es)

/-- The packet with the terminator. -/
def endPacket : Body → Body
  | .sysExMessage m d _ => .sysExMessage m d true
  | .sysExContinuation d _ => .sysExContinuation d true
  | b => b

/-- A packet that is followed by an event other than a further packet gets a terminator; the last event of a track is left as it is. -/
inductive TerminatorsRestored : List Event → List Event → Prop
  | last (e) : TerminatorsRestored [e] [e]
  | goesOn (e n es es') : (∃ d t, n.body = .sysExContinuation d t) → TerminatorsRestored (n :: es) es' → TerminatorsRestored (e :: n :: es) (e :: es')
  | ends (e n es es') : (¬ ∃ d t, n.body = .sysExContinuation d t) → TerminatorsRestored (n :: es) es' →
      TerminatorsRestored (e :: n :: es) (⟨e.tick, e.delta, e.bytes, endPacket e.body⟩ :: es')

/-- What the sections of a text stand for: the header so far, with the number of tracks since it was read (modulo 2¹⁶), and the events of
all tracks. -/
inductive Stands (table : List (String × Lib.Manufacturer)) : List (List Bytes) → Option Header → List (List Event) → Prop
  /-- nothing -/
  | nil : Stands table [] none []
  /-- a section that begins with a comment does not count -/
  | comment (ss h ts l t) : Stands table ss h ts → Comment l → Stands table (ss ++ [l :: t]) h ts
  /-- a header: the lines after the first one do not count -/
  | header (ss h ts l t f d) : Stands table ss h ts → ¬ Comment l → str "MThd" <:+: l → HeaderLine l f d →
      Stands table (ss ++ [l :: t]) (some ⟨f, 0, d⟩) ts
  /-- a track -/
  | track (ss h ts l t es es') : Stands table ss (some h) ts → ¬ Comment l → ¬ str "MThd" <:+: l → str "MTrk" <:+: l →
      TrackHolds table t es → TerminatorsRestored es es' →
      Stands table (ss ++ [l :: t]) (some ⟨h.format, (h.tracks + 1) % 65536, h.division⟩) (ts ++ [es'])

/-! ### From tracks to bytes -/

/-- The quantity as it is written: in its shortest form if it is below 2²⁸; otherwise the first digit lacks the mark of continuation and is
followed by four digits. -/
def WrittenQuantity (n : Nat) (bs : Bytes) : Prop :=
  (n < 2 ^ 28 ∧ IsVLQ bs n ∧ Canonical bs) ∨
  (2 ^ 28 ≤ n ∧ ∃ b rest, bs = b :: rest ∧ b.toNat = n / 2 ^ 28 ∧ rest.length = 4 ∧ IsVLQ rest (n % 2 ^ 28))

/-- The types of the meta events with text. -/
def textType : TextKind → UInt8
  | .text => 1
  | .copyright => 2
  | .trackName => 3
  | .instrumentName => 4
  | .lyric => 5
  | .marker => 6
  | .cuePoint => 7
  | .programName => 8
  | .deviceName => 9

/-- A meta event whose length is written in one byte (modulo 256). -/
def metaBytes (type : UInt8) (data : Bytes) : Bytes := 0xff :: type :: UInt8.ofNat data.length :: data

/-- A channel message. -/
def chanBytes (kind : Nat) (ch : UInt8) (data : Bytes) : Bytes := UInt8.ofNat (kind * 16 + ch.toNat) :: data

/-- The bytes of an event after the delta time. -/
def EventBytes : Body → Bytes → Prop
  | .sequenceNumber n, bs => bs = metaBytes 0x00 (be16 n.toNat)
  | .text k s, bs =>
      (k ≠ .trackName ∧ bs = metaBytes (textType k) s) ∨
      (k = .trackName ∧ ∃ len, WrittenQuantity (s.length % 2 ^ 32) len ∧ bs = 0xff :: textType k :: (len ++ s))
  | .midiChannelPrefix ch, bs => bs = metaBytes 0x20 [ch]
  | .midiPort p, bs => bs = metaBytes 0x21 [p]
  | .endOfTrack, bs => bs = metaBytes 0x2f []
  | .tempo t, bs => bs = metaBytes 0x51 [UInt8.ofNat (t.toNat / 65536 % 256), UInt8.ofNat (t.toNat / 256 % 256), UInt8.ofNat (t.toNat % 256)]
  | .smpteOffset h m s r f ff, bs => ∃ code, (r.toNat, code) ∈ [(24, 0), (25, 1), (29, 2), (30, 3)] ∧
      bs = metaBytes 0x54 [UInt8.ofNat (code * 32 + h.toNat), m, s, f, ff]
  | .timeSignature n d c q, bs => ∃ e, d.toNat ≤ 2 ^ e ∧ (∀ j, j < e → 2 ^ j < d.toNat) ∧ e ≤ 7 ∧ bs = metaBytes 0x58 [n, UInt8.ofNat e, c, q]
  | .keySignature a k _, bs => bs = metaBytes 0x59 [UInt8.ofNat (a.toInt % 256).toNat, k]
  | .sequencerSpecific m data, bs => bs = metaBytes 0x7f (m.id ++ data)
  | .noteOff ch n v, bs => bs = chanBytes 8 ch [n.value, v]
  | .noteOn ch n v, bs => bs = chanBytes 9 ch [n.value, v]
  | .polyphonicPressure ch p, bs => bs = chanBytes 10 ch [p]
  | .controller ch c v, bs => bs = chanBytes 11 ch [c.id, v]
  | .programChange ch _ p, bs => bs = chanBytes 12 ch [p]
  | .channelPressure ch p, bs => bs = chanBytes 13 ch [p]
  | .pitchBend ch v, bs => bs = chanBytes 14 ch (be16 v.toNat)
  | .sysExMessage m data single, bs => ∃ len all, all = m.id ++ data ++ (if single then [0xf7] else []) ∧
      WrittenQuantity (all.length % 2 ^ 32) len ∧ bs = 0xf0 :: (len ++ all)
  | .sysExContinuation data last, bs => ∃ len all, all = data ++ (if last then [0xf7] else []) ∧
      WrittenQuantity (all.length % 2 ^ 32) len ∧ bs = 0xf7 :: (len ++ all)
  | .sysExEscape data, bs => ∃ len, WrittenQuantity (data.length % 2 ^ 32) len ∧ bs = 0xf7 :: (len ++ data)

/-- Running status: a note on or off is written without its status if the bytes of the preceding event, as written, begin with that
status (so that of a row of notes on one channel every other one has a status). -/
inductive Thinned : Option UInt8 → List Bytes → List Bytes → Prop
  | nil (p) : Thinned p [] []
  | drop (s t es ws) : 0x80 ≤ s.toNat → s.toNat < 0xa0 → Thinned t.head? es ws → Thinned (some s) ((s :: t) :: es) (t :: ws)
  | keep (p s t es ws) : ¬ (p = some s ∧ 0x80 ≤ s.toNat ∧ s.toNat < 0xa0) → Thinned (some s) es ws → Thinned p ((s :: t) :: es) ((s :: t) :: ws)

/-- The chunk of a track. -/
def TrackChunk (es : List Event) (chunk : Bytes) : Prop :=
  ∃ full written deltas content,
    List.Forall₂ (fun e bs => EventBytes e.body bs) es full ∧ Thinned none full written ∧
    List.Forall₂ (fun e bs => WrittenQuantity e.delta.toNat bs) es deltas ∧
    content = (List.zipWith (fun d w => d ++ w) deltas written).flatten ∧
    chunk = str "MTrk" ++ be32 (content.length % 2 ^ 32) ++ content

end Spec
