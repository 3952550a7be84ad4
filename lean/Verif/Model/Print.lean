import Verif.Model.File
import Verif.Model.Text

/-!
The text printed for a file (ops/disassemble/disassemble.go with the built-in templates of ops/disassemble/template).

A panic in a template function is returned as an error by text/template.
-/

namespace Midiasm

/-- What the template prints after the columns of the event (ops/disassemble/template:53-82): type or status, the tag in a column of 22
(not padded for `EndOfTrack`) and the fields. -/
def printBody (b : Body) : Bytes :=
  let column := pad 22 (str b.tag) ++ [32]
  let channel (ch : UInt8) := column ++ str "channel:" ++ pad 2 (dec ch.toNat) ++ [32]
  match b with
  | .endOfTrack => hex2 b.metaType ++ [32] ++ str b.tag
  | .sequenceNumber n => hex2 b.metaType ++ [32] ++ column ++ dec n.toNat
  | .text _ s => hex2 b.metaType ++ [32] ++ column ++ s
  | .midiChannelPrefix ch => hex2 b.metaType ++ [32] ++ column ++ dec ch.toNat
  | .midiPort port => hex2 b.metaType ++ [32] ++ column ++ dec port.toNat
  | .tempo t => hex2 b.metaType ++ [32] ++ column ++ str "tempo:" ++ dec t.toNat
  | .smpteOffset h m s r f ff =>
      hex2 b.metaType ++ [32] ++ column ++ dec h.toNat ++ [32] ++ dec m.toNat ++ [32] ++ dec s.toNat ++ [32] ++ dec r.toNat ++
        [32] ++ dec f.toNat ++ [32] ++ dec ff.toNat
  | .timeSignature n d c t =>
      hex2 b.metaType ++ [32] ++ column ++ dec n.toNat ++ str "/" ++ dec d.toNat ++ str ", " ++ dec c.toNat ++
        str " ticks per click, " ++ dec t.toNat ++ str "/32 per quarter"
  | .keySignature _ _ key => hex2 b.metaType ++ [32] ++ column ++ str key
  | .sequencerSpecific m data => hex2 b.metaType ++ [32] ++ column ++ str m.name ++ str ", " ++ hexString data
  | .noteOff ch note v => hex2 b.status ++ [32] ++ channel ch ++ str "note:" ++ str note.name ++ str ", velocity:" ++ dec v.toNat
  | .noteOn ch note v => hex2 b.status ++ [32] ++ channel ch ++ str "note:" ++ str note.name ++ str ", velocity:" ++ dec v.toNat
  | .polyphonicPressure ch p => hex2 b.status ++ [32] ++ channel ch ++ str "pressure:" ++ dec p.toNat
  | .controller ch c v =>
      hex2 b.status ++ [32] ++ channel ch ++ dec c.id.toNat ++ str "/" ++ str c.name ++ str ", value:" ++ dec v.toNat
  | .programChange ch bank p =>
      hex2 b.status ++ [32] ++ channel ch ++ str "bank:" ++ dec bank.toNat ++ str ", program:" ++ dec p.toNat
  | .channelPressure ch p => hex2 b.status ++ [32] ++ channel ch ++ str "pressure:" ++ dec p.toNat
  | .pitchBend ch bend => hex2 b.status ++ [32] ++ channel ch ++ str "bend:" ++ dec bend.toNat
  | .sysExMessage m data _ => hex2 b.status ++ [32] ++ column ++ str m.name ++ str ", " ++ hexString data
  | .sysExContinuation data _ => hex2 b.status ++ [32] ++ column ++ hexString data
  | .sysExEscape data => hex2 b.status ++ [32] ++ column ++ hexString data

/-- The template `hex` (ops/disassemble/template:85). -/
def printHex (bytes : Bytes) : Outcome Bytes :=
  match valign bytes 3 with
  | .ok s => .ok (pad 42 (ellipsize s 42))
  | _ => .err .other

/-- The template `event` (ops/disassemble/template:18) without the final newline. -/
def printEvent (e : Event) : Outcome Bytes := do
  let hex ← printHex e.bytes
  .ok (hex ++ str "  tick:" ++ pad 9 (dec e.tick.toNat) ++ str "  delta:" ++ pad 9 (dec e.delta.toNat) ++ str "  " ++ printBody e.body)

/-- The events of a track, one line each (ops/disassemble/template:15, 20-51). -/
def printEvents : List Event → Outcome Bytes
  | [] => .ok []
  | e :: es => do
    let line ← printEvent e
    let rest ← printEvents es
    .ok (line ++ [10] ++ rest)

/-- The template `MThd` (ops/disassemble/template:9-11). -/
def printMThd (h : MThd) : Bytes :=
  pad 42 (ellipsize (hexString h.bytes) 42) ++ str "  " ++ h.tag ++ str " length:" ++ dec h.length.toNat ++ str ", format:" ++
    dec h.format.toNat ++ str ", tracks:" ++ dec h.tracks.toNat ++ str ", " ++
    (if h.smpte then str "SMPTE:" ++ dec h.fps.toNat ++ str " fps," ++ dec h.subFrames.toNat ++ str " sub-frames"
     else str "metrical time:" ++ dec h.ppqn.toNat ++ str " ppqn") ++ [10]

/-- The template `MTrk` (ops/disassemble/template:13-16); `TrackNumber.String` is `%-2d` (midi/lib/track_number.go:9-11). -/
def printMTrk (t : MTrk) : Outcome Bytes := do
  let events ← printEvents t.events
  .ok ([10] ++ pad 42 (ellipsize (hexString t.bytes) 24) ++ str "  " ++ t.tag ++ [32] ++ pad 2 (dec t.trackNumber) ++ str " length:" ++
    dec t.length.toNat ++ [10] ++ events)

/-- The tracks of the template `document`. -/
def printTracks : List MTrk → Outcome Bytes
  | [] => .ok []
  | t :: ts => do
    let a ← printMTrk t
    let b ← printTracks ts
    .ok (a ++ b)

/-- The template `document` (ops/disassemble/template:1-6): what `Disassemble.Print` (ops/disassemble/disassemble.go:65-72) writes.  A
file without a header fails. -/
def printSMF (smf : SMF) : Outcome Bytes :=
  match smf.mthd with
  | none => .err .other
  | some h => do
    let tracks ← printTracks smf.tracks
    .ok (printMThd h ++ tracks)

end Midiasm
