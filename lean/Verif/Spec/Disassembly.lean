import Verif.Spec.Export
import Verif.Spec.Text

/-!
The text printed for a file, line by line.
-/

namespace Spec
open Midiasm

/-- A text in plain characters, followed by blanks up to a width. -/
def filled (width : Nat) (s : List UInt8) : List UInt8 := s ++ List.replicate (width - s.length) 32

/-- The first column: bytes in hexadecimal, 42 characters wide.  A text of more than `room` characters is cut off and ends with an ellipsis. -/
def bytesColumn (room indent : Nat) (bs : List UInt8) : List UInt8 :=
  let s := List.replicate indent 32 ++ hexDisplay bs
  if s.length ≤ room then filled 42 s else s.take (room - 1) ++ str "…" ++ List.replicate (42 - room) 32

/-- The number of bytes of the delta time, at the start of an event. -/
def deltaBytes (bs : List UInt8) : Nat := (bs.takeWhile fun b => 128 ≤ b.toNat).length + 1

/-- The name of a channel event's kind, and its channel. -/
def channelShown (tag : String) (ch : Nat) : List UInt8 :=
  filled 22 (str tag) ++ str " channel:" ++ filled 2 (str (toString ch)) ++ str " "

/-- The name of the kind of an event, and its fields. -/
def fieldsShown (names : List String) (bank : Option Nat) : Content → List UInt8
  | .sequenceNumber n => str s!"SequenceNumber         {n}"
  | .text t s => filled 23 (str (tagOf (.text t s))) ++ s
  | .channelPrefix ch => str s!"MIDIChannelPrefix      {ch}"
  | .port p => str s!"MIDIPort               {p}"
  | .endOfTrack => str "EndOfTrack"
  | .tempo t => str s!"Tempo                  tempo:{t}"
  | .smpteOffset h m s r f ff => str s!"SMPTEOffset            {h} {m} {s} {r} {f} {ff}"
  | .timeSignature n d c t => str s!"TimeSignature          {n}/{d}, {c} ticks per click, {t}/32 per quarter"
  | .keySignature _ _ => str s!"KeySignature           {names.getD 0 ""}"
  | .sequencerSpecific _ data => str s!"SequencerSpecificEvent {names.getD 1 ""}, " ++ hexDisplay data
  | .noteOff ch _ v => channelShown "NoteOff" ch ++ str s!"note:{names.getD 0 ""}, velocity:{v}"
  | .noteOn ch _ v => channelShown "NoteOn" ch ++ str s!"note:{names.getD 0 ""}, velocity:{v}"
  | .polyPressure ch _ p => channelShown "PolyphonicPressure" ch ++ str s!"pressure:{p}"
  | .controller ch id v => channelShown "Controller" ch ++ str s!"{id}/{names.getD 0 ""}, value:{v}"
  | .program ch p => channelShown "ProgramChange" ch ++ str s!"bank:{bank.getD 0}, program:{p}"
  | .channelPressure ch p => channelShown "ChannelPressure" ch ++ str s!"pressure:{p}"
  | .pitchBend ch b => channelShown "PitchBend" ch ++ str s!"bend:{b}"
  | .sysex _ data _ => str s!"SysExMessage           {names.getD 1 ""}, " ++ hexDisplay data
  | .continuation data => str "SysExContinuation      " ++ hexDisplay data
  | .escape data => str "SysExEscape            " ++ hexDisplay data

/-- The line of an event.  The bytes after the delta time start in the same place for all delta times of up to three bytes. -/
def eventRow (e : Entry) : List UInt8 :=
  bytesColumn 42 (3 * (3 - deltaBytes e.bytes)) e.bytes ++ str "  tick:" ++ filled 9 (str (toString e.tick)) ++ str "  delta:" ++
    filled 9 (str (toString e.delta)) ++ str "  " ++ hexDisplay [UInt8.ofNat ((metaTypeOf e.content).getD (statusByteOf e.content))] ++ str " " ++
    fieldsShown e.names e.bank e.content

/-- The lines of a track. -/
def trackRows (t : TrackEntry) : List (List UInt8) :=
  [] :: (bytesColumn 24 0 t.bytes ++ str "  MTrk " ++ filled 2 (str (toString t.number)) ++ str s!" length:{t.length}") :: t.events.map eventRow

/-- The line of the header. -/
def headerRow (h : Header) : List UInt8 :=
  bytesColumn 42 0 h.chunk.bytes ++ str s!"  MThd length:6, format:{h.format}, tracks:{h.tracks}, " ++
    if h.division < 32768 then str s!"metrical time:{h.division} ppqn"
    else str s!"SMPTE:{((frameRate (h.division / 256)).getD (0, false)).1} fps,{h.division % 256} sub-frames"

/-- Lines, each with a newline at its end. -/
def lineTexts (ls : List (List UInt8)) : List UInt8 := ls.flatMap (· ++ [10])

/-- The text of a file. -/
def disassembled (h : Header) (ts : List TrackEntry) : List UInt8 := lineTexts (headerRow h :: ts.flatMap trackRows)

end Spec
