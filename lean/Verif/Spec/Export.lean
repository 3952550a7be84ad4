import Verif.Spec.Decoded

/-!
The JSON document exported for a file, line by line.
-/

namespace Spec
open Midiasm

/-! ### Strings -/

/-- The lower case hexadecimal digits of a number below 65536. -/
def hexDigits (n : Nat) : String :=
  String.ofList ([n / 4096, n / 256 % 16, n / 16 % 16, n % 16].map fun d => "0123456789abcdef".toList.getD d '0')

/-- A character of a string: control characters, quotes, backslashes and characters that mean something in HTML or JavaScript are escaped. -/
def escaped (c : Char) : String :=
  if c = '"' then "\\\"" else if c = '\\' then "\\\\"
  else if c.val = 8 then "\\b" else if c.val = 12 then "\\f" else if c = '\n' then "\\n" else if c = '\r' then "\\r" else if c = '\t' then "\\t"
  else if c.val < 32 ∨ c ∈ ['<', '>', '&', '\u2028', '\u2029'] then "\\u" ++ hexDigits c.val.toNat
  else String.singleton c

/-- The characters of a text, escaped. -/
def escapedText (s : String) : String := String.join (s.toList.map escaped)

/-- How the bytes of a text are shown between quotes: as UTF-8, a byte that no character starts with as the escape of the replacement
character. -/
inductive Quoted : List UInt8 → String → Prop
  | done : Quoted [] ""
  | char (c : Char) (s : List UInt8) (t : String) : Quoted s t → Quoted (String.utf8EncodeChar c ++ s) (escaped c ++ t)
  | bad (b : UInt8) (s : List UInt8) (t : String) : (∀ c, ¬ String.utf8EncodeChar c <+: b :: s) → Quoted s t → Quoted (b :: s) ("\\ufffd" ++ t)

/-! ### Lines -/

/-- A value of one line. -/
abbrev one (s : String) : List String := [s]

/-- A comma after the last line. -/
def withComma : List String → List String
  | [] => []
  | [l] => [l ++ ","]
  | l :: ls => l :: withComma ls

/-- The lines of several values, commas between. -/
def listed : List (List String) → List String
  | [] => []
  | [v] => v
  | v :: vs => withComma v ++ listed vs

/-- The lines of values in brackets. -/
def bracketed (left right : String) : List (List String) → List String
  | [] => [left ++ right]
  | vs => [left] ++ (listed vs).map ("  " ++ ·) ++ [right]

/-- The lines of a member of an object. -/
def memberLines (m : String × List String) : List String :=
  match m.2 with
  | [] => []
  | l :: ls => ("\"" ++ m.1 ++ "\": " ++ l) :: ls

/-- An array. -/
def arrayLines (vs : List (List String)) : List String := bracketed "[" "]" vs

/-- An object. -/
def objectLines (ms : List (String × List String)) : List String := bracketed "{" "}" (ms.map memberLines)

/-- A number. -/
def numberLines (n : Nat) : List String := [toString n]

/-- A text. -/
def textLines (s : String) : List String := ["\"" ++ escapedText s ++ "\""]

/-- A truth value. -/
def boolLines (b : Bool) : List String := [if b then "true" else "false"]

/-- Bytes: an array of numbers. -/
def bytesLines (bs : List UInt8) : List String := arrayLines (bs.map fun b => numberLines b.toNat)

/-! ### Events -/

/-- The tag of an event. -/
def tagOf : Content → String
  | .sequenceNumber _ => "SequenceNumber"
  | .text t _ => ["", "Text", "Copyright", "TrackName", "InstrumentName", "Lyric", "Marker", "CuePoint", "ProgramName", "DeviceName"].getD t ""
  | .channelPrefix _ => "MIDIChannelPrefix"
  | .port _ => "MIDIPort"
  | .endOfTrack => "EndOfTrack"
  | .tempo _ => "Tempo"
  | .smpteOffset .. => "SMPTEOffset"
  | .timeSignature .. => "TimeSignature"
  | .keySignature .. => "KeySignature"
  | .sequencerSpecific .. => "SequencerSpecificEvent"
  | .noteOff .. => "NoteOff"
  | .noteOn .. => "NoteOn"
  | .polyPressure .. => "PolyphonicPressure"
  | .controller .. => "Controller"
  | .program .. => "ProgramChange"
  | .channelPressure .. => "ChannelPressure"
  | .pitchBend .. => "PitchBend"
  | .sysex .. => "SysExMessage"
  | .continuation _ => "SysExContinuation"
  | .escape _ => "SysExEscape"

/-- The type of a meta event. -/
def metaTypeOf : Content → Option Nat
  | .sequenceNumber _ => some 0
  | .text t _ => some t
  | .channelPrefix _ => some 0x20
  | .port _ => some 0x21
  | .endOfTrack => some 0x2f
  | .tempo _ => some 0x51
  | .smpteOffset .. => some 0x54
  | .timeSignature .. => some 0x58
  | .keySignature .. => some 0x59
  | .sequencerSpecific .. => some 0x7f
  | _ => none

/-- The status byte of an event. -/
def statusByteOf : Content → Nat
  | .noteOff ch _ _ => 0x80 + ch
  | .noteOn ch _ _ => 0x90 + ch
  | .polyPressure ch _ _ => 0xa0 + ch
  | .controller ch _ _ => 0xb0 + ch
  | .program ch _ => 0xc0 + ch
  | .channelPressure ch _ => 0xd0 + ch
  | .pitchBend ch _ => 0xe0 + ch
  | .sysex .. => 0xf0
  | .continuation _ => 0xf7
  | .escape _ => 0xf7
  | _ => 0xff

/-- A manufacturer. -/
def makerObject (id : List UInt8) (names : List String) : List String :=
  objectLines [("id", bytesLines id), ("region", textLines (names.getD 0 "")), ("name", textLines (names.getD 1 ""))]

/-- A note. -/
def noteObject (n : Nat) (names : List String) : List String :=
  objectLines [("value", numberLines n), ("name", textLines (names.getD 0 "")), ("alias", textLines (names.getD 1 ""))]

/-- The members that depend on the kind of the event.  Texts between quotes are as `q` tells. -/
def fieldsOf (q : List UInt8 → String) (names : List String) (bank : Option Nat) : Content → List (String × List String)
  | .sequenceNumber n => [("sequence-number", numberLines n)]
  | .text t s => [(["", "text", "copyright", "name", "name", "lyric", "marker", "cuepoint", "name", "name"].getD t "", one ("\"" ++ q s ++ "\""))]
  | .channelPrefix ch => [("channel", numberLines ch)]
  | .port p => [("port", numberLines p)]
  | .endOfTrack => []
  | .tempo t => [("tempo", numberLines t)]
  | .smpteOffset h m s r f ff =>
    [("hour", numberLines h), ("minute", numberLines m), ("second", numberLines s), ("frame-rate", numberLines r), ("frames", numberLines f),
      ("fractional-frames", numberLines ff)]
  | .timeSignature n d c t =>
    [("numerator", numberLines n), ("denominator", numberLines d), ("ticks-per-click", numberLines c),
      ("thirty-seconds-per-quarter", numberLines t)]
  | .keySignature a k => [("accidentals", one (toString a)), ("key-type", numberLines k), ("key", textLines (names.getD 0 ""))]
  | .sequencerSpecific id data => [("manufacturer", makerObject id names), ("data", bytesLines data)]
  | .noteOff ch n v => [("channel", numberLines ch), ("note", noteObject n names), ("velocity", numberLines v)]
  | .noteOn ch n v => [("channel", numberLines ch), ("note", noteObject n names), ("velocity", numberLines v)]
  | .polyPressure ch _ p => [("channel", numberLines ch), ("pressure", numberLines p)]
  | .controller ch id v =>
    [("channel", numberLines ch), ("controller", objectLines [("id", numberLines id), ("name", textLines (names.getD 0 ""))]),
      ("value", numberLines v)]
  | .program ch p => [("channel", numberLines ch), ("bank", numberLines (bank.getD 0)), ("program", numberLines p)]
  | .channelPressure ch p => [("channel", numberLines ch), ("pressure", numberLines p)]
  | .pitchBend ch b => [("channel", numberLines ch), ("bend", numberLines b)]
  | .sysex id data t => [("manufacturer", makerObject id names), ("data", bytesLines data), ("single", boolLines t)]
  | .continuation data => [("data", bytesLines data), ("end", boolLines false)]
  | .escape data => [("data", bytesLines data)]

/-- An event. -/
def eventObject (q : List UInt8 → String) (e : Entry) : List String :=
  objectLines [("event", objectLines ([("tag", textLines (tagOf e.content)), ("delta", numberLines e.delta),
    ("status", numberLines (statusByteOf e.content))] ++
    (match metaTypeOf e.content with
      | some t => [("type", numberLines t)]
      | none => []) ++ fieldsOf q e.names e.bank e.content))]

/-! ### Documents -/

/-- A track. -/
def trackObject (q : List UInt8 → String) (t : TrackEntry) : List String :=
  objectLines [("tag", textLines "MTrk"), ("track-number", numberLines t.number), ("events", arrayLines (t.events.map (eventObject q)))]

/-- The header. -/
def headerObject (h : Header) : List String :=
  objectLines ([("Tag", textLines "MThd"), ("Length", numberLines 6), ("Format", numberLines h.format), ("Tracks", numberLines h.tracks),
    ("Division", numberLines h.division)] ++
    (if h.division < 32768 then
      [("PPQN", numberLines h.division), ("SMPTETimeCode", boolLines false), ("SubFrames", numberLines 0), ("FPS", numberLines 0),
        ("DropFrame", boolLines false)]
    else
      [("PPQN", numberLines 0), ("SMPTETimeCode", boolLines true), ("SubFrames", numberLines (h.division % 256)),
        ("FPS", numberLines (((frameRate (h.division / 256)).getD (0, false)).1)),
        ("DropFrame", boolLines (((frameRate (h.division / 256)).getD (0, false)).2))]))

/-- The exported document. -/
def documentLines (q : List UInt8 → String) (h : Header) (ts : List TrackEntry) : List String :=
  objectLines [("header", headerObject h), ("tracks", if ts = [] then one "null" else arrayLines (ts.map (trackObject q)))]

end Spec
