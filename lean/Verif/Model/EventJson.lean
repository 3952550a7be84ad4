import Verif.Model.Json
import Verif.Model.Event

/-!
Events to and from JSON: `MarshalJSON` and `UnmarshalJSON` (midi/events, midi/events/meta, midi/events/midi, midi/events/sysex, midi/lib).
-/

namespace Midiasm

/-! ### MarshalJSON -/

/-- `Hex.MarshalJSON` (midi/lib/hex.go:35-42). -/
def hexToJson (bytes : Bytes) : Json := .arr (bytes.map fun b => jnum b.toNat)

/-- `Manufacturer.MarshalJSON` (midi/lib/manufacturer.go:17-34). -/
def manufacturerToJson (m : Lib.Manufacturer) : Json :=
  jobj [("id", .arr (m.id.map fun b => jnum b.toNat)), ("region", jstr (str m.region)), ("name", jstr (str m.name))]

/-- `midievent.Note` (midi/events/midi/midievent.go:28-32). -/
def noteToJson (n : NoteVal) : Json :=
  jobj [("value", jnum n.value.toNat), ("name", jstr (str n.name)), ("alias", jstr (str n.alias))]

/-- `lib.Controller` (midi/lib/controller.go:3-6). -/
def controllerToJson (c : Lib.Controller) : Json := jobj [("id", jnum c.id.toNat), ("name", jstr (str c.name))]

/-- The name of the member with the text (copyright.go:85, cue_point.go:86, device_name.go:85, instrument_name.go:86, lyric.go:92,
marker.go:86, program_name.go:86, text.go:87, track_name.go:102 in midi/events/meta). -/
def TextKind.field : TextKind → String
  | .text => "text"
  | .copyright => "copyright"
  | .trackName => "name"
  | .instrumentName => "name"
  | .lyric => "lyric"
  | .marker => "marker"
  | .cuePoint => "cuepoint"
  | .programName => "name"
  | .deviceName => "name"

/-- The members after `tag`, `delta`, `status` and `type` of each event (`MarshalJSON` in sequence_number.go:90-106,
midi_channel_prefix.go:98-114, midi_port.go:101-117, tempo.go:109-125, smpte_offset.go:238-264, time_signature.go:140-162,
key_signature.go:181-201, sequencer_specific.go:126-144, note_off.go:190-208, note_on.go:130-148, polyphonic_pressure.go:105-121,
controller.go:109-127, program_change.go:104-122, channel_pressure.go:113-129, pitch_bend.go:109-125, message.go:145-163,
continuation_message.go:125-141, escape_message.go:88-102 and the text-like events).  `bad` is what becomes of a byte of a text that is not
UTF-8. -/
def Body.membersWith (bad : Nat) : Body → List (String × Json)
  | .sequenceNumber n => [("sequence-number", jnum n.toNat)]
  | .text k s => [(k.field, jstrWith bad s)]
  | .midiChannelPrefix ch => [("channel", jnum ch.toNat)]
  | .midiPort p => [("port", jnum p.toNat)]
  | .endOfTrack => []
  | .tempo t => [("tempo", jnum t.toNat)]
  | .smpteOffset h m s r f ff =>
      [("hour", jnum h.toNat), ("minute", jnum m.toNat), ("second", jnum s.toNat), ("frame-rate", jnum r.toNat), ("frames", jnum f.toNat),
        ("fractional-frames", jnum ff.toNat)]
  | .timeSignature n d c t =>
      [("numerator", jnum n.toNat), ("denominator", jnum d.toNat), ("ticks-per-click", jnum c.toNat),
        ("thirty-seconds-per-quarter", jnum t.toNat)]
  | .keySignature a k key => [("accidentals", jint a.toInt), ("key-type", jnum k.toNat), ("key", jstr (str key))]
  | .sequencerSpecific m d => [("manufacturer", manufacturerToJson m), ("data", hexToJson d)]
  | .noteOff ch n v => [("channel", jnum ch.toNat), ("note", noteToJson n), ("velocity", jnum v.toNat)]
  | .noteOn ch n v => [("channel", jnum ch.toNat), ("note", noteToJson n), ("velocity", jnum v.toNat)]
  | .polyphonicPressure ch p => [("channel", jnum ch.toNat), ("pressure", jnum p.toNat)]
  | .controller ch c v => [("channel", jnum ch.toNat), ("controller", controllerToJson c), ("value", jnum v.toNat)]
  | .programChange ch b p => [("channel", jnum ch.toNat), ("bank", jnum b.toNat), ("program", jnum p.toNat)]
  | .channelPressure ch p => [("channel", jnum ch.toNat), ("pressure", jnum p.toNat)]
  | .pitchBend ch b => [("channel", jnum ch.toNat), ("bend", jnum b.toNat)]
  | .sysExMessage m d s => [("manufacturer", manufacturerToJson m), ("data", hexToJson d), ("single", .bool s)]
  | .sysExContinuation d e => [("data", hexToJson d), ("end", .bool e)]
  | .sysExEscape d => [("data", hexToJson d)]

/-- The members as a reader of the text sees them: bytes that are not UTF-8 are replaced. -/
def Body.members (b : Body) : List (String × Json) := b.membersWith runeError

/-- The events with a `type` member: the meta events. -/
def Body.isMeta : Body → Bool
  | .noteOff .. => false
  | .noteOn .. => false
  | .polyphonicPressure .. => false
  | .controller .. => false
  | .programChange .. => false
  | .channelPressure .. => false
  | .pitchBend .. => false
  | .sysExMessage .. => false
  | .sysExContinuation .. => false
  | .sysExEscape .. => false
  | _ => true

/-- `MarshalJSON` of every event type. -/
def eventToJsonWith (bad : Nat) (e : Event) : Json :=
  jobj ([("tag", jstr (str e.body.tag)), ("delta", jnum e.delta.toNat), ("status", jnum e.body.status.toNat)] ++
    (if e.body.isMeta then [("type", jnum e.body.metaType.toNat)] else []) ++ e.body.membersWith bad)

/-- The event as a reader of the text sees it. -/
def eventToJson (e : Event) : Json := eventToJsonWith runeError e

/-! ### UnmarshalJSON -/

/-- A `uint8` field. -/
def byteField (name : String) (j : Json) : Outcome UInt8 := do
  let v ← field (uintJson 8) name 0 j
  .ok (UInt8.ofNat v)

/-- A `uint16` field. -/
def shortField (name : String) (j : Json) : Outcome UInt16 := do
  let v ← field (uintJson 16) name 0 j
  .ok (UInt16.ofNat v)

/-- `Channel.UnmarshalJSON` (midi/lib/channel.go:48-60). -/
def channelJson (_ : UInt8) (j : Json) : Outcome UInt8 := do
  let v ← uintJson 64 0 j
  if v > 15 then .err .other else .ok (UInt8.ofNat v)

/-- A `[]uint` cut to bytes. -/
def bytesJson (j : Json) : Outcome Bytes := do
  let v ← sliceJson (uintJson 64) 0 ⟨[], []⟩ j
  .ok (v.els.map UInt8.ofNat)

/-- `Hex.UnmarshalJSON` (midi/lib/hex.go:44-58). -/
def hexJson (_ : Bytes) (j : Json) : Outcome Bytes := bytesJson j

/-- `Manufacturer.UnmarshalJSON` (midi/lib/manufacturer.go:36-53): region and name are those of the table. -/
def manufacturerJson (_ : Lib.Manufacturer) (j : Json) : Outcome Lib.Manufacturer := do
  let id ← field (sliceJson (uintJson 64) 0) "id" ⟨[], []⟩ j
  .ok (Lib.lookupManufacturer (id.els.map UInt8.ofNat))

/-- The zero `Manufacturer`. -/
def noManufacturer : Lib.Manufacturer := ⟨[], "", ""⟩

/-- The value of a `midievent.Note` (midi/events/midi/midievent.go:28-32); name and alias must be strings but are not used. -/
def noteJson (cur : UInt8) (j : Json) : Outcome UInt8 := do
  let v ← field (uintJson 8) "value" cur.toNat j
  let _ ← field stringJson "name" [] j
  let _ ← field stringJson "alias" [] j
  .ok (UInt8.ofNat v)

/-- A `lib.Controller` (midi/lib/controller.go:3-6).  Simplification: the name, which is displayed only, is looked up in the table instead
of being taken from the JSON value. -/
def controllerJson (cur : Lib.Controller) (j : Json) : Outcome Lib.Controller := do
  let v ← field (uintJson 8) "id" cur.id.toNat j
  let _ ← field stringJson "name" [] j
  .ok (Lib.lookupController (UInt8.ofNat v))

/-- `tag` and `delta` of the event, and the test of the tag. -/
def prologueJson (tag : String) (j : Json) : Outcome UInt32 := do
  let t ← field stringJson "tag" [] j
  let d ← field (uintJson 32) "delta" 0 j
  if t ≠ str tag then .err .other else .ok (UInt32.ofNat d)

/-- `UnmarshalJSON` of the text-like events (copyright.go:97-113, cue_point.go:98-114, device_name.go:97-113, instrument_name.go:98-114,
lyric.go:104-126, marker.go:98-114, program_name.go:98-114, text.go:99-115, track_name.go:114-130 in midi/events/meta). -/
def jsonText (k : TextKind) (j : Json) : Outcome (UInt32 × Body) := do
  let delta ← prologueJson k.tag j
  let s ← field stringJson k.field [] j
  .ok (delta, .text k s)

/-- midi/events/meta/sequence_number.go:108-124. -/
def jsonSequenceNumber (j : Json) : Outcome (UInt32 × Body) := do
  let delta ← prologueJson "SequenceNumber" j
  let n ← shortField "sequence-number" j
  .ok (delta, .sequenceNumber n)

/-- midi/events/meta/midi_channel_prefix.go:116-134. -/
def jsonMIDIChannelPrefix (j : Json) : Outcome (UInt32 × Body) := do
  let delta ← prologueJson "MIDIChannelPrefix" j
  let ch ← byteField "channel" j
  if ch > 15 then .err .other else .ok (delta, ← makeMIDIChannelPrefix ch)

/-- midi/events/meta/midi_port.go:119-137. -/
def jsonMIDIPort (j : Json) : Outcome (UInt32 × Body) := do
  let delta ← prologueJson "MIDIPort" j
  let port ← byteField "port" j
  if port > 127 then .err .other else .ok (delta, ← makeMIDIPort port)

/-- midi/events/meta/end_of_track.go:88-103. -/
def jsonEndOfTrack (j : Json) : Outcome (UInt32 × Body) := do
  let delta ← prologueJson "EndOfTrack" j
  .ok (delta, .endOfTrack)

/-- midi/events/meta/tempo.go:127-143. -/
def jsonTempo (j : Json) : Outcome (UInt32 × Body) := do
  let delta ← prologueJson "Tempo" j
  let t ← field (uintJson 32) "tempo" 0 j
  .ok (delta, .tempo (UInt32.ofNat t))

/-- midi/events/meta/smpte_offset.go:266-287. -/
def jsonSMPTEOffset (j : Json) : Outcome (UInt32 × Body) := do
  let delta ← prologueJson "SMPTEOffset" j
  let hour ← byteField "hour" j
  let minute ← byteField "minute" j
  let second ← byteField "second" j
  let rate ← byteField "frame-rate" j
  let frames ← byteField "frames" j
  let fractions ← byteField "fractional-frames" j
  .ok (delta, ← makeSMPTEOffset hour minute second rate frames fractions)

/-- midi/events/meta/time_signature.go:164-190. -/
def jsonTimeSignature (j : Json) : Outcome (UInt32 × Body) := do
  let delta ← prologueJson "TimeSignature" j
  let num ← byteField "numerator" j
  let den ← byteField "denominator" j
  let ticks ← byteField "ticks-per-click" j
  let beats ← byteField "thirty-seconds-per-quarter" j
  .ok (delta, ← makeTimeSignature num den ticks beats)

/-- midi/events/meta/key_signature.go:203-220. -/
def jsonKeySignature (j : Json) : Outcome (UInt32 × Body) := do
  let delta ← prologueJson "KeySignature" j
  let accidentals ← field int8Json "accidentals" 0 j
  let keyType ← byteField "key-type" j
  .ok (delta, ← makeKeySignature (Int8.ofInt accidentals) keyType)

/-- midi/events/meta/sequencer_specific.go:146-171. -/
def jsonSequencerSpecific (j : Json) : Outcome (UInt32 × Body) := do
  let delta ← prologueJson "SequencerSpecificEvent" j
  let m ← field manufacturerJson "manufacturer" noManufacturer j
  let data ← field hexJson "data" [] j
  .ok (delta, .sequencerSpecific m data)

/-- midi/events/midi/note_off.go:210-240: the note is named without a context. -/
def jsonNoteOff (mc : MiddleC) (j : Json) : Outcome (UInt32 × Body) := do
  let delta ← prologueJson "NoteOff" j
  let ch ← field channelJson "channel" 0 j
  let n ← field noteJson "note" 0 j
  let velocity ← byteField "velocity" j
  .ok (delta, .noteOff ch ⟨n, formatNoteNil mc n, formatNoteNil mc n⟩ velocity)

/-- midi/events/midi/note_on.go:150-175. -/
def jsonNoteOn (mc : MiddleC) (j : Json) : Outcome (UInt32 × Body) := do
  let delta ← prologueJson "NoteOn" j
  let ch ← field channelJson "channel" 0 j
  let n ← field noteJson "note" 0 j
  let velocity ← byteField "velocity" j
  .ok (delta, ← makeNoteOn ch ⟨n, formatNoteNil mc n, formatNoteNil mc n⟩ velocity)

/-- midi/events/midi/polyphonic_pressure.go:123-140. -/
def jsonPolyphonicPressure (j : Json) : Outcome (UInt32 × Body) := do
  let delta ← prologueJson "PolyphonicPressure" j
  let ch ← field channelJson "channel" 0 j
  let pressure ← byteField "pressure" j
  .ok (delta, ← makePolyphonicPressure ch pressure)

/-- midi/events/midi/controller.go:129-147. -/
def jsonController (j : Json) : Outcome (UInt32 × Body) := do
  let delta ← prologueJson "Controller" j
  let ch ← field channelJson "channel" 0 j
  let c ← field controllerJson "controller" ⟨0, ""⟩ j
  let value ← byteField "value" j
  .ok (delta, ← makeController ch c value)

/-- midi/events/midi/program_change.go:124-142. -/
def jsonProgramChange (j : Json) : Outcome (UInt32 × Body) := do
  let delta ← prologueJson "ProgramChange" j
  let ch ← field channelJson "channel" 0 j
  let bank ← shortField "bank" j
  let program ← byteField "program" j
  .ok (delta, ← makeProgramChange ch bank program)

/-- midi/events/midi/channel_pressure.go:131-148. -/
def jsonChannelPressure (j : Json) : Outcome (UInt32 × Body) := do
  let delta ← prologueJson "ChannelPressure" j
  let ch ← field channelJson "channel" 0 j
  let pressure ← byteField "pressure" j
  .ok (delta, ← makeChannelPressure ch pressure)

/-- midi/events/midi/pitch_bend.go:127-144. -/
def jsonPitchBend (j : Json) : Outcome (UInt32 × Body) := do
  let delta ← prologueJson "PitchBend" j
  let ch ← field channelJson "channel" 0 j
  let bend ← shortField "bend" j
  .ok (delta, ← makePitchBend ch bend)

/-- midi/events/sysex/message.go:165-191. -/
def jsonSysExMessage (j : Json) : Outcome (UInt32 × Body) := do
  let delta ← prologueJson "SysExMessage" j
  let m ← field manufacturerJson "manufacturer" noManufacturer j
  let data ← field hexJson "data" [] j
  let single ← field boolJson "single" false j
  .ok (delta, .sysExMessage m data single)

/-- midi/events/sysex/continuation_message.go:143-160: `end` must be a boolean but is not used. -/
def jsonSysExContinuation (j : Json) : Outcome (UInt32 × Body) := do
  let delta ← prologueJson "SysExContinuation" j
  let data ← field hexJson "data" [] j
  let _ ← field boolJson "end" false j
  .ok (delta, .sysExContinuation data false)

/-- midi/events/sysex/escape_message.go:104-120. -/
def jsonSysExEscape (j : Json) : Outcome (UInt32 × Body) := do
  let delta ← prologueJson "SysExEscape" j
  let data ← field hexJson "data" [] j
  .ok (delta, .sysExEscape data)

/-- The cases of `Event.UnmarshalJSON` (midi/events/json.go:29-116). -/
def jsonCases (mc : MiddleC) : List (String × (Json → Outcome (UInt32 × Body))) := [
  ("SequenceNumber", jsonSequenceNumber),
  ("Text", jsonText .text),
  ("Copyright", jsonText .copyright),
  ("TrackName", jsonText .trackName),
  ("InstrumentName", jsonText .instrumentName),
  ("Lyric", jsonText .lyric),
  ("Marker", jsonText .marker),
  ("CuePoint", jsonText .cuePoint),
  ("ProgramName", jsonText .programName),
  ("DeviceName", jsonText .deviceName),
  ("MIDIChannelPrefix", jsonMIDIChannelPrefix),
  ("MIDIPort", jsonMIDIPort),
  ("Tempo", jsonTempo),
  ("TimeSignature", jsonTimeSignature),
  ("KeySignature", jsonKeySignature),
  ("SMPTEOffset", jsonSMPTEOffset),
  ("EndOfTrack", jsonEndOfTrack),
  ("SequencerSpecificEvent", jsonSequencerSpecific),
  ("NoteOff", jsonNoteOff mc),
  ("NoteOn", jsonNoteOn mc),
  ("PolyphonicPressure", jsonPolyphonicPressure),
  ("Controller", jsonController),
  ("ProgramChange", jsonProgramChange),
  ("ChannelPressure", jsonChannelPressure),
  ("PitchBend", jsonPitchBend),
  ("SysExMessage", jsonSysExMessage),
  ("SysExContinuation", jsonSysExContinuation),
  ("SysExEscape", jsonSysExEscape)]

/-- `Event.UnmarshalJSON` (midi/events/json.go:12-117): the member `event`, and the function for its tag. -/
def eventOfJson (mc : MiddleC) (j : Json) : Outcome Event := do
  let raw ← field rawJson "event" none j
  match raw with
  | none => .err .other
  | some ev => do
    let tag ← field stringJson "tag" [] ev
    match (jsonCases mc).find? (fun c => tag == str c.1) with
    | some c => do
      let (delta, body) ← c.2 ev
      .ok ⟨0, delta, [], body⟩
    | none => .err .other

end Midiasm
