import Verif.Spec.JsonCrashes
import Verif.Props.JsonFile
import Verif.Props.TextCrashes

/-!
Property C159 for JSON: exactly which JSON texts crash the assembler, and which it does not finish.
-/

set_option linter.unusedSimpArgs false

namespace Midiasm
open Spec

/-- A crash, or no end. -/
def halted {α : Type} (crash : Bool) : Outcome α := if crash then .panic else .diverge

theorem halted_ok {α : Type} (c : Bool) (a : α) : (.ok a = halted (α := α) c) ↔ False := by cases c <;> simp [halted]

theorem halted_err {α : Type} (c : Bool) (e : Err) : (.err e = halted (α := α) c) ↔ False := by cases c <;> simp [halted]

theorem halted_tame {α : Type} {o : Outcome α} (h : Tame o) (c : Bool) : (o = halted c) ↔ False := by
  cases o with
  | ok a => exact halted_ok c a
  | err e => exact halted_err c e
  | panic => exact h.elim
  | diverge => exact h.elim

theorem halted_bind {α β : Type} {o : Outcome α} {f : α → Outcome β} (c : Bool) :
    (o >>= f) = halted c ↔ o = halted c ∨ ∃ a, o = .ok a ∧ f a = halted c := by
  cases c
  · exact diverge_iff
  · exact panic_iff

theorem prologue_calm (c : Bool) (tag : String) (j : Json) : (prologueJson tag j = halted c) ↔ False := by
  unfold prologueJson
  simp only [halted_bind, halted_tame (tame_field _ _ _ _ tame_stringJson), halted_tame (tame_field _ _ _ _ (tame_uintJson 32)), false_or]
  constructor
  · rintro ⟨t, _, d, _, h⟩
    split at h
    · exact (halted_err c _).1 h
    · exact (halted_ok c _).1 h
  · exact False.elim

theorem byte_calm (c : Bool) (name : String) (j : Json) : (byteField name j = halted c) ↔ False := by
  unfold byteField
  simp [halted_bind, halted_tame (tame_field _ _ _ _ (tame_uintJson 8)), halted_ok]

theorem short_calm (c : Bool) (name : String) (j : Json) : (shortField name j = halted c) ↔ False := by
  unfold shortField
  simp [halted_bind, halted_tame (tame_field _ _ _ _ (tame_uintJson 16)), halted_ok]

theorem word_calm (c : Bool) (name : String) (cur : Nat) (j : Json) : (field (uintJson 32) name cur j = halted c) ↔ False :=
  halted_tame (tame_field _ _ _ _ (tame_uintJson 32)) c

theorem string_calm (c : Bool) (name : String) (cur : Bytes) (j : Json) : (field stringJson name cur j = halted c) ↔ False :=
  halted_tame (tame_field _ _ _ _ tame_stringJson) c

theorem bool_calm (c : Bool) (name : String) (cur : Bool) (j : Json) : (field boolJson name cur j = halted c) ↔ False :=
  halted_tame (tame_field _ _ _ _ tame_boolJson) c

theorem signed_calm (c : Bool) (name : String) (cur : Int) (j : Json) : (field int8Json name cur j = halted c) ↔ False :=
  halted_tame (tame_field _ _ _ _ tame_int8Json) c

theorem channel_calm (c : Bool) (name : String) (cur : UInt8) (j : Json) : (field channelJson name cur j = halted c) ↔ False :=
  halted_tame (tame_field _ _ _ _ tame_channelJson) c

theorem note_calm (c : Bool) (name : String) (cur : UInt8) (j : Json) : (field noteJson name cur j = halted c) ↔ False :=
  halted_tame (tame_field _ _ _ _ tame_noteJson) c

theorem controller_calm (c : Bool) (name : String) (cur : Lib.Controller) (j : Json) : (field controllerJson name cur j = halted c) ↔ False :=
  halted_tame (tame_field _ _ _ _ tame_controllerJson) c

theorem maker_calm (c : Bool) (name : String) (cur : Lib.Manufacturer) (j : Json) : (field manufacturerJson name cur j = halted c) ↔ False :=
  halted_tame (tame_field _ _ _ _ tame_manufacturerJson) c

theorem data_calm (c : Bool) (name : String) (cur : Bytes) (j : Json) : (field hexJson name cur j = halted c) ↔ False :=
  halted_tame (tame_field _ _ _ _ fun _ j => tame_bytesJson j) c

theorem raw_calm (c : Bool) (name : String) (cur : Option Json) (j : Json) : (field rawJson name cur j = halted c) ↔ False :=
  halted_tame (tame_field rawJson _ _ _ fun _ _ => by simp [rawJson, Tame]) c

/-! ### Events -/

/-- What an event must be for the assembler to crash, or never to finish. -/
def Halting (crash : Bool) (ev : Json) : Prop := if crash then CrashEvent ev else HangEvent ev

theorem made_smpte (c : Bool) (h m s r f ff : UInt8) : makeSMPTEOffset h m s r f ff = halted c ↔ c = true ∧
    ¬ (h.toNat ≤ 24 ∧ m.toNat ≤ 59 ∧ s.toNat ≤ 59 ∧ r.toNat ∈ [24, 25, 29, 30] ∧ f.toNat < r.toNat ∧ ff.toNat ≤ 100) := by
  have hm := make_smpte h m s r f ff (.smpteOffset h m s r f ff)
  have hor : makeSMPTEOffset h m s r f ff = .panic ∨ makeSMPTEOffset h m s r f ff = .ok (.smpteOffset h m s r f ff) := by
    unfold makeSMPTEOffset
    repeat' split
    all_goals simp
  rcases hor with ho | ho
  · rw [ho] at hm
    rw [ho]
    have : ¬ (h.toNat ≤ 24 ∧ m.toNat ≤ 59 ∧ s.toNat ≤ 59 ∧ r.toNat ∈ [24, 25, 29, 30] ∧ f.toNat < r.toNat ∧ ff.toNat ≤ 100) :=
      fun h => by have := hm.2 ⟨rfl, h⟩; cases this
    cases c <;> simp only [halted, if_true, this, not_false_iff, and_self, Bool.false_eq_true, if_false, false_and, reduceCtorEq]
  · have := (hm.1 ho).2
    rw [ho]
    exact ⟨fun h => ((halted_ok c _).1 h).elim, fun h => absurd this h.2⟩

theorem made_time (c : Bool) (n d t q : UInt8) : makeTimeSignature n d t q = halted c ↔ c = false ∧ 128 < d.toNat := by
  unfold makeTimeSignature
  rcases Nat.lt_or_ge 128 d.toNat with h | h
  · rw [(denomLoop_value d).2 h]
    cases c <;> simp [halted, h]
  · obtain ⟨z, hz, _⟩ := (denomLoop_value d).1 h
    rw [hz, Outcome.bind_ok]
    exact ⟨fun h => ((halted_ok c _).1 h).elim, fun h => by omega⟩

theorem made_key (c : Bool) (a : Int8) (k : UInt8) : makeKeySignature a k = halted c ↔ c = true ∧ ¬ (-7 ≤ a.toInt ∧ a.toInt ≤ 7 ∧ k.toNat ≤ 1) := by
  rcases make_key a k with ⟨⟨name, h⟩, q⟩ | ⟨h, q⟩
  · rw [h]
    exact ⟨fun h => ((halted_ok c _).1 h).elim, fun h => absurd q h.2⟩
  · rw [h]
    cases c <;> simp only [halted, if_true, q, not_false_iff, and_self, Bool.false_eq_true, if_false, false_and, reduceCtorEq]

theorem limited (c : Bool) {α : Type} (ch p : UInt8) (hc : ch.toNat ≤ 15) (a : α) :
    (if ch > 15 then Outcome.panic else if p > 127 then .panic else .ok a) = halted c ↔ c = true ∧ 127 < p.toNat := by
  rw [if_neg (by rw [gt_nat]; exact Nat.not_lt.2 hc)]
  have e : (127 : UInt8).toNat = 127 := rfl
  by_cases h : p > 127
  · rw [if_pos h]
    rw [gt_nat, e] at h
    cases c <;> simp [halted, h]
  · rw [if_neg h]
    rw [gt_nat, e] at h
    exact ⟨fun h => ((halted_ok c _).1 h).elim, fun h' => absurd h'.2 h⟩

theorem open_channel (c : Bool) {α : Type} (ch : UInt8) (hc : ch.toNat ≤ 15) (a : α) :
    (if ch > 15 then Outcome.panic else .ok a) = halted c ↔ False := by
  rw [if_neg (by rw [gt_nat]; exact Nat.not_lt.2 hc)]
  exact halted_ok c a

section Cases
variable (c : Bool) (ms : List (List Nat × Json))

theorem eventOf_iff (tag : String) : EventOf tag (.obj ms) ↔ ∃ delta, prologueJson tag (.obj ms) = .ok delta := by
  unfold EventOf
  simp only [prologue_iff]
  exact ⟨fun ⟨h, d, hd⟩ => ⟨d, h, hd⟩, fun ⟨d, h, hd⟩ => ⟨h, d, hd⟩⟩

theorem halts_text (k : TextKind) : jsonText k (.obj ms) = halted c ↔ False := by
  simp [jsonText, halted_bind, prologue_calm, string_calm, halted_ok]

theorem halts_sequenceNumber : jsonSequenceNumber (.obj ms) = halted c ↔ False := by
  simp [jsonSequenceNumber, halted_bind, prologue_calm, short_calm, halted_ok]

theorem halts_prefix : jsonMIDIChannelPrefix (.obj ms) = halted c ↔ False := by
  simp only [jsonMIDIChannelPrefix, halted_bind, prologue_calm, byte_calm, halted_ok, false_or, iff_false]
  rintro ⟨_, _, ch, _, h⟩
  split at h
  · exact (halted_err c _).1 h
  · rename_i hc
    rw [makeMIDIChannelPrefix, if_neg hc] at h
    exact (halted_ok c _).1 h

theorem halts_port : jsonMIDIPort (.obj ms) = halted c ↔ False := by
  simp only [jsonMIDIPort, halted_bind, prologue_calm, byte_calm, halted_ok, false_or, iff_false]
  rintro ⟨_, _, ch, _, h⟩
  split at h
  · exact (halted_err c _).1 h
  · rename_i hc
    rw [makeMIDIPort, if_neg hc] at h
    exact (halted_ok c _).1 h

theorem halts_end : jsonEndOfTrack (.obj ms) = halted c ↔ False := by
  simp [jsonEndOfTrack, halted_bind, prologue_calm, halted_ok]

theorem halts_tempo : jsonTempo (.obj ms) = halted c ↔ False := by
  simp [jsonTempo, halted_bind, prologue_calm, word_calm, halted_ok]

theorem halts_offset : jsonSMPTEOffset (.obj ms) = halted c ↔ c = true ∧ EventOf "SMPTEOffset" (.obj ms) ∧ ∃ h m s r f ff : UInt8,
    NumberIn 256 "hour" (.obj ms) h.toNat ∧ NumberIn 256 "minute" (.obj ms) m.toNat ∧
    NumberIn 256 "second" (.obj ms) s.toNat ∧ NumberIn 256 "frame-rate" (.obj ms) r.toNat ∧ NumberIn 256 "frames" (.obj ms) f.toNat ∧
    NumberIn 256 "fractional-frames" (.obj ms) ff.toNat ∧
    ¬ (h.toNat ≤ 24 ∧ m.toNat ≤ 59 ∧ s.toNat ≤ 59 ∧ r.toNat ∈ [24, 25, 29, 30] ∧ f.toNat < r.toNat ∧ ff.toNat ≤ 100) := by
  simp only [jsonSMPTEOffset, halted_bind, prologue_calm, byte_calm, halted_ok, false_or, made_smpte, member_byte, and_false, exists_false, or_false,
    eventOf_iff]
  constructor
  · rintro ⟨d, h0, h, h1, m, h2, s, h3, r, h4, f, h5, ff, h6, hc, h7⟩
    exact ⟨hc, ⟨d, h0⟩, h, m, s, r, f, ff, h1, h2, h3, h4, h5, h6, h7⟩
  · rintro ⟨hc, ⟨d, h0⟩, h, m, s, r, f, ff, h1, h2, h3, h4, h5, h6, h7⟩
    exact ⟨d, h0, h, h1, m, h2, s, h3, r, h4, f, h5, ff, h6, hc, h7⟩

theorem halts_time : jsonTimeSignature (.obj ms) = halted c ↔ c = false ∧ HangEvent (.obj ms) := by
  unfold HangEvent
  simp only [jsonTimeSignature, halted_bind, prologue_calm, byte_calm, halted_ok, false_or, made_time, member_byte, and_false, exists_false, or_false,
    eventOf_iff]
  constructor
  · rintro ⟨d, h0, n, h1, m, h2, s, h3, r, h4, hc, h5⟩
    exact ⟨hc, ⟨d, h0⟩, n, m, s, r, h1, h2, h3, h4, h5⟩
  · rintro ⟨hc, ⟨d, h0⟩, n, m, s, r, h1, h2, h3, h4, h5⟩
    exact ⟨d, h0, n, h1, m, h2, s, h3, r, h4, hc, h5⟩

theorem halts_key : jsonKeySignature (.obj ms) = halted c ↔ c = true ∧ EventOf "KeySignature" (.obj ms) ∧ ∃ (a : Int8) (k : UInt8),
    MembersSay SignedByte 0 (valuesOf "accidentals" (.obj ms)) a.toInt ∧ NumberIn 256 "key-type" (.obj ms) k.toNat ∧
    ¬ (-7 ≤ a.toInt ∧ a.toInt ≤ 7 ∧ k.toNat ≤ 1) := by
  simp only [jsonKeySignature, halted_bind, prologue_calm, byte_calm, signed_calm, halted_ok, false_or, made_key, member_byte, and_false, exists_false,
    or_false, eventOf_iff, ← member_signed]
  constructor
  · rintro ⟨d, h0, v, h1, k, h2, hc, h3⟩
    exact ⟨hc, ⟨d, h0⟩, _, k, ⟨v, h1, rfl⟩, h2, h3⟩
  · rintro ⟨hc, ⟨d, h0⟩, _, k, ⟨v, h1, rfl⟩, h2, h3⟩
    exact ⟨d, h0, v, h1, k, h2, hc, h3⟩

theorem halts_sequencer : jsonSequencerSpecific (.obj ms) = halted c ↔ False := by
  simp [jsonSequencerSpecific, halted_bind, prologue_calm, maker_calm, data_calm, halted_ok]

theorem halts_noteOff (mc : MiddleC) : jsonNoteOff mc (.obj ms) = halted c ↔ False := by
  simp [jsonNoteOff, halted_bind, prologue_calm, channel_calm, note_calm, byte_calm, halted_ok]

theorem halts_noteOn (mc : MiddleC) : jsonNoteOn mc (.obj ms) = halted c ↔ c = true ∧ EventOf "NoteOn" (.obj ms) ∧ ∃ ch n v : UInt8,
    LastSays ChannelIs 0 (valuesOf "channel" (.obj ms)) ch ∧ NoteIs (.obj ms) n ∧ NumberIn 256 "velocity" (.obj ms) v.toNat ∧ 127 < v.toNat := by
  simp only [jsonNoteOn, halted_bind, prologue_calm, channel_calm, note_calm, byte_calm, halted_ok, false_or, member_byte, and_false, exists_false,
    or_false, eventOf_iff, member_channel, member_note, makeNoteOn]
  constructor
  · rintro ⟨d, h0, ch, h1, n, h2, v, h3, h⟩
    obtain ⟨hc, h4⟩ := (limited c ch v (says_channel h1) _).1 h
    exact ⟨hc, ⟨d, h0⟩, ch, n, v, h1, h2, h3, h4⟩
  · rintro ⟨hc, ⟨d, h0⟩, ch, n, v, h1, h2, h3, h4⟩
    exact ⟨d, h0, ch, h1, n, h2, v, h3, (limited c ch v (says_channel h1) _).2 ⟨hc, h4⟩⟩

theorem halts_polyphonic : jsonPolyphonicPressure (.obj ms) = halted c ↔ c = true ∧ EventOf "PolyphonicPressure" (.obj ms) ∧ ∃ ch p : UInt8,
    LastSays ChannelIs 0 (valuesOf "channel" (.obj ms)) ch ∧ NumberIn 256 "pressure" (.obj ms) p.toNat ∧ 127 < p.toNat := by
  simp only [jsonPolyphonicPressure, halted_bind, prologue_calm, channel_calm, byte_calm, halted_ok, false_or, member_byte, and_false, exists_false,
    or_false, eventOf_iff, member_channel, makePolyphonicPressure]
  constructor
  · rintro ⟨d, h0, ch, h1, v, h3, h⟩
    obtain ⟨hc, h4⟩ := (limited c ch v (says_channel h1) _).1 h
    exact ⟨hc, ⟨d, h0⟩, ch, v, h1, h3, h4⟩
  · rintro ⟨hc, ⟨d, h0⟩, ch, v, h1, h3, h4⟩
    exact ⟨d, h0, ch, h1, v, h3, (limited c ch v (says_channel h1) _).2 ⟨hc, h4⟩⟩

theorem halts_channelPressure : jsonChannelPressure (.obj ms) = halted c ↔ c = true ∧ EventOf "ChannelPressure" (.obj ms) ∧ ∃ ch p : UInt8,
    LastSays ChannelIs 0 (valuesOf "channel" (.obj ms)) ch ∧ NumberIn 256 "pressure" (.obj ms) p.toNat ∧ 127 < p.toNat := by
  simp only [jsonChannelPressure, halted_bind, prologue_calm, channel_calm, byte_calm, halted_ok, false_or, member_byte, and_false, exists_false,
    or_false, eventOf_iff, member_channel, makeChannelPressure]
  constructor
  · rintro ⟨d, h0, ch, h1, v, h3, h⟩
    obtain ⟨hc, h4⟩ := (limited c ch v (says_channel h1) _).1 h
    exact ⟨hc, ⟨d, h0⟩, ch, v, h1, h3, h4⟩
  · rintro ⟨hc, ⟨d, h0⟩, ch, v, h1, h3, h4⟩
    exact ⟨d, h0, ch, h1, v, h3, (limited c ch v (says_channel h1) _).2 ⟨hc, h4⟩⟩

theorem halts_controller : jsonController (.obj ms) = halted c ↔ False := by
  simp only [jsonController, halted_bind, prologue_calm, channel_calm, controller_calm, byte_calm, halted_ok, false_or, and_false, exists_false,
    or_false, member_channel, makeController, iff_false]
  rintro ⟨d, _, ch, h1, _, _, v, _, h⟩
  exact (open_channel c ch (says_channel h1) _).1 h

theorem halts_program : jsonProgramChange (.obj ms) = halted c ↔ False := by
  simp only [jsonProgramChange, halted_bind, prologue_calm, channel_calm, short_calm, byte_calm, halted_ok, false_or, and_false, exists_false,
    or_false, member_channel, makeProgramChange, iff_false]
  rintro ⟨d, _, ch, h1, _, _, v, _, h⟩
  exact (open_channel c ch (says_channel h1) _).1 h

theorem halts_bend : jsonPitchBend (.obj ms) = halted c ↔ False := by
  simp only [jsonPitchBend, halted_bind, prologue_calm, channel_calm, short_calm, byte_calm, halted_ok, false_or, and_false, exists_false,
    or_false, member_channel, makePitchBend, iff_false]
  rintro ⟨d, _, ch, h1, _, _, h⟩
  exact (open_channel c ch (says_channel h1) _).1 h

theorem halts_message : jsonSysExMessage (.obj ms) = halted c ↔ False := by
  simp [jsonSysExMessage, halted_bind, prologue_calm, maker_calm, data_calm, bool_calm, halted_ok]

theorem halts_continuation : jsonSysExContinuation (.obj ms) = halted c ↔ False := by
  simp [jsonSysExContinuation, halted_bind, prologue_calm, data_calm, bool_calm, halted_ok]

theorem halts_escape : jsonSysExEscape (.obj ms) = halted c ↔ False := by
  simp [jsonSysExEscape, halted_bind, prologue_calm, data_calm, halted_ok]

end Cases

/-- Only the kinds of events named crash the assembler. -/
theorem case_halts (mc : MiddleC) (c : Bool) (ms : List (List Nat × Json)) :
    ∀ x ∈ jsonCases mc, x.2 (.obj ms) = halted c → Halting c (.obj ms) := by
  unfold jsonCases
  simp only [List.forall_mem_cons]
  refine ⟨?_, ?_, ?_, ?_, ?_, ?_, ?_, ?_, ?_, ?_, ?_, ?_, ?_, ?_, ?_, ?_, ?_, ?_, ?_, ?_, ?_, ?_, ?_, ?_, ?_, ?_, ?_, ?_, by simp⟩
  · exact fun h => ((halts_sequenceNumber c ms).1 h).elim
  iterate 9 exact fun h => ((halts_text c ms _).1 h).elim
  · exact fun h => ((halts_prefix c ms).1 h).elim
  · exact fun h => ((halts_port c ms).1 h).elim
  · exact fun h => ((halts_tempo c ms).1 h).elim
  · intro h
    obtain ⟨rfl, g⟩ := (halts_time c ms).1 h
    exact g
  · intro h
    obtain ⟨rfl, g⟩ := (halts_key c ms).1 h
    exact Or.inr (Or.inl g)
  · intro h
    obtain ⟨rfl, g⟩ := (halts_offset c ms).1 h
    exact Or.inl g
  · exact fun h => ((halts_end c ms).1 h).elim
  · exact fun h => ((halts_sequencer c ms).1 h).elim
  · exact fun h => ((halts_noteOff c ms mc).1 h).elim
  · intro h
    obtain ⟨rfl, g⟩ := (halts_noteOn c ms mc).1 h
    exact Or.inr (Or.inr (Or.inl g))
  · intro h
    obtain ⟨rfl, h1, h2⟩ := (halts_polyphonic c ms).1 h
    exact Or.inr (Or.inr (Or.inr ⟨Or.inl h1, h2⟩))
  · exact fun h => ((halts_controller c ms).1 h).elim
  · exact fun h => ((halts_program c ms).1 h).elim
  · intro h
    obtain ⟨rfl, h1, h2⟩ := (halts_channelPressure c ms).1 h
    exact Or.inr (Or.inr (Or.inr ⟨Or.inr h1, h2⟩))
  · exact fun h => ((halts_bend c ms).1 h).elim
  · exact fun h => ((halts_message c ms).1 h).elim
  · exact fun h => ((halts_continuation c ms).1 h).elim
  · exact fun h => ((halts_escape c ms).1 h).elim

/-- And they do. -/
theorem halts_case (mc : MiddleC) (c : Bool) (ms : List (List Nat × Json)) (h : Halting c (.obj ms)) :
    ∃ x ∈ jsonCases mc, MembersSay StringIs [] (valuesOf "tag" (.obj ms)) (str x.1) ∧ x.2 (.obj ms) = halted c := by
  cases c with
  | false =>
    exact ⟨("TimeSignature", jsonTimeSignature), by simp [jsonCases], h.1.1, (halts_time false ms).2 ⟨rfl, h⟩⟩
  | true =>
    rcases h with h | h | h | ⟨h | h, h'⟩
    · exact ⟨("SMPTEOffset", jsonSMPTEOffset), by simp [jsonCases], h.1.1, (halts_offset true ms).2 ⟨rfl, h⟩⟩
    · exact ⟨("KeySignature", jsonKeySignature), by simp [jsonCases], h.1.1, (halts_key true ms).2 ⟨rfl, h⟩⟩
    · exact ⟨("NoteOn", jsonNoteOn mc), by simp [jsonCases], h.1.1, (halts_noteOn true ms mc).2 ⟨rfl, h⟩⟩
    · exact ⟨("PolyphonicPressure", jsonPolyphonicPressure), by simp [jsonCases], h.1, (halts_polyphonic true ms).2 ⟨rfl, h, h'⟩⟩
    · exact ⟨("ChannelPressure", jsonChannelPressure), by simp [jsonCases], h.1, (halts_channelPressure true ms).2 ⟨rfl, h, h'⟩⟩

theorem says_members {vs : List Json} {s : Bytes} (h : MembersSay StringIs [] vs s) (hs : s ≠ []) : vs ≠ [] := by
  rintro rfl
  rcases h.2 with ⟨_, _, _, h, _⟩ | ⟨_, h⟩
  · simp at h
  · exact hs h

theorem event_halts (mc : MiddleC) (c : Bool) (w : Json) :
    eventOfJson mc w = halted c ↔ ∃ before ev, valuesOf "event" w = before ++ [ev] ∧ Halting c ev := by
  have hnonempty : ∀ x ∈ jsonCases mc, ([] == str x.1) = false := by
    unfold jsonCases
    simp only [List.forall_mem_cons, List.not_mem_nil, false_imp_iff, implies_true, and_true]
    decide +kernel
  unfold eventOfJson
  rw [halted_bind, raw_calm, false_or]
  constructor
  · rintro ⟨raw, h1, h⟩
    cases raw with
    | none => exact ((halted_err c _).1 h).elim
    | some ev =>
      obtain ⟨_, before, hb⟩ := (event_member _ _).mp h1
      simp only at h
      rw [halted_bind, string_calm, false_or] at h
      obtain ⟨tag, h2, h⟩ := h
      cases hf : (jsonCases mc).find? (fun c => tag == str c.1) with
      | none => rw [hf] at h; exact ((halted_err c _).1 h).elim
      | some x =>
        rw [hf] at h
        simp only at h
        have hm := List.mem_of_find?_eq_some hf
        have ht := List.find?_some hf
        obtain ⟨ms, rfl⟩ : ∃ ms, ev = .obj ms := by
          rcases ((members_iff _ _ _ _ _).mp h2).1 with rfl | h
          · exfalso
            injection h2 with h2
            rw [← h2, hnonempty x hm] at ht
            cases ht
          · exact h
        rcases (halted_bind c).1 h with h | ⟨_, _, h⟩
        · exact ⟨before, _, hb, case_halts mc c ms x hm h⟩
        · exact ((halted_ok c _).1 h).elim
  · rintro ⟨before, ev, hb, h⟩
    have hobj : ∃ ms, ev = .obj ms := by
      have htag : ∃ tag, MembersSay StringIs [] (valuesOf "tag" ev) (str tag) ∧ str tag ≠ [] := by
        cases c with
        | false => exact ⟨_, h.1.1, by decide +kernel⟩
        | true =>
          rcases h with h | h | h | ⟨h | h, h'⟩
          · exact ⟨_, h.1.1, by decide +kernel⟩
          · exact ⟨_, h.1.1, by decide +kernel⟩
          · exact ⟨_, h.1.1, by decide +kernel⟩
          · exact ⟨_, h.1, by decide +kernel⟩
          · exact ⟨_, h.1, by decide +kernel⟩
      obtain ⟨tag, h1, h2⟩ := htag
      have h3 := says_members h1 h2
      cases ev with
      | obj ms => exact ⟨ms, rfl⟩
      | _ => exact absurd rfl h3
    obtain ⟨ms, rfl⟩ := hobj
    obtain ⟨x, hx, h1, h2⟩ := halts_case mc c ms h
    refine ⟨some (.obj ms), (event_member w _).mpr ⟨Or.inr (values_object (after := []) hb), before, hb⟩, ?_⟩
    simp only
    rw [(member_string ms _ _).mpr h1, Outcome.bind_ok, find_case _ (cases_distinct mc) _ hx]
    simp only
    exact (halted_bind c).2 (Or.inl h2)

/-! ### Tracks -/

theorem events_halt (mc : MiddleC) (c : Bool) (l : List Json) : parseJsonEvents mc l = halted c ↔ EventsStop (Halting c) l := by
  induction l with
  | nil =>
    refine ⟨fun h => ((halted_ok c _).1 h).elim, ?_⟩
    rintro ⟨a, w, b, given, before, ev, h, _⟩
    simp at h
  | cons j l ih =>
    rw [parseJsonEvents, halted_bind, event_halts]
    simp only [halted_bind, ih, halted_ok, and_false, exists_false, or_false]
    constructor
    · rintro (⟨before, ev, h1, h2⟩ | ⟨e, he, a, w, b, given, before, ev, rfl, h2, h3, h4⟩)
      · exact ⟨[], j, l, [], before, ev, rfl, .nil, h1, h2⟩
      · exact ⟨j :: a, w, b, e :: given, before, ev, rfl, .cons (event_says he) h2, h3, h4⟩
    · rintro ⟨a, w, b, given, before, ev, h1, h2, h3, h4⟩
      cases a with
      | nil =>
        injection h1 with e1 e2
        subst e1
        exact Or.inl ⟨before, ev, h3, h4⟩
      | cons x a =>
        injection h1 with e1 e2
        subst e1
        cases h2 with
        | cons g1 g2 =>
          obtain ⟨e', he, _⟩ := event_read mc g1
          exact Or.inr ⟨e', he, a, w, b, _, before, ev, e2, g2, h3, h4⟩

/-- What the events of a track must be. -/
def HaltingEvents (c : Bool) (l : List Json) : Prop := (c = true ∧ l = []) ∨ EventsStop (Halting c) l

theorem fixups_halt (c : Bool) (es : List Event) : fixups es = halted c ↔ c = true ∧ es = [] := by
  cases es <;> cases c <;> simp [fixups, halted]

theorem events_empty (mc : MiddleC) (l : List Json) : parseJsonEvents mc l = .ok [] ↔ l = [] := by
  constructor
  · intro h
    have := (events_say h).length_eq
    exact List.length_eq_zero_iff.1 this
  · rintro rfl
    rfl

theorem mtrk_halts (mc : MiddleC) (c : Bool) (t : TrackFields) :
    parseJsonMTrk mc t = halted c ↔ t.tag = some (str "MTrk") ∧ HaltingEvents c t.events := by
  unfold parseJsonMTrk
  by_cases ht : t.tag = some (str "MTrk")
  · rw [if_neg (by simp [ht])]
    simp only [halted_bind, fixups_halt, halted_ok, and_false, exists_false, or_false, events_halt, ht, true_and, HaltingEvents]
    constructor
    · rintro (h | ⟨es, h1, h2, rfl⟩)
      · exact Or.inr h
      · exact Or.inl ⟨h2, (events_empty mc _).1 h1⟩
    · rintro (⟨h1, h2⟩ | h)
      · exact Or.inr ⟨[], (events_empty mc _).2 h2, h1, rfl⟩
      · exact Or.inl h
  · rw [if_pos ht]
    exact ⟨fun h => ((halted_err c _).1 h).elim, fun h => absurd h.1 ht⟩

theorem tracks_halt (mc : MiddleC) (c : Bool) (ts : List TrackFields) (h : MThd) (done : List MTrk) :
    parseJsonTracks mc ts h done = halted c ↔ ∃ a t b, ts = a ++ t :: b ∧ (∀ x ∈ a, ∃ m, parseJsonMTrk mc x = .ok m) ∧ parseJsonMTrk mc t = halted c := by
  induction ts generalizing h done with
  | nil =>
    refine ⟨fun h => ((halted_ok c _).1 h).elim, ?_⟩
    rintro ⟨a, w, b, h, _⟩
    simp at h
  | cons x ts ih =>
    rw [parseJsonTracks, halted_bind]
    simp only [ih]
    constructor
    · rintro (h | ⟨m, hm, a, t, b, rfl, h2, h3⟩)
      · exact ⟨[], x, ts, rfl, by simp, h⟩
      · exact ⟨x :: a, t, b, rfl, by
          intro y hy
          rcases List.mem_cons.1 hy with rfl | hy
          · exact ⟨m, hm⟩
          · exact h2 y hy, h3⟩
    · rintro ⟨a, t, b, h1, h2, h3⟩
      cases a with
      | nil =>
        injection h1 with e1 e2
        subst e1
        exact Or.inl h3
      | cons y a =>
        injection h1 with e1 e2
        subst e1
        obtain ⟨m, hm⟩ := h2 x (by simp)
        exact Or.inr ⟨m, hm, a, t, b, e2, fun z hz => h2 z (by simp [hz]), h3⟩

/-- The members of a track as they are read. -/
theorem track_members {v : Json} {t : TrackFields} (ht : trackFields ⟨none, []⟩ v = .ok t) :
    (t.tag = some (str "MTrk") ↔ ∃ before x, valuesOf "tag" v = before ++ [x] ∧ StringIs x (str "MTrk")) ∧ ∀ l, t.events = l ↔ EventsOf v l := by
  obtain ⟨_, h1, _, h3⟩ := (track_iff _ _ _).mp ht
  simp only at h1 h3
  constructor
  · constructor
    · intro h
      rw [h] at h1
      exact ((ptr_string _ _).mp h1).2
    · rintro ⟨before, x, hb, hx⟩
      rcases ((ptr_latest StringIs _ _ string_iff no_string _ _ _).mp h1).2 with ⟨b2, y, h, hy⟩ | ⟨h, _⟩
      · have := append_last (hb.symm.trans h)
        subst this
        rcases hy with ⟨rfl, _⟩ | ⟨s, hs, hts⟩
        · exact absurd hx (no_string _)
        · obtain ⟨c1, e1, e2⟩ := hx
          obtain ⟨c2, e3, e4⟩ := hs
          rw [e1] at e3
          injection e3 with e3
          subst e3
          rw [hts, e4, e2]
      · rw [h] at hb
        exact absurd (congrArg List.length hb) (by simp)
  · intro l
    rcases ((fold_latest _ _ raws_iff _ _ _).mp h3).2 with ⟨before, x, hb, ⟨rfl, h⟩ | rfl⟩ | ⟨hn, h⟩
    · rw [h]
      constructor
      · rintro rfl
        exact Or.inr ⟨rfl, Or.inr ⟨before, hb⟩⟩
      · rintro (⟨b2, h2⟩ | ⟨rfl, _⟩)
        · have := append_last (hb.symm.trans h2)
          cases this
        · rfl
    · constructor
      · rintro rfl
        exact Or.inl ⟨before, hb⟩
      · rintro (⟨b2, h2⟩ | ⟨_, h2 | ⟨b2, h2⟩⟩)
        · have := append_last (hb.symm.trans h2)
          injection this
        · rw [h2] at hb
          exact absurd (congrArg List.length hb) (by simp)
        · have := append_last (hb.symm.trans h2)
          cases this
    · rw [h]
      constructor
      · rintro rfl
        exact Or.inr ⟨rfl, Or.inl hn⟩
      · rintro (⟨b2, h2⟩ | ⟨rfl, _⟩)
        · rw [hn] at h2
          exact absurd (congrArg List.length h2) (by simp)
        · rfl

/-! ### Documents -/

theorem encode_writable (smf : SMF) (h : ∀ t ∈ smf.tracks, ∀ e ∈ t.events, e.body.Writable) : Tame (encode smf) := by
  obtain ⟨c1, c2, c3⟩ := C26_encode_errors smf
  cases hen : encode smf with
  | ok b => trivial
  | err x => trivial
  | panic => exact absurd hen c2
  | diverge =>
    exfalso
    cases hm : smf.mthd with
    | none =>
      obtain ⟨e, h⟩ := c1.mpr (by rw [hm]; simp)
      rw [hen] at h; cases h
    | some m =>
      by_cases hn : m.tracks.toNat = smf.tracks.length
      · obtain ⟨bs, hb⟩ := (c3 m hm hn).1.mpr h
        rw [hen] at hb; cases hb
      · obtain ⟨e, h⟩ := c1.mpr (by intro x hx; rw [hm] at hx; injection hx with hx; rw [← hx]; exact hn)
        rw [hen] at h; cases h

/-- The header and the tracks of a document as they are read. -/
theorem document_read (j : Json) : ((∃ f d, HeaderSays j f d) ∧ ∀ v ∈ valuesOf "tracks" j, v = .null ∨ ∃ l, v = .arr l ∧ ∀ t ∈ l, TrackLike t) ↔
    ∃ header tracks m, field headerFields "header" ⟨none, none, none⟩ j = .ok header ∧
      field (sliceJson trackFields ⟨none, []⟩) "tracks" ⟨[], []⟩ j = .ok tracks ∧ parseJsonMThd header = .ok m := by
  constructor
  · rintro ⟨⟨f, d, o1, o2, o3, o4, hv⟩, ht⟩
    have hobj : ObjectLike j := by
      obtain ⟨_, before, v, h, _⟩ := o2
      right
      cases hvs : valuesOf "header" j with
      | nil => rw [together, hvs] at h; exact absurd (congrArg List.length h) (by simp [valuesOf, membersOf])
      | cons x l => exact values_object (before := []) hvs
    have hh := (header_fold j ⟨some (str "MThd"), some f, some d⟩).mpr ⟨hobj, o1, (ptr_string _ _).mpr o2, (ptr_uint _ _).mpr o3, (ptr_uint _ _).mpr o4⟩
    obtain ⟨tracks, hs⟩ := (slices_ok trackFields ⟨none, []⟩ TrackLike track_like _ ⟨[], []⟩).mpr ht
    obtain ⟨m, hm⟩ := header_made f d hv
    exact ⟨_, tracks, m, hh, (members_iff _ _ _ _ _).mpr ⟨hobj, hs⟩, hm⟩
  · rintro ⟨header, tracks, m, hh, ht, hm⟩
    obtain ⟨_, o1, o2, o3, o4⟩ := (header_fold _ _).mp hh
    obtain ⟨m1, f, d, m2, m3, _, m4⟩ := accepted_header _ _ hm
    rw [m1, ptr_string] at o2
    rw [m2, ptr_uint] at o3
    rw [m3, ptr_uint] at o4
    have hd : d < 65536 := by
      obtain ⟨_, _, _, _, _, _, _, h⟩ := o4
      exact h
    exact ⟨⟨f, d, o1, o2, o3, o4, (m4 hd).1⟩,
      (slices_ok trackFields ⟨none, []⟩ TrackLike track_like _ _).mp ⟨tracks, ((members_iff _ _ _ _ _).mp ht).2⟩⟩

theorem forall₂_split {α β : Type} {R : α → β → Prop} {xs : List α} {a : List β} {t : β} {b : List β} (h : List.Forall₂ R xs (a ++ t :: b)) :
    ∃ a' t' b', xs = a' ++ t' :: b' ∧ List.Forall₂ R a' a ∧ R t' t := by
  induction a generalizing xs with
  | nil =>
    cases h with
    | cons h1 h2 => exact ⟨[], _, _, rfl, .nil, h1⟩
  | cons x a ih =>
    cases h with
    | cons h1 h2 =>
      obtain ⟨a', t', b', rfl, h3, h4⟩ := ih h2
      exact ⟨_ :: a', t', b', rfl, .cons h1 h3, h4⟩

theorem split_forall₂ {α β : Type} {R : α → β → Prop} {a : List α} {t : α} {b : List α} {ys : List β} (h : List.Forall₂ R (a ++ t :: b) ys) :
    ∃ a' t' b', ys = a' ++ t' :: b' ∧ List.Forall₂ R a a' ∧ R t t' := by
  induction a generalizing ys with
  | nil =>
    cases h with
    | cons h1 h2 => exact ⟨[], _, _, rfl, .nil, h1⟩
  | cons x a ih =>
    cases h with
    | cons h1 h2 =>
      obtain ⟨a', t', b', rfl, h3, h4⟩ := ih h2
      exact ⟨_ :: a', t', b', rfl, .cons h1 h3, h4⟩

theorem tracks_before (mc : MiddleC) {a : List Json} {els : List TrackFields} (hr : List.Forall₂ (fun v t => trackFields ⟨none, []⟩ v = .ok t) a els) :
    (∀ x ∈ els, ∃ m, parseJsonMTrk mc x = .ok m) ↔ ∃ ts, List.Forall₂ TrackSays a ts := by
  induction hr with
  | nil => exact ⟨fun _ => ⟨[], .nil⟩, fun _ => by simp⟩
  | cons h1 _ ih =>
    constructor
    · intro h
      obtain ⟨ts, hts⟩ := ih.1 fun x hx => h x (by simp [hx])
      obtain ⟨m, hm⟩ := h _ (List.mem_cons_self)
      exact ⟨_, .cons (track_says h1 hm).1 hts⟩
    · rintro ⟨ts, h⟩ x hx
      cases h with
      | cons g1 g2 =>
        rcases List.mem_cons.1 hx with rfl | hx
        · obtain ⟨m, hm, _⟩ := track_read mc h1 g1
          exact ⟨m, hm⟩
        · exact ih.2 ⟨_, g2⟩ x hx

theorem document_halts (mc : MiddleC) (c : Bool) (j : Json) : assembleJson mc j = halted c ↔ DocumentStops (HaltingEvents c) j := by
  unfold assembleJson DocumentStops
  rw [← and_assoc, document_read]
  simp only [halted_bind, halted_tame (tame_field _ _ _ _ tame_headerFields),
    halted_tame (tame_field _ _ _ _ fun c j => tame_sliceJson _ _ c tame_trackFields j), halted_tame (fate_parseJsonMThd _), false_or]
  constructor
  · rintro ⟨header, hh, tracks, ht, m, hm, h⟩
    refine ⟨⟨header, tracks, m, hh, ht, hm⟩, ?_⟩
    have hr := tracks_read j tracks ht
    rcases h with h | ⟨smf, h1, h2⟩
    · obtain ⟨a, t, b, he, h2, h3⟩ := (tracks_halt mc c _ _ _).1 h
      rw [he] at hr
      obtain ⟨a', v, b', e1, r1, r2⟩ := forall₂_split hr
      obtain ⟨ts, hts⟩ := (tracks_before mc r1).1 h2
      obtain ⟨g1, g2⟩ := (mtrk_halts mc c t).1 h3
      obtain ⟨k1, k2⟩ := track_members r2
      obtain ⟨before, x, hb, hx⟩ := k1.1 g1
      exact ⟨a', v, b', ts, t.events, before, x, e1, hts, hb, hx, (k2 _).1 rfl, g2⟩
    · exfalso
      have hf := fate_parseJsonTracks mc tracks.els m [] (by simp)
      rw [h1] at hf
      exact (halted_tame (encode_writable smf hf.2) c).1 h2
  · rintro ⟨⟨header, tracks, m, hh, ht, hm⟩, a, v, b, ts, l, before, x, e1, hts, hb, hx, hl, hq⟩
    refine ⟨header, hh, tracks, ht, m, hm, Or.inl ?_⟩
    have hr := tracks_read j tracks ht
    rw [e1] at hr
    obtain ⟨a', t, b', e2, r1, r2⟩ := split_forall₂ hr
    obtain ⟨k1, k2⟩ := track_members r2
    rw [← (k2 l).2 hl] at hq
    exact (tracks_halt mc c _ _ _).2 ⟨a', t, b', e2, (tracks_before mc r1).2 ⟨ts, hts⟩, (mtrk_halts mc c t).2 ⟨k1.2 ⟨before, x, hb, hx⟩, hq⟩⟩

theorem stops_object {Q : List Json → Prop} {j : Json} (h : DocumentStops Q j) : ∃ ms, j = .obj ms := by
  obtain ⟨⟨f, d, _, ⟨_, before, v, h, _⟩, _⟩, _⟩ := h
  cases hvs : valuesOf "header" j with
  | nil => rw [together, hvs] at h; exact absurd (congrArg List.length h) (by simp [valuesOf, membersOf])
  | cons x l => exact values_object (before := []) hvs

theorem text_halts (mc : MiddleC) (c : Bool) (text : Bytes) : assembleJsonText mc text = halted c ↔ BeginsWith (DocumentStops (HaltingEvents c)) text := by
  unfold assembleJsonText
  constructor
  · intro h
    split at h
    · exact ((halted_err c _).1 h).elim
    · rename_i j hj
      obtain ⟨a, s, rest, h1, h2, h3, h4⟩ := readJson_sound hj
      exact ⟨a, s, rest, j, h1, h2, h3, h4, (document_halts mc c j).1 h⟩
  · rintro ⟨a, s, rest, j, rfl, h2, h3, h4, h5⟩
    obtain ⟨ms, rfl⟩ := stops_object h5
    rw [readJson_text read_readable h2 h3 h4 (by intro lit h; cases h)]
    exact (document_halts mc c _).2 h5

/-- **C159.** A JSON text crashes the assembler exactly if it begins with one of the documents of `DocumentCrashes`. -/
theorem C159_json_crashes (mc : MiddleC) (text : Bytes) : assembleJsonText mc text = .panic ↔ BeginsWith DocumentCrashes text := by
  refine (text_halts mc true text).trans ?_
  unfold DocumentCrashes HaltingEvents
  simp only [true_and]
  rfl

/-- **C159.** The assembler does not finish a JSON text exactly if it begins with one of the documents of `DocumentHangs`. -/
theorem C159_json_hangs (mc : MiddleC) (text : Bytes) : assembleJsonText mc text = .diverge ↔ BeginsWith DocumentHangs text := by
  refine (text_halts mc false text).trans ?_
  unfold DocumentHangs HaltingEvents
  simp only [Bool.false_eq_true, false_and, false_or]
  rfl

/-- A velocity that does not exist. -/
example : BeginsWith DocumentCrashes (str "{\"header\":{\"tag\":\"MThd\",\"format\":0,\"PPQN\":96},\"tracks\":[{\"tag\":\"MTrk\",\"events\":[{\"event\":{\"tag\":\"NoteOn\",\"velocity\":128}}]}]}") :=
  (C159_json_crashes .c3 _).1 (by decide +kernel)

/-- A track without events. -/
example : BeginsWith DocumentCrashes (str "{\"header\":{\"tag\":\"MThd\",\"format\":0,\"PPQN\":96},\"tracks\":[{\"tag\":\"MTrk\"}]}") :=
  (C159_json_crashes .c3 _).1 (by decide +kernel)

example : BeginsWith DocumentHangs (str "{\"header\":{\"tag\":\"MThd\",\"format\":0,\"PPQN\":96},\"tracks\":[{\"tag\":\"MTrk\",\"events\":[{\"event\":{\"tag\":\"TimeSignature\",\"denominator\":129}}]}]}") :=
  (C159_json_hangs .c3 _).1 (by decide +kernel)

end Midiasm
