import Verif.Lemmas.Keywords

/-!
What the functions reading an event from text can return.
-/

set_option linter.unusedSimpArgs false

namespace Midiasm
open Spec

/-- A value or an error. -/
def Tame {α : Type} : Outcome α → Prop
  | .ok _ => True
  | .err _ => True
  | _ => False

/-- An event of the kind or an error. -/
def Gives (tag : String) : Outcome (UInt32 × Body) → Prop
  | .ok (_, b) => b.tag = tag
  | .err _ => True
  | _ => False

theorem gives_bind {α : Type} {tag : String} {o : Outcome α} {f : α → Outcome (UInt32 × Body)} (ho : Tame o)
    (hf : ∀ a, o = .ok a → Gives tag (f a)) : Gives tag (o >>= f) := by
  cases o with
  | ok a => exact hf a rfl
  | err e => trivial
  | panic => exact ho
  | diverge => exact ho

theorem tame_bind {α β : Type} {o : Outcome α} {f : α → Outcome β} (ho : Tame o) (hf : ∀ a, o = .ok a → Tame (f a)) : Tame (o >>= f) := by
  cases o with
  | ok a => exact hf a rfl
  | err e => trivial
  | panic => exact ho
  | diverge => exact ho

theorem tame_parseUint (s : Bytes) (n : Nat) : Tame (parseUint s n) := by
  unfold parseUint
  split
  · trivial
  · split
    · split <;> trivial
    · trivial

theorem tame_parseDelta (s : Bytes) : Tame (parseDelta s) := tame_bind (tame_parseUint s 32) fun _ _ => trivial

theorem tame_parseByte (s : Bytes) : Tame (parseByte s) := tame_bind (tame_parseUint s 8) fun _ _ => trivial

theorem tame_parseChannel (s : Bytes) : Tame (parseChannel s) := by
  unfold parseChannel
  refine tame_bind (tame_parseUint s 8) fun v _ => ?_
  split <;> trivial

theorem parseChannel_le (s : Bytes) (ch : UInt8) (h : parseChannel s = .ok ch) : ¬ ch > 15 := by
  unfold parseChannel at h
  cases hu : parseUint s 8 with
  | ok v =>
    rw [hu, Outcome.bind_ok] at h
    split at h
    · cases h
    · rename_i hv
      injection h with h
      subst h
      rw [gt_iff_lt, UInt8.lt_iff_toNat_lt, UInt8.toNat_ofNat']
      have : (15 : UInt8).toNat = 15 := rfl
      omega
  | err e => rw [hu] at h; cases h
  | panic => rw [hu] at h; cases h
  | diverge => rw [hu] at h; cases h

theorem tame_hexDecode (s : Bytes) : Tame (hexDecode s) := by
  fun_induction hexDecode s <;> first | trivial | skip
  rename_i ih
  exact tame_bind ih fun _ _ => trivial

theorem tame_parseHex (s : Bytes) : Tame (parseHex s) := tame_hexDecode _

theorem tame_findManufacturer (table : List (String × Lib.Manufacturer)) (s : Bytes) : Tame (findManufacturer table s) := by
  unfold findManufacturer
  split <;> trivial

theorem tame_lookupNoteText (s : Bytes) : Tame (lookupNoteText s) := by
  unfold lookupNoteText
  split <;> trivial

theorem tame_parseInt8 (s : Bytes) : Tame (parseInt8 s) := by
  unfold parseInt8
  repeat' split
  all_goals trivial

theorem tame_parseNote (s : Bytes) : Tame (parseNote s) := by
  unfold parseNote
  split
  · exact tame_bind (tame_lookupNoteText _) fun _ _ => tame_bind (tame_parseInt8 _) fun _ _ => trivial
  · trivial

theorem scales_make : ∀ s ∈ Lib.MAJOR_SCALES ++ Lib.MINOR_SCALES, Tame (makeKeySignature s.accidentals s.keyType) ∧
    Gives "KeySignature" (do let b ← makeKeySignature s.accidentals s.keyType; .ok (0, b)) := by
  intro s hs
  have h : ∀ s ∈ Lib.MAJOR_SCALES ++ Lib.MINOR_SCALES, (match makeKeySignature s.accidentals s.keyType with | .ok b => b.tag == "KeySignature" | _ => false) = true := by
    decide +kernel
  have := h s hs
  split at this
  · rename_i b hb
    rw [hb]
    exact ⟨trivial, by simpa [Gives] using this⟩
  · cases this

theorem keyByName_scale (key : Bytes) : ∃ s ∈ Lib.MAJOR_SCALES ++ Lib.MINOR_SCALES, keyByName key = (s.accidentals, s.keyType) := by
  have h0 : ∃ s ∈ Lib.MAJOR_SCALES ++ Lib.MINOR_SCALES, ((0, 0) : Int8 × UInt8) = (s.accidentals, s.keyType) := by decide +kernel
  unfold keyByName
  cases h2 : Lib.MINOR_SCALES.find? (fun s => (str s.name).map lower == key) with
  | some s => exact ⟨s, List.mem_append_right _ (List.mem_of_find?_eq_some h2), rfl⟩
  | none =>
    cases h1 : Lib.MAJOR_SCALES.find? (fun s => (str s.name).map lower == key) with
    | some s => exact ⟨s, List.mem_append_left _ (List.mem_of_find?_eq_some h1), rfl⟩
    | none => exact h0

theorem gives_readText (k : TextKind) (line : Bytes) : Gives k.tag (readText k line) := by
  unfold readText
  split
  · exact gives_bind (tame_parseDelta _) fun _ _ => rfl
  · trivial

theorem gives_sequenceNumber (line : Bytes) : Gives "SequenceNumber" (readSequenceNumber line) := by
  unfold readSequenceNumber
  split
  · exact gives_bind (tame_parseDelta _) fun _ _ => gives_bind (tame_parseUint _ _) fun _ _ => rfl
  · trivial

theorem gives_midiChannelPrefix (line : Bytes) : Gives "MIDIChannelPrefix" (readMIDIChannelPrefix line) := by
  unfold readMIDIChannelPrefix
  split
  · refine gives_bind (tame_parseDelta _) fun _ _ => gives_bind (tame_parseByte _) fun v _ => ?_
    split
    · trivial
    · rename_i hv
      simp [makeMIDIChannelPrefix, hv, Gives, Body.tag]
  · trivial

theorem gives_midiPort (line : Bytes) : Gives "MIDIPort" (readMIDIPort line) := by
  unfold readMIDIPort
  split
  · refine gives_bind (tame_parseDelta _) fun _ _ => gives_bind (tame_parseByte _) fun v _ => ?_
    split
    · trivial
    · rename_i hv
      simp [makeMIDIPort, hv, Gives, Body.tag]
  · trivial

theorem gives_endOfTrack (line : Bytes) : Gives "EndOfTrack" (readEndOfTrack line) := by
  unfold readEndOfTrack
  split
  · exact gives_bind (tame_parseDelta _) fun _ _ => rfl
  · trivial

theorem gives_tempo (line : Bytes) : Gives "Tempo" (readTempo line) := by
  unfold readTempo
  split
  · exact gives_bind (tame_parseDelta _) fun _ _ => gives_bind (tame_parseUint _ _) fun _ _ => rfl
  · trivial

theorem gives_keySignature (line : Bytes) : Gives "KeySignature" (readKeySignature line) := by
  unfold readKeySignature
  split
  · rename_i d note mode _
    refine gives_bind (tame_parseDelta _) fun _ _ => ?_
    obtain ⟨s, hs, he⟩ := keyByName_scale ((note ++ [32] ++ mode).map lower)
    simp only [he]
    refine gives_bind (scales_make s hs).1 fun b hb => ?_
    have := (scales_make s hs).2
    rw [hb] at this
    exact this
  · trivial

theorem gives_sequencerSpecific (table : List (String × Lib.Manufacturer)) (line : Bytes) :
    Gives "SequencerSpecificEvent" (readSequencerSpecific table line) := by
  unfold readSequencerSpecific
  split
  · exact gives_bind (tame_parseDelta _) fun _ _ => gives_bind (tame_findManufacturer _ _) fun _ _ => gives_bind (tame_parseHex _) fun _ _ => rfl
  · trivial

theorem gives_noteOff (line : Bytes) : Gives "NoteOff" (readNoteOff line) := by
  unfold readNoteOff
  split
  · refine gives_bind (tame_parseDelta _) fun _ _ => gives_bind (tame_parseChannel _) fun _ _ => gives_bind (tame_parseNote _) fun _ _ =>
      gives_bind (tame_parseByte _) fun _ _ => ?_
    split
    · trivial
    · rfl
  · trivial

theorem gives_noteOn (line : Bytes) : Gives "NoteOn" (readNoteOn line) := by
  unfold readNoteOn
  split
  · refine gives_bind (tame_parseDelta _) fun _ _ => gives_bind (tame_parseChannel _) fun ch hch => gives_bind (tame_parseNote _) fun _ _ =>
      gives_bind (tame_parseByte _) fun _ _ => ?_
    split
    · trivial
    · rename_i hv
      simp [makeNoteOn, hv, parseChannel_le _ _ hch, Gives, Body.tag]
  · trivial

theorem gives_polyphonicPressure (line : Bytes) : Gives "PolyphonicPressure" (readPolyphonicPressure line) := by
  unfold readPolyphonicPressure
  split
  · refine gives_bind (tame_parseDelta _) fun _ _ => gives_bind (tame_parseChannel _) fun ch hch => gives_bind (tame_parseByte _) fun _ _ => ?_
    split
    · trivial
    · rename_i hv
      simp [makePolyphonicPressure, hv, parseChannel_le _ _ hch, Gives, Body.tag]
  · trivial

theorem gives_controller (line : Bytes) : Gives "Controller" (readController line) := by
  unfold readController
  split
  · refine gives_bind (tame_parseDelta _) fun _ _ => gives_bind (tame_parseChannel _) fun ch hch => gives_bind (tame_parseByte _) fun _ _ =>
      gives_bind (tame_parseByte _) fun _ _ => ?_
    simp [makeController, parseChannel_le _ _ hch, Gives, Body.tag]
  · trivial

theorem gives_programChange (line : Bytes) : Gives "ProgramChange" (readProgramChange line) := by
  unfold readProgramChange
  split
  · refine gives_bind (tame_parseDelta _) fun _ _ => gives_bind (tame_parseChannel _) fun ch hch => gives_bind (tame_parseUint _ _) fun _ _ =>
      gives_bind (tame_parseByte _) fun _ _ => ?_
    simp [makeProgramChange, parseChannel_le _ _ hch, Gives, Body.tag]
  · trivial

theorem gives_channelPressure (line : Bytes) : Gives "ChannelPressure" (readChannelPressure line) := by
  unfold readChannelPressure
  split
  · refine gives_bind (tame_parseDelta _) fun _ _ => gives_bind (tame_parseChannel _) fun ch hch => gives_bind (tame_parseByte _) fun _ _ => ?_
    split
    · trivial
    · rename_i hv
      simp [makeChannelPressure, hv, parseChannel_le _ _ hch, Gives, Body.tag]
  · trivial

theorem gives_pitchBend (line : Bytes) : Gives "PitchBend" (readPitchBend line) := by
  unfold readPitchBend
  split
  · refine gives_bind (tame_parseDelta _) fun _ _ => gives_bind (tame_parseChannel _) fun ch hch => gives_bind (tame_parseUint _ _) fun _ _ => ?_
    simp [makePitchBend, parseChannel_le _ _ hch, Gives, Body.tag]
  · trivial

theorem gives_sysExMessage (table : List (String × Lib.Manufacturer)) (line : Bytes) : Gives "SysExMessage" (readSysExMessage table line) := by
  unfold readSysExMessage
  split
  · exact gives_bind (tame_parseDelta _) fun _ _ => gives_bind (tame_findManufacturer _ _) fun _ _ => gives_bind (tame_parseHex _) fun _ _ => rfl
  · trivial

theorem gives_sysExContinuation (line : Bytes) : Gives "SysExContinuation" (readSysExContinuation line) := by
  unfold readSysExContinuation
  split
  · exact gives_bind (tame_parseDelta _) fun _ _ => gives_bind (tame_parseHex _) fun _ _ => rfl
  · trivial

theorem gives_sysExEscape (line : Bytes) : Gives "SysExEscape" (readSysExEscape line) := by
  unfold readSysExEscape
  split
  · exact gives_bind (tame_parseDelta _) fun _ _ => gives_bind (tame_parseHex _) fun _ _ => rfl
  · trivial

/-- `SMPTEOffset` is of its kind, an error, or a panic. -/
theorem gives_smpteOffset (line : Bytes) : readSMPTEOffset line = .panic ∨ Gives "SMPTEOffset" (readSMPTEOffset line) := by
  by_cases hp : readSMPTEOffset line = .panic
  · exact Or.inl hp
  · right
    revert hp
    unfold readSMPTEOffset
    split
    · intro hp
      refine gives_bind (tame_parseDelta _) fun d hd => gives_bind (tame_parseByte _) fun a ha => gives_bind (tame_parseByte _) fun b hb =>
        gives_bind (tame_parseByte _) fun c hc => gives_bind (tame_parseByte _) fun r hr => gives_bind (tame_parseByte _) fun f hf =>
        gives_bind (tame_parseByte _) fun ff hff => ?_
      simp only [hd, ha, hb, hc, hr, hf, hff, Outcome.bind_ok] at hp
      revert hp
      split
      · exact fun _ => trivial
      · split
        · exact fun _ => trivial
        · unfold makeSMPTEOffset
          repeat' split
          all_goals simp [Gives, Body.tag]
    · exact fun _ => trivial

/-- `TimeSignature` is of its kind, an error, or does not terminate. -/
theorem gives_timeSignature (line : Bytes) : readTimeSignature line = .diverge ∨ Gives "TimeSignature" (readTimeSignature line) := by
  by_cases hp : readTimeSignature line = .diverge
  · exact Or.inl hp
  · right
    revert hp
    unfold readTimeSignature
    split
    · intro hp
      refine gives_bind (tame_parseDelta _) fun d hd => gives_bind (tame_parseByte _) fun a ha => gives_bind (tame_parseByte _) fun b hb =>
        gives_bind (tame_parseByte _) fun c hc => gives_bind (tame_parseByte _) fun t ht => ?_
      simp only [hd, ha, hb, hc, ht, Outcome.bind_ok, makeTimeSignature] at hp ⊢
      have hl : ∀ v : UInt8, (match denomLoop v 8 1 0 with | .ok _ => true | .diverge => true | _ => false) = true :=
        fun v => all8 (P := fun v => (match denomLoop v 8 1 0 with | .ok _ => true | .diverge => true | _ => false) = true) (by decide +kernel) v
      have := hl b
      cases hden : denomLoop b 8 1 0 with
      | ok v => simp [Gives, Body.tag]
      | err e => rw [hden] at this; cases this
      | panic => rw [hden] at this; cases this
      | diverge => rw [hden] at hp; exact absurd rfl hp
    · exact fun _ => trivial

theorem gives_case (table : List (String × Lib.Manufacturer)) (line : Bytes) : ∀ c ∈ textCases table,
    Gives c.1 (c.2 line) ∨ (c.1 = "SMPTEOffset" ∧ c.2 = readSMPTEOffset ∧ c.2 line = .panic) ∨
      (c.1 = "TimeSignature" ∧ c.2 = readTimeSignature ∧ c.2 line = .diverge) := by
  unfold textCases
  simp only [List.forall_mem_cons]
  refine ⟨Or.inl (gives_sequenceNumber line), Or.inl (gives_readText .text line), Or.inl (gives_readText .copyright line),
    Or.inl (gives_readText .trackName line), Or.inl (gives_readText .instrumentName line), Or.inl (gives_readText .lyric line),
    Or.inl (gives_readText .marker line), Or.inl (gives_readText .cuePoint line), Or.inl (gives_readText .programName line),
    Or.inl (gives_readText .deviceName line), Or.inl (gives_midiChannelPrefix line), Or.inl (gives_midiPort line), Or.inl (gives_tempo line),
    ?_, Or.inl (gives_keySignature line), ?_, Or.inl (gives_endOfTrack line), Or.inl (gives_sequencerSpecific table line),
    Or.inl (gives_noteOff line), Or.inl (gives_noteOn line), Or.inl (gives_polyphonicPressure line), Or.inl (gives_controller line),
    Or.inl (gives_programChange line), Or.inl (gives_channelPressure line), Or.inl (gives_pitchBend line), Or.inl (gives_sysExMessage table line),
    Or.inl (gives_sysExContinuation line), Or.inl (gives_sysExEscape line), by simp⟩
  · rcases gives_timeSignature line with h | h
    · exact Or.inr (Or.inr ⟨trivial, trivial, h⟩)
    · exact Or.inl h
  · rcases gives_smpteOffset line with h | h
    · exact Or.inr (Or.inl ⟨trivial, trivial, h⟩)
    · exact Or.inl h

end Midiasm
