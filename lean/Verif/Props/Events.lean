import Verif.Props.RoundTrip
import Verif.Spec.Keys

/-!
C15, C16, C18 to C23: the kinds of events, one by one.
-/

set_option linter.unusedSimpArgs false

namespace Midiasm
open Spec

/-- C15: note on, note off, controller, program change and channel pressure events are read back with the same channel and
data values, for every channel and every data value in range. -/
theorem C15_channel_voice_roundtrip (pending : Bool) (ch : UInt8) (hch : ch.toNat ≤ 15) (n v : UInt8) (hn : n.toNat ≤ 127)
    (hv : v.toNat ≤ 127) (note : NoteVal) (hnote : note.value = n) (c : Lib.Controller) (hc : c.id = n) (bank : UInt16) :
    ReadsBackAs pending (.noteOn ch note v) (.noteOn ch.toNat n.toNat v.toNat) ∧
    ReadsBackAs pending (.noteOff ch note v) (.noteOff ch.toNat n.toNat v.toNat) ∧
    ReadsBackAs pending (.controller ch c v) (.controller ch.toNat n.toNat v.toNat) ∧
    ReadsBackAs pending (.programChange ch bank v) (.program ch.toNat v.toNat) ∧
    ReadsBackAs pending (.channelPressure ch v) (.channelPressure ch.toNat v.toNat) := by
  subst hnote
  have h1 := readsBack_faithful pending (.noteOn ch note v) ⟨hch, hv⟩ trivial
  have h2 := readsBack_faithful pending (.noteOff ch note v) ⟨hch, hv⟩ trivial
  have h3 := readsBack_faithful pending (.controller ch c v) hch trivial
  have h4 := readsBack_faithful pending (.programChange ch bank v) hch trivial
  have h5 := readsBack_faithful pending (.channelPressure ch v) ⟨hch, hv⟩ trivial
  simp only [ReadsBack, Body.view, hc] at h1 h2 h3 h4 h5
  exact ⟨h1, h2, h3, h4, h5⟩

example : ReadsBackAs false (.noteOn 9 ⟨60, "C4", ""⟩ 100) (.noteOn 9 60 100) :=
  (C15_channel_voice_roundtrip false 9 (by decide) 60 100 (by decide) (by decide) ⟨60, "C4", ""⟩ rfl ⟨60, ""⟩ rfl 0).1

/-- What a pitch bend event becomes: the value is written with its eight low bits in the second byte and read with its seven
low bits there. -/
theorem C16_pitch_bend_exact (pending : Bool) (ch : UInt8) (hch : ch.toNat ≤ 15) (bend : UInt16) :
    ReadsBackAs pending (.pitchBend ch bend) (.pitchBend ch.toNat (bend.toNat / 256 * 128 + bend.toNat % 128)) := by
  have hs : (0xe0 ||| ch : UInt8) = UInt8.ofNat (0xe0 + ch.toNat) := or_channel 0xe0 (by simp) ch hch
  have hn : (UInt8.ofNat (0xe0 + ch.toNat)).toNat = 0xe0 + ch.toNat := by simp; omega
  have := readsBack_of_framed (pending := pending) (b := .pitchBend ch bend)
    (bs := [0xe0 ||| ch, (bend >>> 8 &&& 0x00ff).toUInt8, (bend >>> 0 &&& 0x00ff).toUInt8])
    (raw := .chan (0xe0 ||| ch) [(bend >>> 8 &&& 0x00ff).toUInt8, (bend >>> 0 &&& 0x00ff).toUInt8])
    (c := .pitchBend ch.toNat (bend.toNat / 256 * 128 + bend.toNat % 128)) rfl ?_ ?_
  · simpa [asShown] using this
  · intro rs
    refine ⟨_, .full ?_ ?_⟩
    · rw [hs]; unfold IsChannelStatus; rw [hn]; omega
    · rw [hs]; unfold dataLen; rw [hn, show (0xe0 + ch.toNat) / 16 = 14 by omega]; rfl
  · simp only [meaning, hs]
    have g1 : (UInt8.ofNat (0xe0 + ch.toNat)).toNat / 16 = 14 := by rw [hn]; omega
    have g2 : (UInt8.ofNat (0xe0 + ch.toNat)).toNat % 16 = ch.toNat := by rw [hn]; omega
    generalize UInt8.ofNat (0xe0 + ch.toNat) = st at g1 g2 ⊢
    simp only [chanMeaning, g1, g2]
    have e1 := byte16 bend 8 (by decide)
    have e2 := byte16 bend 0 (by decide)
    simp only [UInt16.reduceToNat] at e1 e2
    have := bend.toNat_lt
    rw [e1, e2]
    congr 2
    omega

/-- C16 for bends below 128: read back with the same value, and the bytes written are data bytes.  Missing: larger values, for
which the claim is false (`C16_pitch_bend_fails`). -/
theorem C16_pitch_bend_partial (pending : Bool) (ch : UInt8) (hch : ch.toNat ≤ 15) (bend : UInt16) (hb : bend.toNat < 128) :
    ReadsBackAs pending (.pitchBend ch bend) (.pitchBend ch.toNat bend.toNat) ∧
    ∃ s a b, Body.marshal (.pitchBend ch bend) = .ok [s, a, b] ∧ a.toNat < 128 ∧ b.toNat < 128 := by
  refine ⟨readsBack_faithful pending (.pitchBend ch bend) ⟨hch, hb⟩ trivial, _, _, _, rfl, ?_, ?_⟩
  · rw [byte16 bend 8 (by decide)]; simp only [UInt16.reduceToNat]; omega
  · rw [byte16 bend 0 (by decide)]; simp only [UInt16.reduceToNat]; omega

/-- C16 is false for every 14-bit bend of 128 or more, the centre value 8192 included. -/
theorem C16_pitch_bend_fails (pending : Bool) (ch : UInt8) (_hch : ch.toNat ≤ 15) (bend : UInt16) (h1 : 128 ≤ bend.toNat)
    (_h2 : bend.toNat < 16384) : ¬ ReadsBackAs pending (.pitchBend ch bend) (.pitchBend ch.toNat bend.toNat) := by
  intro h
  have := ((C68_survives_iff pending (.pitchBend ch bend) (by simp [Body.payload])).1 h).1.2
  omega

/-- The centre value 8192 is read back as 4096. -/
example : ReadsBackAs false (.pitchBend 0 8192) (.pitchBend 0 4096) := C16_pitch_bend_exact false 0 (by decide) 8192

/-- C18 for track names of any (encodable) length and for the other texts up to 127 bytes.  Missing: longer texts of the other
eight kinds, for which the claim is false (`C18_text_roundtrip_fails`). -/
theorem C18_text_roundtrip_partial (pending : Bool) (k : TextKind) (s : Bytes) (h : s.length < 2 ^ 28)
    (hk : k = .trackName ∨ s.length < 128) : ReadsBackAs pending (.text k s) (.text k.type.toNat s) := by
  refine readsBack_faithful pending (.text k s) ?_ trivial
  simp only [Body.Faithful]
  split
  · exact h
  · rcases hk with rfl | h
    · contradiction
    · exact h

/-- C18 is false for every text of 128 bytes or more that is not a track name. -/
theorem C18_text_roundtrip_fails (pending : Bool) (k : TextKind) (hk : k ≠ .trackName) (s : Bytes) (h1 : 128 ≤ s.length)
    (h2 : s.length < 2 ^ 28) : ¬ ReadsBackAs pending (.text k s) (.text k.type.toNat s) := by
  intro h
  have := ((C68_survives_iff pending (.text k s) h2).1 h).1
  simp only [Body.Faithful, if_neg hk] at this
  omega

example : ReadsBackAs false (.text .trackName (List.replicate 300 65)) (.text 3 (List.replicate 300 65)) :=
  C18_text_roundtrip_partial false .trackName _ (by rw [List.length_replicate]; decide) (Or.inl rfl)
example : ¬ ReadsBackAs false (.text .lyric (List.replicate 300 65)) (.text 5 (List.replicate 300 65)) :=
  C18_text_roundtrip_fails false .lyric (by decide) _ (by rw [List.length_replicate]; decide) (by rw [List.length_replicate]; decide)

/-- C19: sequence number, channel prefix, port, tempo, SMPTE offset and end of track events are read back with the same field
values, for all values in range. -/
theorem C19_fixed_meta_roundtrip (pending : Bool) :
    (∀ n : UInt16, ReadsBackAs pending (.sequenceNumber n) (.sequenceNumber n.toNat)) ∧
    (∀ ch : UInt8, ch.toNat ≤ 15 → ReadsBackAs pending (.midiChannelPrefix ch) (.channelPrefix ch.toNat)) ∧
    (∀ p : UInt8, p.toNat ≤ 127 → ReadsBackAs pending (.midiPort p) (.port p.toNat)) ∧
    (∀ t : UInt32, t.toNat < 2 ^ 24 → ReadsBackAs pending (.tempo t) (.tempo t.toNat)) ∧
    (∀ h m s r f ff : UInt8, h.toNat ≤ 24 → m.toNat ≤ 59 → s.toNat ≤ 59 → (r = 24 ∨ r = 25 ∨ r = 29 ∨ r = 30) →
      f.toNat < r.toNat → ff.toNat ≤ 100 →
      ReadsBackAs pending (.smpteOffset h m s r f ff) (.smpteOffset h.toNat m.toNat s.toNat r.toNat f.toNat ff.toNat)) ∧
    ReadsBackAs pending .endOfTrack .endOfTrack :=
  ⟨fun n => readsBack_faithful pending (.sequenceNumber n) trivial trivial,
   fun ch h => readsBack_faithful pending (.midiChannelPrefix ch) h trivial,
   fun p h => readsBack_faithful pending (.midiPort p) h trivial,
   fun t h => readsBack_faithful pending (.tempo t) h trivial,
   fun h m s r f ff h1 h2 h3 h4 h5 h6 => readsBack_faithful pending (.smpteOffset h m s r f ff) ⟨h1, h2, h3, h4, h5, h6⟩ trivial,
   readsBack_faithful pending .endOfTrack trivial trivial⟩

example : ReadsBackAs false (.smpteOffset 13 45 59 29 28 99) (.smpteOffset 13 45 59 29 28 99) :=
  (C19_fixed_meta_roundtrip false).2.2.2.2.1 13 45 59 29 28 99 (by decide) (by decide) (by decide) (by simp) (by decide) (by decide)

/-! ### Reading and writing again -/

/-- The event `raw`, however it is framed, in whatever state and at whatever position of a track, is decoded to an event that is
written as `bs`. -/
def Reencodes (pending : Bool) (raw : Raw) (bs : Bytes) : Prop :=
  ∀ (mc : MiddleC) (spare rest : Bytes) (tick : UInt32) (ctx : Context) (i : Item) (rs' : Option UInt8),
    FramedItem 1 (rsOf ctx.runningStatus) i rs' → i.raw = raw → ctx.casio = pending →
    ∃ e ctx', parseEvent mc (i.bytes ++ rest) spare tick ctx = .ok (e, rest, ctx') ∧ e.delta = i.delta ∧ e.body.marshal = .ok bs

theorem reencodes_of {pending : Bool} {raw : Raw} {bs : Bytes} {b : MiddleC → Body}
    (h : ∀ mc, bodyOutcome mc pending raw = .ok (b mc)) (hm : ∀ mc, (b mc).marshal = .ok bs) : Reencodes pending raw bs := by
  intro mc spare rest tick ctx i rs' hi hr hc
  have := parseEvent_framed mc spare rest tick ctx i rs' hi
  rw [hr, hc, h mc, Outcome.bind_ok] at this
  exact ⟨_, _, this, rfl, hm mc⟩

theorem reencodes_unique {pending : Bool} {raw : Raw} {bs bs' : Bytes} (h : Reencodes pending raw bs)
    (h' : Reencodes pending raw bs') (hex : ∃ rs' bytes, Framed 1 none raw bytes rs') : bs = bs' := by
  obtain ⟨rs', bytes, hf⟩ := hex
  let ctx : Context := { newContext with casio := pending }
  have hi : FramedItem 1 (rsOf ctx.runningStatus) ⟨0, raw, [0] ++ bytes⟩ rs' :=
    ⟨[0], bytes, rfl, ⟨⟨[], 0, rfl, by simp, by decide⟩, rfl⟩, hf⟩
  obtain ⟨e, c, h1, _, h2⟩ := h .c3 [] [] 0 ctx _ rs' hi rfl rfl
  obtain ⟨e', c', h1', _, h2'⟩ := h' .c3 [] [] 0 ctx _ rs' hi rfl rfl
  rw [h1] at h1'
  injection h1' with h1'
  injection h1' with h1' _
  subst h1'
  rw [h2] at h2'
  injection h2'

/-- What a time signature read from a file is written back as. -/
theorem C20_time_signature_exact (pending : Bool) (n e c t : UInt8) :
    Reencodes pending (.metaEvent 0x58 [n, e, c, t]) [0xff, 0x58, 4, n, (if e.toNat < 8 then e else 0), c, t] := by
  refine reencodes_of (b := fun _ => .timeSignature n (denomFromExp e) c t) (fun mc => ?_) (fun mc => ?_)
  · have hl : denomLoop (denomFromExp e) 8 1 0 = .ok (if e.toNat < 8 then e.toNat else 0) := denomLoop_denomFromExp e
    have : (0x58 : UInt8) &&& 0x7f = 0x58 := by decide
    simp [bodyOutcome, metaUnmarshal, this, unmarshalTimeSignature, makeTimeSignature, hl, errPanics]
  · simp only [Body.marshal, denomLoop_denomFromExp, Outcome.bind_ok]
    split <;> simp

/-- C20 for denominators up to 128 (exponents 0 to 7).  Missing: exponents of 8 and more, for which the claim is false
(`C20_time_signature_fails`). -/
theorem C20_time_signature_partial (pending : Bool) (n e c t : UInt8) (h : e.toNat < 8) :
    Reencodes pending (.metaEvent 0x58 [n, e, c, t]) [0xff, 0x58, 4, n, e, c, t] := by
  have := C20_time_signature_exact pending n e c t
  rwa [if_pos h] at this

theorem C20_time_signature_fails (pending : Bool) (n e c t : UInt8) (h : 8 ≤ e.toNat) :
    ¬ Reencodes pending (.metaEvent 0x58 [n, e, c, t]) [0xff, 0x58, 4, n, e, c, t] := by
  intro h'
  have h1 := C20_time_signature_exact pending n e c t
  rw [if_neg (by omega)] at h1
  have := reencodes_unique h1 h' ⟨none, _, .metaEvent (quantity_byte 4 (by decide))⟩
  simp at this
  rw [← this] at h
  simp at h

/-- C21: a key signature is accepted exactly for -7..7 accidentals and mode 0 or 1 (otherwise the decoder panics, see C08);
it is written back unchanged and shows the name of the key with that many sharps or flats. -/
theorem C21_key_signature (mc : MiddleC) (pending : Bool) (a m : UInt8) :
    (-7 ≤ signed a ∧ signed a ≤ 7 ∧ m.toNat ≤ 1 →
      bodyOutcome mc pending (.metaEvent 0x59 [a, m]) = .ok (.keySignature a.toInt8 m (keyName (signed a) (m == 1))) ∧
      Reencodes pending (.metaEvent 0x59 [a, m]) [0xff, 0x59, 2, a, m]) ∧
    (¬ (-7 ≤ signed a ∧ signed a ≤ 7 ∧ m.toNat ≤ 1) → bodyOutcome mc pending (.metaEvent 0x59 [a, m]) = .panic) := by
  have h7f : (0x59 : UInt8) &&& 0x7f = 0x59 := by decide
  have hb : ∀ mc, bodyOutcome mc pending (.metaEvent 0x59 [a, m]) = errPanics (keySignatureFromData a m) := by
    intro mc
    simp [bodyOutcome, metaUnmarshal, h7f, unmarshalKeySignature]
  have hM : ∀ a : UInt8, -7 ≤ signed a ∧ signed a ≤ 7 → (Lib.majorScale a.toInt8).map Lib.Scale.name = some (keyName (signed a) false) :=
    all8 (P := fun a => -7 ≤ signed a ∧ signed a ≤ 7 → (Lib.majorScale a.toInt8).map Lib.Scale.name = some (keyName (signed a) false))
      (by decide +kernel)
  have hm : ∀ a : UInt8, -7 ≤ signed a ∧ signed a ≤ 7 → (Lib.minorScale a.toInt8).map Lib.Scale.name = some (keyName (signed a) true) :=
    all8 (P := fun a => -7 ≤ signed a ∧ signed a ≤ 7 → (Lib.minorScale a.toInt8).map Lib.Scale.name = some (keyName (signed a) true))
      (by decide +kernel)
  constructor
  · rintro ⟨h1, h2, h3⟩
    have hk : keySignatureFromData a m = .ok (.keySignature a.toInt8 m (keyName (signed a) (m == 1))) := by
      by_cases h0 : m = 0
      · subst h0
        have := hM a ⟨h1, h2⟩
        cases hs : Lib.majorScale a.toInt8 with
        | none => rw [hs] at this; cases this
        | some s =>
          rw [hs] at this
          simp only [Option.map_some, Option.some.injEq] at this
          simp [keySignatureFromData, makeKeySignature, Lib.Major, hs, this]
      · have : m = 1 := by
          apply u8_ext
          have : m.toNat ≠ 0 := fun h => h0 (u8_ext (by simpa using h))
          simp; omega
        subst this
        have := hm a ⟨h1, h2⟩
        cases hs : Lib.minorScale a.toInt8 with
        | none => rw [hs] at this; cases this
        | some s =>
          rw [hs] at this
          simp only [Option.map_some, Option.some.injEq] at this
          simp [keySignatureFromData, makeKeySignature, Lib.Major, Lib.Minor, hs, this]
    refine ⟨by rw [hb, hk]; rfl, reencodes_of (b := fun _ => .keySignature a.toInt8 m (keyName (signed a) (m == 1)))
      (fun mc => by rw [hb, hk]; rfl) (fun _ => ?_)⟩
    simp [Body.marshal]
  · intro h
    rw [hb, (keySignature_body a m).2 h]
    rfl

example : keyName (signed 0xfa) false = "G♭ major" ∧ keyName (signed 0xfa) true = "E♭ minor" ∧ keyName 7 false = "C♯ major" := by
  decide +kernel

/-- C22 for every manufacturer ID except 7F, known or not: a sequencer specific event of less than 128 bytes and a SysEx message,
however framed, are written back with the same ID and data.  Missing: the ID 7F, for which the claim is false
(`C22_manufacturer_fails`), and sequencer specific events of 128 bytes or more (`C22_long_sequencer_specific_fails`). -/
theorem C22_manufacturer_partial :
    (∀ pending (id data : Bytes), ((∃ b, id = [b] ∧ b ≠ 0 ∧ b ≠ 0x7f) ∨ ∃ b c, id = [0, b, c]) → id.length + data.length < 128 →
      Reencodes pending (.metaEvent 0x7f (id ++ data)) ([0xff, 0x7f, UInt8.ofNat (id.length + data.length)] ++ id ++ data)) ∧
    (∀ (id : UInt8) (data : Bytes), id ≠ 0x7f → data ≠ [] →
      Reencodes false (.sysex 0xf0 (id :: data)) (0xf0 :: vlf2bin (id :: data))) := by
  constructor
  · intro pending id data hid hlen
    have h7f : (0x7f : UInt8) &&& 0x7f = 0x7f := by decide
    refine reencodes_of (b := fun _ => .sequencerSpecific (Lib.lookupManufacturer id) data) (fun mc => ?_) (fun _ => ?_)
    · rcases hid with ⟨b, rfl, h0, h7⟩ | ⟨b, c, rfl⟩
      · simp [bodyOutcome, metaUnmarshal, h7f, unmarshalSequencerSpecific, sequencerSplit, h0, errPanics]
      · simp [bodyOutcome, metaUnmarshal, h7f, unmarshalSequencerSpecific, sequencerSplit, errPanics]
        rw [if_neg (by omega)]
        rfl
    · have : (Lib.lookupManufacturer id).id = id := by
        rcases hid with ⟨b, rfl, h0, h7⟩ | ⟨b, c, rfl⟩
        · rw [Lib.lookupManufacturer_id1]; simp [h7]
        · rw [Lib.lookupManufacturer_id3]
      simp [Body.marshal, this]
  · intro id data h7 hne
    cases hd : data.getLast? with
    | none => rw [List.getLast?_eq_none_iff] at hd; exact absurd hd hne
    | some t =>
      have hid : (Lib.lookupManufacturer [id]).id = [id] := by rw [Lib.lookupManufacturer_id1]; simp [h7]
      by_cases ht : t = 0xf7
      · subst ht
        refine reencodes_of (b := fun _ => .sysExMessage (Lib.lookupManufacturer [id]) data.dropLast true) (fun mc => ?_) (fun _ => ?_)
        · simp [bodyOutcome, unmarshalSysExMessage, sysExFromData, hd]
        · have : data.dropLast ++ [0xf7] = data := by
            have h := List.dropLast_concat_getLast hne
            rw [List.getLast?_eq_some_getLast hne] at hd
            injection hd with hd
            rwa [hd] at h
          simp [Body.marshal, hid, this]
      · refine reencodes_of (b := fun _ => .sysExMessage (Lib.lookupManufacturer [id]) data false) (fun mc => ?_) (fun _ => ?_)
        · simp [bodyOutcome, unmarshalSysExMessage, sysExFromData, hd, ht]
        · simp [Body.marshal, hid]

/-- C22 is false for the manufacturer ID 7F: SysEx messages and sequencer specific events with it are written back with 7E. -/
theorem C22_manufacturer_fails :
    (∀ pending (data : Bytes), data.length < 127 →
      Reencodes pending (.metaEvent 0x7f (0x7f :: data)) ([0xff, 0x7f, UInt8.ofNat (1 + data.length), 0x7e] ++ data)) ∧
    (∀ (data : Bytes), data ≠ [] → Reencodes false (.sysex 0xf0 (0x7f :: data)) (0xf0 :: vlf2bin (0x7e :: data))) := by
  have hid : (Lib.lookupManufacturer [0x7f]).id = [0x7e] := by rw [Lib.lookupManufacturer_id1]; rfl
  constructor
  · intro pending data hlen
    have h7f : (0x7f : UInt8) &&& 0x7f = 0x7f := by decide
    refine reencodes_of (b := fun _ => .sequencerSpecific (Lib.lookupManufacturer [0x7f]) data) (fun mc => ?_) (fun _ => ?_)
    · simp [bodyOutcome, metaUnmarshal, h7f, unmarshalSequencerSpecific, sequencerSplit, errPanics]
    · simp [Body.marshal, hid]
  · intro data hne
    cases hd : data.getLast? with
    | none => rw [List.getLast?_eq_none_iff] at hd; exact absurd hd hne
    | some t =>
      by_cases ht : t = 0xf7
      · subst ht
        refine reencodes_of (b := fun _ => .sysExMessage (Lib.lookupManufacturer [0x7f]) data.dropLast true) (fun mc => ?_) (fun _ => ?_)
        · simp [bodyOutcome, unmarshalSysExMessage, sysExFromData, hd]
        · have : data.dropLast ++ [0xf7] = data := by
            have h := List.dropLast_concat_getLast hne
            rw [List.getLast?_eq_some_getLast hne] at hd
            injection hd with hd
            rwa [hd] at h
          simp [Body.marshal, hid, this]
      · refine reencodes_of (b := fun _ => .sysExMessage (Lib.lookupManufacturer [0x7f]) data false) (fun mc => ?_) (fun _ => ?_)
        · simp [bodyOutcome, unmarshalSysExMessage, sysExFromData, hd, ht]
        · simp [Body.marshal, hid]

/-- Sequencer specific events of 128 bytes or more do not survive writing and reading. -/
theorem C22_long_sequencer_specific_fails (pending : Bool) (m : Lib.Manufacturer) (data : Bytes)
    (h1 : 128 ≤ m.id.length + data.length) (h2 : m.id.length + data.length < 2 ^ 28) :
    ¬ ReadsBack pending (.sequencerSpecific m data) := by
  intro h
  have := ((C68_survives_iff pending (.sequencerSpecific m data) h2).1 h).1.2
  omega

/-- Universal non-realtime 7E and realtime 7F messages become indistinguishable: a realtime "master volume" message is written
back as a non-realtime one. -/
example : Reencodes false (.sysex 0xf0 [0x7f, 0x7f, 0x04, 0x01, 0x00, 0x40, 0xf7])
    (0xf0 :: vlf2bin [0x7e, 0x7f, 0x04, 0x01, 0x00, 0x40, 0xf7]) := C22_manufacturer_fails.2 _ (by simp)
example : Reencodes true (.metaEvent 0x7f [0, 0, 0x41, 1, 2]) [0xff, 0x7f, 5, 0, 0, 0x41, 1, 2] :=
  C22_manufacturer_partial.1 true [0, 0, 0x41] [1, 2] (Or.inr ⟨_, _, rfl⟩) (by decide)

/-- C23 for single messages, messages followed by further packets, continuation packets and escapes: the data are read back, and a
message is read back as single exactly if it was.  Missing: whether a continuation packet is the last one
(`C23_continuation_fails`). -/
theorem C23_sysex_roundtrip_partial (m : Lib.Manufacturer) (id : UInt8) (hid : m.id = [id]) (h7 : id ≠ 0x7f) (data : Bytes)
    (hd : data.length + 2 < 2 ^ 28) :
    ReadsBackAs false (.sysExMessage m data true) (.sysex [id] data true) ∧
    (data ≠ [] → data.getLast? ≠ some 0xf7 → ReadsBackAs false (.sysExMessage m data false) (.sysex [id] data false)) ∧
    (data.getLast? ≠ some 0xf7 → ReadsBackAs true (.sysExContinuation data false) (.continuation data)) ∧
    ReadsBackAs true (.sysExContinuation data true) (.continuation data) ∧
    ReadsBackAs false (.sysExEscape data) (.escape data) := by
  refine ⟨?_, fun h1 h2 => ?_, fun h => ?_, ?_, ?_⟩
  · have := readsBack_faithful false (.sysExMessage m data true) ⟨⟨id, hid, h7⟩, hd, by simp⟩ rfl
    simpa [ReadsBack, Body.view, hid] using this
  · have := readsBack_faithful false (.sysExMessage m data false) ⟨⟨id, hid, h7⟩, hd, fun _ => ⟨h1, h2⟩⟩ rfl
    simpa [ReadsBack, Body.view, hid] using this
  · exact readsBack_faithful true (.sysExContinuation data false) ⟨by omega, fun _ => h⟩ rfl
  · exact readsBack_faithful true (.sysExContinuation data true) ⟨by omega, by simp⟩ rfl
  · exact readsBack_faithful false (.sysExEscape data) (by simp only [Body.Faithful]; omega) rfl

/-- C23 is false for the termination of a multi-packet message: the decoder drops the terminating F7 of the last packet and the
encoder does not write it again. -/
theorem C23_continuation_fails (data : Bytes) (hd : data.getLast? ≠ some 0xf7) :
    Reencodes true (.sysex 0xf7 (data ++ [0xf7])) (0xf7 :: vlf2bin data) ∧
    Reencodes true (.sysex 0xf7 data) (0xf7 :: vlf2bin data) := by
  constructor
  · refine reencodes_of (b := fun _ => .sysExContinuation data false) (fun mc => ?_) (fun _ => ?_)
    · simp [bodyOutcome, unmarshalSysExContinuation]
    · simp [Body.marshal]
  · refine reencodes_of (b := fun _ => .sysExContinuation data false) (fun mc => ?_) (fun _ => ?_)
    · simp [bodyOutcome, unmarshalSysExContinuation, hd]
    · simp [Body.marshal]

example : Reencodes true (.sysex 0xf7 [1, 2, 0xf7]) [0xf7, 2, 1, 2] := (C23_continuation_fails [1, 2] (by simp)).1
example : ReadsBackAs false (.sysExMessage ⟨[0x43], "", ""⟩ [1, 2, 3] false) (.sysex [0x43] [1, 2, 3] false) :=
  (C23_sysex_roundtrip_partial ⟨[0x43], "", ""⟩ 0x43 rfl (by decide) [1, 2, 3] (by decide)).2.1 (by simp) (by simp)

end Midiasm
