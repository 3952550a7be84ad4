import Verif.Spec.ApiTypes
import Verif.Props.Binary

/-!
C139: the binary API of each event type.
-/

set_option linter.unusedSimpArgs false

namespace Midiasm
open Spec

theorem metaPrologue_other {db : Bytes} {delta : UInt32} (h : Quantity db delta.toNat) (type s t : UInt8) (rest : Bytes)
    (hx : s = 0xff → t &&& 0x7f ≠ type) : metaPrologue type (db ++ s :: t :: rest) = .err .other := by
  unfold metaPrologue
  rw [vlqSlice_quantity h]
  by_cases hs : s = 0xff
  · simp [hs, hx hs]
  · simp [hs]

theorem midiPrologue_other {db : Bytes} {delta : UInt32} (h : Quantity db delta.toNat) (type s : UInt8) (n : Nat) (rest : Bytes)
    (hx : s &&& 0xf0 ≠ type) : midiPrologue type n (db ++ s :: rest) = .err .other := by
  unfold midiPrologue
  rw [vlqSlice_quantity h]
  simp [hx]

theorem sysexPrologue_other {db : Bytes} {delta : UInt32} (h : Quantity db delta.toNat) (status s : UInt8) (rest spare : Bytes)
    (hx : s ≠ status) : sysexPrologue status (db ++ s :: rest) spare = .err .other := by
  unfold sysexPrologue
  rw [vlqSlice_quantity h]
  cases rest <;> simp [hx]

/-- What the first bytes of an event must be for a type. -/
def startsAs : Written → UInt8 → UInt8 → Bool
  | .metaType n, s, t => s == 0xff && (t &&& 0x7f).toNat == n
  | .chanStatus n, s, _ => (s &&& 0xf0).toNat == 16 * n
  | .sysexStatus n, s, _ => s.toNat == n

/-- Other events are refused. -/
theorem typed_other (mc : MiddleC) (ty : EventType) (spare : Bytes) {db : Bytes} {delta : UInt32} (hd : Quantity db delta.toNat) (s t : UInt8)
    (rest : Bytes) (h : startsAs (writtenAs ty) s t = false) : typedBinary mc ty (db ++ s :: t :: rest) spare = .err .other := by
  have hm : ∀ type : UInt8, (s == 0xff && (t &&& 0x7f).toNat == type.toNat) = false →
      metaPrologue type (db ++ s :: t :: rest) = .err .other := by
    intro type hx
    refine metaPrologue_other hd _ _ _ _ fun hs e => ?_
    simp [hs, e] at hx
  have hc : ∀ (type : UInt8) (n : Nat), ((s &&& 0xf0).toNat == type.toNat) = false → midiPrologue type n (db ++ s :: t :: rest) = .err .other := by
    intro type n hx
    refine midiPrologue_other hd _ _ _ _ fun e => ?_
    simp [e] at hx
  have hs : ∀ status : UInt8, (s.toNat == status.toNat) = false → sysexPrologue status (db ++ s :: t :: rest) spare = .err .other := by
    intro status hx
    refine sysexPrologue_other hd _ _ _ _ fun e => ?_
    simp [e] at hx
  cases ty with
  | sequenceNumber => simp only [typedBinary, binSequenceNumber]; rw [hm 0x00 h]; rfl
  | text k =>
    simp only [typedBinary, binText]
    rw [hm k.type (by cases k <;> exact h)]
    rfl
  | midiChannelPrefix => simp only [typedBinary, binMIDIChannelPrefix]; rw [hm 0x20 h]; rfl
  | midiPort => simp only [typedBinary, binMIDIPort]; rw [hm 0x21 h]; rfl
  | endOfTrack => simp only [typedBinary, binEndOfTrack]; rw [hm 0x2f h]; rfl
  | tempo => simp only [typedBinary, binTempo]; rw [hm 0x51 h]; rfl
  | smpteOffset => simp only [typedBinary, binSMPTEOffset]; rw [hm 0x54 h]; rfl
  | timeSignature => simp only [typedBinary, binTimeSignature]; rw [hm 0x58 h]; rfl
  | keySignature => simp only [typedBinary, binKeySignature]; rw [hm 0x59 h]; rfl
  | sequencerSpecific => simp only [typedBinary, binSequencerSpecific]; rw [hm 0x7f h]; rfl
  | noteOff => simp only [typedBinary, binNoteOff]; rw [hc 0x80 _ h]; rfl
  | noteOn => simp only [typedBinary, binNoteOn]; rw [hc 0x90 _ h]; rfl
  | polyphonicPressure => simp only [typedBinary, binPolyphonicPressure]; rw [hc 0xa0 _ h]; rfl
  | controller => simp only [typedBinary, binController]; rw [hc 0xb0 _ h]; rfl
  | programChange => simp only [typedBinary, binProgramChange]; rw [hc 0xc0 _ h]; rfl
  | channelPressure => simp only [typedBinary, binChannelPressure]; rw [hc 0xd0 _ h]; rfl
  | pitchBend => simp only [typedBinary, binPitchBend]; rw [hc 0xe0 _ h]; rfl
  | sysExMessage => simp only [typedBinary, binSysExMessage]; rw [hs 0xf0 h]; rfl
  | sysExContinuation => simp only [typedBinary, binSysExContinuation]; rw [hs 0xf7 h]; rfl
  | sysExEscape => simp only [typedBinary, binSysExEscape]; rw [hs 0xf7 h]; rfl

/-- The API for any event chooses the type by the first bytes. -/
theorem typed_chosen (mc : MiddleC) (ty : EventType) (hty : ty ≠ .sysExEscape) (spare : Bytes) {db : Bytes} {delta : UInt32}
    (hd : Quantity db delta.toNat) (s t : UInt8) (rest : Bytes) (h : startsAs (writtenAs ty) s t = true) :
    unmarshalBinary mc (db ++ s :: t :: rest) spare = typedBinary mc ty (db ++ s :: t :: rest) spare := by
  unfold unmarshalBinary
  rw [vlqSlice_quantity hd]
  simp only [Outcome.bind_ok]
  generalize db ++ s :: t :: rest = bytes
  have hff : ∀ s : UInt8, ∀ n, ((s &&& 0xf0).toNat == 16 * n) = true → n < 15 → s ≠ 0xff ∧ s &&& 0xf0 = UInt8.ofNat (16 * n) := by
    intro s n hx hn
    have e : (s &&& 0xf0).toNat = 16 * n := by simpa using hx
    refine ⟨?_, ?_⟩
    · rintro rfl
      have : ((0xff : UInt8) &&& 0xf0).toNat = 240 := by decide
      omega
    · apply u8_ext
      rw [e]
      simp
      omega
  have hmeta : ∀ n : Nat, (s == 0xff && (t &&& 0x7f).toNat == n) = true → n < 128 → s = 0xff ∧ t &&& 0x7f = UInt8.ofNat n := by
    intro n hx hn
    simp only [Bool.and_eq_true, beq_iff_eq] at hx
    refine ⟨hx.1, ?_⟩
    apply u8_ext
    rw [hx.2]
    simp
    omega
  have hsys : ∀ n : Nat, (s.toNat == n) = true → s = UInt8.ofNat n := by
    intro n hx
    rw [← UInt8.ofNat_toNat (x := s)]
    rw [show s.toNat = n by simpa using hx]
  cases ty with
  | sysExEscape => exact absurd rfl hty
  | text k =>
    cases k
    all_goals
      obtain ⟨rfl, e⟩ := hmeta _ h (by decide)
      rw [e]
      rfl
  | noteOff => obtain ⟨e1, e2⟩ := hff s _ h (by decide); simp only [e1, e2, false_and, if_false]; rfl
  | noteOn => obtain ⟨e1, e2⟩ := hff s _ h (by decide); simp only [e1, e2, false_and, if_false]; rfl
  | polyphonicPressure => obtain ⟨e1, e2⟩ := hff s _ h (by decide); simp only [e1, e2, false_and, if_false]; rfl
  | controller => obtain ⟨e1, e2⟩ := hff s _ h (by decide); simp only [e1, e2, false_and, if_false]; rfl
  | programChange => obtain ⟨e1, e2⟩ := hff s _ h (by decide); simp only [e1, e2, false_and, if_false]; rfl
  | channelPressure => obtain ⟨e1, e2⟩ := hff s _ h (by decide); simp only [e1, e2, false_and, if_false]; rfl
  | pitchBend => obtain ⟨e1, e2⟩ := hff s _ h (by decide); simp only [e1, e2, false_and, if_false]; rfl
  | sysExMessage => obtain rfl := hsys _ h; rfl
  | sysExContinuation => obtain rfl := hsys _ h; rfl
  | _ =>
    obtain ⟨rfl, e⟩ := hmeta _ h (by decide)
    rw [e]
    rfl

theorem written_range (ty : EventType) : (∃ n, n < 128 ∧ writtenAs ty = .metaType n) ∨ (∃ n, 8 ≤ n ∧ n < 15 ∧ writtenAs ty = .chanStatus n) ∨
    ∃ n, (n = 0xf0 ∨ n = 0xf7) ∧ writtenAs ty = .sysexStatus n := by
  cases ty with
  | text k => cases k <;> exact Or.inl ⟨_, by decide, rfl⟩
  | sequenceNumber | midiChannelPrefix | midiPort | endOfTrack | tempo | smpteOffset | timeSignature | keySignature | sequencerSpecific =>
    exact Or.inl ⟨_, by decide, rfl⟩
  | noteOff | noteOn | polyphonicPressure | controller | programChange | channelPressure | pitchBend =>
    exact Or.inr (Or.inl ⟨_, by decide, by decide, rfl⟩)
  | sysExMessage => exact Or.inr (Or.inr ⟨_, Or.inl rfl, rfl⟩)
  | sysExContinuation | sysExEscape => exact Or.inr (Or.inr ⟨_, Or.inr rfl, rfl⟩)

/-- The first two bytes of a framed event, and whether they are those of a type. -/
theorem framed_starts {raw : Raw} {eb : Bytes} {rs' : Option UInt8} (hf : Framed 1 none raw eb rs') :
    ∃ s t rest, eb = s :: t :: rest ∧ ∀ ty, startsAs (writtenAs ty) s t = true ↔ raw.WrittenAs (writtenAs ty) := by
  have hupper : ∀ s : UInt8, (s &&& 0xf0).toNat = s.toNat / 16 * 16 := by
    intro s
    rw [(nibble_facts s).1, UInt8.toNat_ofNat']
    have := s.toNat_lt
    omega
  generalize hrs : (none : Option UInt8) = rs at hf
  cases hf with
  | running => cases hrs
  | @full _ status data h1 h2 =>
    obtain ⟨ha, hb⟩ := h1
    have hlen : 1 ≤ data.length := by
      rw [h2]
      have hk : status.toNat / 16 = 8 ∨ status.toNat / 16 = 9 ∨ status.toNat / 16 = 10 ∨ status.toNat / 16 = 11 ∨ status.toNat / 16 = 12 ∨
        status.toNat / 16 = 13 ∨ status.toNat / 16 = 14 := by omega
      rcases hk with hk | hk | hk | hk | hk | hk | hk <;> simp [dataLen, hk]
    obtain ⟨d0, ds, rfl⟩ : ∃ d0 ds, data = d0 :: ds := by
      match data, hlen with
      | d0 :: ds, _ => exact ⟨d0, ds, rfl⟩
    refine ⟨status, d0, ds, rfl, fun ty => ?_⟩
    have hne : status ≠ 0xff := by rintro rfl; exact absurd hb (by decide)
    rcases written_range ty with ⟨n, -, e⟩ | ⟨n, h8, h15, e⟩ | ⟨n, hn, e⟩ <;> rw [e]
    · simp [startsAs, Raw.WrittenAs, hne]
    · simp only [startsAs, Raw.WrittenAs, hupper, beq_iff_eq]
      omega
    · simp only [startsAs, Raw.WrittenAs, beq_iff_eq, iff_false]
      omega
  | @metaEvent _ type len data hl =>
    refine ⟨0xff, type, _, rfl, fun ty => ?_⟩
    have hff : (0xff : UInt8).toNat = 255 := rfl
    rcases written_range ty with ⟨n, hn, e⟩ | ⟨n, h8, h15, e⟩ | ⟨n, hn, e⟩ <;> rw [e]
    · simp only [startsAs, Raw.WrittenAs, and7f_toNat, beq_self_eq_true, Bool.true_and, beq_iff_eq]
    · simp only [startsAs, Raw.WrittenAs, hupper, beq_iff_eq, iff_false, hff]
      omega
    · simp only [startsAs, Raw.WrittenAs, beq_iff_eq, iff_false, hff]
      omega
  | @sysex _ status len data hst hl =>
    obtain ⟨l, ls, hls⟩ : ∃ l ls, len ++ data = l :: ls := by
      cases len with
      | nil => exact absurd hl.1 (by simp [Terminated])
      | cons l ls => exact ⟨l, _, rfl⟩
    refine ⟨status, l, ls, by rw [hls], fun ty => ?_⟩
    have hv : status.toNat = 240 ∨ status.toNat = 247 := by rcases hst with rfl | rfl <;> decide
    have hne : status ≠ 0xff := by rcases hst with rfl | rfl <;> decide
    rcases written_range ty with ⟨n, hn, e⟩ | ⟨n, h8, h15, e⟩ | ⟨n, hn, e⟩ <;> rw [e]
    · simp [startsAs, Raw.WrittenAs, hne]
    · simp only [startsAs, Raw.WrittenAs, hupper, beq_iff_eq, iff_false]
      omega
    · simp only [startsAs, Raw.WrittenAs, beq_iff_eq]

theorem escape_typed (mc : MiddleC) (spare : Bytes) {db len data : Bytes} {delta : UInt32} (hd : Quantity db delta.toNat)
    (hl : Quantity len data.length) :
    typedBinary mc .sysExEscape (db ++ 0xf7 :: (len ++ data)) spare = .ok ⟨0, delta, db ++ 0xf7 :: (len ++ data), .sysExEscape data⟩ := by
  have hv := vlfSlice_extra hl [] spare
  rw [List.append_nil] at hv
  obtain ⟨l, ls, hls⟩ : ∃ l ls, len ++ data = l :: ls := by
    cases len with
    | nil => exact absurd hl.1 (by simp [Terminated])
    | cons l ls => exact ⟨l, _, rfl⟩
  rw [hls] at hv ⊢
  simp only [typedBinary, binSysExEscape, sysexPrologue]
  rw [vlqSlice_quantity hd]
  simp [hv]

/-- The binary API of one event type, given a complete event with its status byte: events of the type are decoded as by the API for any event
(C72), other events are refused.  An F7 packet is an escape if asked for one. -/
theorem C139_typed_api (mc : MiddleC) (spare : Bytes) (ty : EventType) (i : Item) (rs' : Option UInt8) (h : FramedItem 1 none i rs') :
    (i.raw.WrittenAs (writtenAs ty) → ty ≠ .sysExEscape →
      (∀ c, apiMeaning i.raw = some c → ∃ b, typedBinary mc ty i.bytes spare = .ok ⟨0, i.delta, i.bytes, b⟩ ∧ b.view = asShown c) ∧
      (apiMeaning i.raw = none → Refused (typedBinary mc ty i.bytes spare))) ∧
    (∀ data, i.raw = .sysex 0xf7 data → typedBinary mc .sysExEscape i.bytes spare = .ok ⟨0, i.delta, i.bytes, .sysExEscape data⟩) ∧
    (¬ i.raw.WrittenAs (writtenAs ty) → Refused (typedBinary mc ty i.bytes spare)) := by
  have hapi := C72_api_exact mc spare i rs' h
  obtain ⟨db, eb, hb, hq, hf⟩ := h
  refine ⟨fun hw hne => ?_, fun data hr => ?_, fun hw => ?_⟩
  · obtain ⟨s, t, rest, rfl, hs⟩ := framed_starts hf
    have := typed_chosen mc ty hne spare hq s t rest ((hs ty).2 hw)
    rw [hb] at hapi ⊢
    rwa [this] at hapi
  · rw [hr] at hf
    generalize hraw : Raw.sysex 0xf7 data = raw at hf
    cases hf with
    | full => cases hraw
    | metaEvent => cases hraw
    | sysex hst hl =>
      injection hraw with e1 e2
      subst e1; subst e2
      rw [hb]
      exact escape_typed mc spare hq hl
  · obtain ⟨s, t, rest, rfl, hs⟩ := framed_starts hf
    rw [hb]
    refine Or.inl ⟨_, typed_other mc ty spare hq s t rest ?_⟩
    cases hx : startsAs (writtenAs ty) s t with
    | false => rfl
    | true => exact absurd ((hs ty).1 hx) hw

/-- A tempo as a tempo, as a time signature; an F7 packet as an escape and as a continuation. -/
example : (∃ b, typedBinary .c3 .tempo [0x81, 0x48, 0xff, 0x51, 3, 7, 0xa1, 0x20] [] = .ok ⟨0, 200, [0x81, 0x48, 0xff, 0x51, 3, 7, 0xa1, 0x20], b⟩ ∧
      b.view = .tempo 500000) ∧
    Refused (typedBinary .c3 .timeSignature [0x81, 0x48, 0xff, 0x51, 3, 7, 0xa1, 0x20] []) ∧
    typedBinary .c3 .sysExEscape [0, 0xf7, 2, 0xf3, 1] [] = .ok ⟨0, 0, [0, 0xf7, 2, 0xf3, 1], .sysExEscape [0xf3, 1]⟩ := by
  have hq : Quantity [0x81, 0x48] (200 : UInt32).toNat := ⟨⟨[0x81], 0x48, rfl, by simp, by decide⟩, by decide⟩
  have hi : FramedItem 1 none ⟨200, .metaEvent 0x51 [7, 0xa1, 0x20], [0x81, 0x48, 0xff, 0x51, 3, 7, 0xa1, 0x20]⟩ none :=
    ⟨[0x81, 0x48], _, rfl, hq, Framed.metaEvent (len := [3]) (quantity1 3 (by decide))⟩
  have hj : FramedItem 1 none ⟨0, .sysex 0xf7 [0xf3, 1], [0, 0xf7, 2, 0xf3, 1]⟩ none :=
    ⟨[0], _, rfl, quantity1 0 (by decide), Framed.sysex (len := [2]) (Or.inr rfl) (quantity1 2 (by decide))⟩
  exact ⟨((C139_typed_api .c3 [] .tempo _ _ hi).1 rfl (by decide)).1 _ rfl, (C139_typed_api .c3 [] .timeSignature _ _ hi).2.2 (by simp [Raw.WrittenAs, writtenAs]),
    (C139_typed_api .c3 [] .sysExEscape _ _ hj).2.1 _ rfl⟩

end Midiasm
