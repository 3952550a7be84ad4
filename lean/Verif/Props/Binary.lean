import Verif.Spec.Api
import Verif.Model.Binary
import Verif.Lemmas.Meaning
import Verif.Props.RoundTrip
import Verif.Props.TrackEvents

/-!
Properties C62 and C72: the single-event binary API.
-/

set_option linter.unusedSimpArgs false

namespace Midiasm
open Spec

/-- Not a success. -/
def Refused {α : Type} (o : Outcome α) : Prop := (∃ e, o = .err e) ∨ o = .panic

theorem refused_of_errPanics {α : Type} {o : Outcome α} (h : errPanics o = .panic) : Refused o := by
  cases o <;> simp [errPanics, Refused] at h ⊢

theorem refused_not_ok {α : Type} {o : Outcome α} (h : Refused o) (a : α) : o ≠ .ok a := by
  rcases h with ⟨e, h⟩ | h <;> rw [h] <;> simp

theorem metaPrologue_quantity {db : Bytes} {delta : UInt32} (h : Quantity db delta.toNat) (t : UInt8) (rest : Bytes) :
    metaPrologue (t &&& 0x7f) (db ++ 0xff :: t :: rest) = .ok (delta, rest) := by
  unfold metaPrologue
  rw [vlqSlice_quantity h]
  simp

/-- The outcome of a parser of meta data as an event. -/
def asEvent (delta : UInt32) (bytes : Bytes) (o : Outcome Body) : Outcome Event := o >>= fun b => .ok ⟨0, delta, bytes, b⟩

theorem asEvent_ok (delta : UInt32) (bytes : Bytes) (b : Body) : asEvent delta bytes (.ok b) = .ok ⟨0, delta, bytes, b⟩ := rfl

theorem asEvent_refused {delta : UInt32} {bytes : Bytes} {o : Outcome Body} (h : Refused o) : Refused (asEvent delta bytes o) := by
  rcases h with ⟨e, h⟩ | h
  · exact Or.inl ⟨e, by rw [h]; rfl⟩
  · exact Or.inr (by rw [h]; rfl)

/-- Equal, or both refused. -/
def SameOk {α : Type} (a b : Outcome α) : Prop := a = b ∨ (Refused a ∧ Refused b)

theorem and7f_cases (t : UInt8) : (t &&& 0x7f).toNat = t.toNat % 128 := and7f_toNat t

theorem vlfSlice_extra {len data : Bytes} (h : Quantity len data.length) (extra spare : Bytes) :
    vlfSlice (len ++ data ++ extra) spare = .ok data := by
  have h2 := vlqSlice_quantity (quantity_len h) (data ++ extra)
  have h3 := quantity_len_toNat h
  rw [List.append_assoc, vlfSlice, h2]
  simp only [Outcome.bind_ok, h3, sliceTo]
  rw [if_pos (by simp only [List.length_append]; omega)]
  simp

theorem meta_api (mc : MiddleC) (spare extra : Bytes) {db len data : Bytes} {delta : UInt32} (hd : Quantity db delta.toNat) (t : UInt8)
    (hl : Quantity len data.length) (hx : ¬ ((t &&& 0x7f) = 0x7f ∧ data.length < 2)) :
    SameOk (unmarshalBinary mc (db ++ 0xff :: t :: (len ++ data ++ extra)) spare)
      (asEvent delta (db ++ 0xff :: t :: (len ++ data ++ extra)) (metaUnmarshal (t &&& 0x7f) (apiData (t &&& 0x7f).toNat data))) := by
  have hp := metaPrologue_quantity hd t (len ++ data ++ extra)
  have hv := vlfSlice_extra hl extra spare
  unfold unmarshalBinary
  rw [vlqSlice_quantity hd]
  simp only [Outcome.bind_ok]
  generalize db ++ 0xff :: t :: (len ++ data ++ extra) = bytes at hp ⊢
  generalize t &&& 0x7f = m at hp hx ⊢
  clear hd
  by_cases h00 : m = 0x00
  · subst h00
    show SameOk (binSequenceNumber bytes spare) (asEvent delta bytes (unmarshalSequenceNumber (data.take 2)))
    simp only [binSequenceNumber, hp, hv, Outcome.bind_ok]
    match data with
    | a :: b :: d => exact Or.inl rfl
    | [] => exact Or.inr ⟨Or.inr rfl, Or.inl ⟨_, rfl⟩⟩
    | [_] => exact Or.inr ⟨Or.inr rfl, Or.inl ⟨_, rfl⟩⟩
  by_cases h01 : m = 0x01
  · subst h01
    show SameOk (binText .text bytes spare) (asEvent delta bytes (unmarshalText .text data))
    simp only [binText, TextKind.type, hp, hv, Outcome.bind_ok]
    exact Or.inl rfl
  by_cases h02 : m = 0x02
  · subst h02
    show SameOk (binText .copyright bytes spare) (asEvent delta bytes (unmarshalText .copyright data))
    simp only [binText, TextKind.type, hp, hv, Outcome.bind_ok]
    exact Or.inl rfl
  by_cases h03 : m = 0x03
  · subst h03
    show SameOk (binText .trackName bytes spare) (asEvent delta bytes (unmarshalText .trackName data))
    simp only [binText, TextKind.type, hp, hv, Outcome.bind_ok]
    exact Or.inl rfl
  by_cases h04 : m = 0x04
  · subst h04
    show SameOk (binText .instrumentName bytes spare) (asEvent delta bytes (unmarshalText .instrumentName data))
    simp only [binText, TextKind.type, hp, hv, Outcome.bind_ok]
    exact Or.inl rfl
  by_cases h05 : m = 0x05
  · subst h05
    show SameOk (binText .lyric bytes spare) (asEvent delta bytes (unmarshalText .lyric data))
    simp only [binText, TextKind.type, hp, hv, Outcome.bind_ok]
    exact Or.inl rfl
  by_cases h06 : m = 0x06
  · subst h06
    show SameOk (binText .marker bytes spare) (asEvent delta bytes (unmarshalText .marker data))
    simp only [binText, TextKind.type, hp, hv, Outcome.bind_ok]
    exact Or.inl rfl
  by_cases h07 : m = 0x07
  · subst h07
    show SameOk (binText .cuePoint bytes spare) (asEvent delta bytes (unmarshalText .cuePoint data))
    simp only [binText, TextKind.type, hp, hv, Outcome.bind_ok]
    exact Or.inl rfl
  by_cases h08 : m = 0x08
  · subst h08
    show SameOk (binText .programName bytes spare) (asEvent delta bytes (unmarshalText .programName data))
    simp only [binText, TextKind.type, hp, hv, Outcome.bind_ok]
    exact Or.inl rfl
  by_cases h09 : m = 0x09
  · subst h09
    show SameOk (binText .deviceName bytes spare) (asEvent delta bytes (unmarshalText .deviceName data))
    simp only [binText, TextKind.type, hp, hv, Outcome.bind_ok]
    exact Or.inl rfl
  by_cases h20 : m = 0x20
  · subst h20
    show SameOk (binMIDIChannelPrefix bytes spare) (asEvent delta bytes (unmarshalMIDIChannelPrefix (data.take 1)))
    simp only [binMIDIChannelPrefix, hp, hv, Outcome.bind_ok]
    match data with
    | [] => exact Or.inr ⟨Or.inl ⟨_, rfl⟩, Or.inl ⟨_, rfl⟩⟩
    | c :: d =>
      left
      simp only [List.take_succ_cons, List.take_zero, unmarshalMIDIChannelPrefix, asEvent]
      split <;> rfl
  by_cases h21 : m = 0x21
  · subst h21
    show SameOk (binMIDIPort bytes spare) (asEvent delta bytes (unmarshalMIDIPort (data.take 1)))
    simp only [binMIDIPort, hp, hv, Outcome.bind_ok]
    match data with
    | [] => exact Or.inr ⟨Or.inl ⟨_, rfl⟩, Or.inl ⟨_, rfl⟩⟩
    | c :: d =>
      left
      simp only [List.take_succ_cons, List.take_zero, unmarshalMIDIPort, asEvent]
      split <;> rfl
  by_cases h2f : m = 0x2f
  · subst h2f
    show SameOk (binEndOfTrack bytes) (asEvent delta bytes (unmarshalEndOfTrack data))
    simp only [binEndOfTrack, hp, Outcome.bind_ok]
    exact Or.inl rfl
  by_cases h51 : m = 0x51
  · subst h51
    show SameOk (binTempo bytes spare) (asEvent delta bytes (unmarshalTempo (data.take 3)))
    simp only [binTempo, hp, hv, Outcome.bind_ok]
    match data with
    | a :: b :: c :: d =>
      left
      simp [unmarshalTempo, tempoFold, asEvent]
    | [] => exact Or.inr ⟨Or.inl ⟨_, rfl⟩, Or.inl ⟨_, rfl⟩⟩
    | [_] => exact Or.inr ⟨Or.inl ⟨_, rfl⟩, Or.inl ⟨_, rfl⟩⟩
    | [_, _] => exact Or.inr ⟨Or.inl ⟨_, rfl⟩, Or.inl ⟨_, rfl⟩⟩
  by_cases h54 : m = 0x54
  · subst h54
    show SameOk (binSMPTEOffset bytes spare) (asEvent delta bytes (unmarshalSMPTEOffset (data.take 5)))
    simp only [binSMPTEOffset, hp, hv, Outcome.bind_ok]
    match data with
    | _ :: _ :: _ :: _ :: _ :: d => exact Or.inl rfl
    | [] => exact Or.inr ⟨Or.inl ⟨_, rfl⟩, Or.inl ⟨_, rfl⟩⟩
    | [_] => exact Or.inr ⟨Or.inl ⟨_, rfl⟩, Or.inl ⟨_, rfl⟩⟩
    | [_, _] => exact Or.inr ⟨Or.inl ⟨_, rfl⟩, Or.inl ⟨_, rfl⟩⟩
    | [_, _, _] => exact Or.inr ⟨Or.inl ⟨_, rfl⟩, Or.inl ⟨_, rfl⟩⟩
    | [_, _, _, _] => exact Or.inr ⟨Or.inl ⟨_, rfl⟩, Or.inl ⟨_, rfl⟩⟩
  by_cases h58 : m = 0x58
  · subst h58
    show SameOk (binTimeSignature bytes spare) (asEvent delta bytes (unmarshalTimeSignature (data.take 4)))
    simp only [binTimeSignature, hp, hv, Outcome.bind_ok]
    match data with
    | _ :: _ :: _ :: _ :: d => exact Or.inl rfl
    | [] => exact Or.inr ⟨Or.inl ⟨_, rfl⟩, Or.inl ⟨_, rfl⟩⟩
    | [_] => exact Or.inr ⟨Or.inl ⟨_, rfl⟩, Or.inl ⟨_, rfl⟩⟩
    | [_, _] => exact Or.inr ⟨Or.inl ⟨_, rfl⟩, Or.inl ⟨_, rfl⟩⟩
    | [_, _, _] => exact Or.inr ⟨Or.inl ⟨_, rfl⟩, Or.inl ⟨_, rfl⟩⟩
  by_cases h59 : m = 0x59
  · subst h59
    show SameOk (binKeySignature bytes spare) (asEvent delta bytes (unmarshalKeySignature (data.take 2)))
    simp only [binKeySignature, hp, hv, Outcome.bind_ok]
    match data with
    | _ :: _ :: d => exact Or.inl rfl
    | [] => exact Or.inr ⟨Or.inl ⟨_, rfl⟩, Or.inl ⟨_, rfl⟩⟩
    | [_] => exact Or.inr ⟨Or.inl ⟨_, rfl⟩, Or.inl ⟨_, rfl⟩⟩
  by_cases h7f : m = 0x7f
  · subst h7f
    show SameOk (binSequencerSpecific bytes spare) (asEvent delta bytes (unmarshalSequencerSpecific data))
    have hn : ¬ data.length < 2 := fun h => hx ⟨rfl, h⟩
    simp only [binSequencerSpecific, hp, hv, Outcome.bind_ok, if_neg hn]
    left
    unfold unmarshalSequencerSpecific asEvent
    cases sequencerSplit data <;> rfl
  right
  constructor
  · rw [if_neg (by simp [h00]), if_neg (by simp [h01]), if_neg (by simp [h02]), if_neg (by simp [h03]), if_neg (by simp [h04]),
      if_neg (by simp [h05]), if_neg (by simp [h06]), if_neg (by simp [h07]), if_neg (by simp [h08]), if_neg (by simp [h09]),
      if_neg (by simp [h20]), if_neg (by simp [h21]), if_neg (by simp [h51]), if_neg (by simp [h58]), if_neg (by simp [h59]),
      if_neg (by simp [h54]), if_neg (by simp [h2f]), if_neg (by simp [h7f])]
    exact Or.inl ⟨_, rfl⟩
  · apply asEvent_refused
    left
    refine ⟨.other, ?_⟩
    unfold metaUnmarshal
    simp only [*, if_false]

theorem meta_api_short (mc : MiddleC) (spare extra : Bytes) {db len data : Bytes} {delta : UInt32} (hd : Quantity db delta.toNat) (t : UInt8)
    (hl : Quantity len data.length) (hx : (t &&& 0x7f) = 0x7f ∧ data.length < 2) :
    Refused (unmarshalBinary mc (db ++ 0xff :: t :: (len ++ data ++ extra)) spare) := by
  have hp := metaPrologue_quantity hd t (len ++ data ++ extra)
  have hv := vlfSlice_extra hl extra spare
  unfold unmarshalBinary
  rw [vlqSlice_quantity hd]
  simp only [Outcome.bind_ok]
  generalize db ++ 0xff :: t :: (len ++ data ++ extra) = bytes at hp ⊢
  rw [hx.1] at hp ⊢
  show Refused (binSequencerSpecific bytes spare)
  simp only [binSequencerSpecific, hp, hv, Outcome.bind_ok, if_pos hx.2]
  exact Or.inl ⟨_, rfl⟩

theorem midiPrologue_quantity {db : Bytes} {delta : UInt32} (h : Quantity db delta.toNat) (s : UInt8) (data : Bytes) (n : Nat)
    (hn : data.length + 1 = n) : midiPrologue (s &&& 0xf0) n (db ++ s :: data) = .ok (delta, s &&& 0x0f, data) := by
  unfold midiPrologue
  rw [vlqSlice_quantity h]
  simp [hn]

theorem chan_api (mc : MiddleC) (spare : Bytes) {db data : Bytes} {delta : UInt32} (hd : Quantity db delta.toNat) (s : UInt8)
    (hs : IsChannelStatus s) (hl : data.length = dataLen 1 s) :
    (s.toNat / 16 = 14 ∧ 128 ≤ (data.headD 0).toNat → Refused (unmarshalBinary mc (db ++ s :: data) spare)) ∧
    (¬ (s.toNat / 16 = 14 ∧ 128 ≤ (data.headD 0).toNat) →
      SameOk (unmarshalBinary mc (db ++ s :: data) spare) (asEvent delta (db ++ s :: data) (midiUnmarshal mc s data))) := by
  obtain ⟨h1, h2, h3⟩ := nibble_facts s
  have hne : s ≠ 0xff := by
    rintro rfl
    exact absurd hs.2 (by decide)
  have hp := midiPrologue_quantity hd s data _ rfl
  have hk : s.toNat / 16 = 8 ∨ s.toNat / 16 = 9 ∨ s.toNat / 16 = 10 ∨ s.toNat / 16 = 11 ∨ s.toNat / 16 = 12 ∨
      s.toNat / 16 = 13 ∨ s.toNat / 16 = 14 := by
    obtain ⟨ha, hb⟩ := hs
    omega
  have hlen : 1 ≤ data.length := by
    rw [hl]
    rcases hk with hk | hk | hk | hk | hk | hk | hk <;> simp [dataLen, hk]
  obtain ⟨d0, ds, rfl⟩ : ∃ d0 ds, data = d0 :: ds := by
    match data, hlen with
    | d0 :: ds, _ => exact ⟨d0, ds, rfl⟩
  unfold unmarshalBinary
  rw [vlqSlice_quantity hd]
  simp only [Outcome.bind_ok]
  rw [if_neg (by simp [hne]), if_neg (by simp [hne]), if_neg (by simp [hne]), if_neg (by simp [hne]), if_neg (by simp [hne]),
      if_neg (by simp [hne]), if_neg (by simp [hne]), if_neg (by simp [hne]), if_neg (by simp [hne]), if_neg (by simp [hne]),
      if_neg (by simp [hne]), if_neg (by simp [hne]), if_neg (by simp [hne]), if_neg (by simp [hne]), if_neg (by simp [hne]),
      if_neg (by simp [hne]), if_neg (by simp [hne]), if_neg (by simp [hne])]
  generalize db ++ s :: d0 :: ds = bytes at hp ⊢
  simp only [List.headD_cons]
  rcases hk with hk | hk | hk | hk | hk | hk | hk
  all_goals
    rw [hk] at h1
    simp only [dataLen, hk] at hl
    rw [hl] at hp
    rw [h1] at hp
    unfold midiUnmarshal
    rw [h1]
  · refine ⟨fun h => absurd h.1 (by omega), fun _ => ?_⟩
    obtain ⟨v, rfl⟩ : ∃ v, ds = [v] := List.length_eq_one_iff.1 (by simpa using hl)
    show SameOk (binNoteOff mc bytes) (asEvent delta bytes (unmarshalNoteOff mc s [d0, v]))
    have hp' : midiPrologue 0x80 3 bytes = .ok (delta, s &&& 0x0f, [d0, v]) := hp
    simp only [binNoteOff, hp', Outcome.bind_ok, unmarshalNoteOff]
    left
    split <;> rfl
  · refine ⟨fun h => absurd h.1 (by omega), fun _ => ?_⟩
    obtain ⟨v, rfl⟩ : ∃ v, ds = [v] := List.length_eq_one_iff.1 (by simpa using hl)
    show SameOk (binNoteOn mc bytes) (asEvent delta bytes (unmarshalNoteOn mc s [d0, v]))
    have hp' : midiPrologue 0x90 3 bytes = .ok (delta, s &&& 0x0f, [d0, v]) := hp
    simp only [binNoteOn, hp', Outcome.bind_ok, unmarshalNoteOn]
    left
    split <;> rfl
  · refine ⟨fun h => absurd h.1 (by omega), fun _ => ?_⟩
    obtain rfl : ds = [] := List.length_eq_zero_iff.1 (by simpa using hl)
    show SameOk (binPolyphonicPressure bytes) (asEvent delta bytes (unmarshalPolyphonicPressure s [d0]))
    have hp' : midiPrologue 0xa0 2 bytes = .ok (delta, s &&& 0x0f, [d0]) := hp
    simp only [binPolyphonicPressure, hp', Outcome.bind_ok, unmarshalPolyphonicPressure]
    by_cases hv : d0 > 127
    · right
      rw [if_pos hv]
      refine ⟨Or.inl ⟨_, rfl⟩, asEvent_refused (Or.inr ?_)⟩
      simp [makePolyphonicPressure, hv, h3]
    · rw [if_neg hv]
      exact Or.inl rfl
  · refine ⟨fun h => absurd h.1 (by omega), fun _ => ?_⟩
    obtain ⟨v, rfl⟩ : ∃ v, ds = [v] := List.length_eq_one_iff.1 (by simpa using hl)
    show SameOk (binController bytes) (asEvent delta bytes (unmarshalController s [d0, v]))
    have hp' : midiPrologue 0xb0 3 bytes = .ok (delta, s &&& 0x0f, [d0, v]) := hp
    simp only [binController, hp', Outcome.bind_ok, unmarshalController]
    exact Or.inl rfl
  · refine ⟨fun h => absurd h.1 (by omega), fun _ => ?_⟩
    obtain rfl : ds = [] := List.length_eq_zero_iff.1 (by simpa using hl)
    show SameOk (binProgramChange bytes) (asEvent delta bytes (unmarshalProgramChange s [d0]))
    have hp' : midiPrologue 0xc0 2 bytes = .ok (delta, s &&& 0x0f, [d0]) := hp
    simp only [binProgramChange, hp', Outcome.bind_ok, unmarshalProgramChange]
    exact Or.inl rfl
  · refine ⟨fun h => absurd h.1 (by omega), fun _ => ?_⟩
    obtain rfl : ds = [] := List.length_eq_zero_iff.1 (by simpa using hl)
    show SameOk (binChannelPressure bytes) (asEvent delta bytes (unmarshalChannelPressure s [d0]))
    have hp' : midiPrologue 0xd0 2 bytes = .ok (delta, s &&& 0x0f, [d0]) := hp
    simp only [binChannelPressure, hp', Outcome.bind_ok, unmarshalChannelPressure]
    left
    split <;> rfl
  · obtain ⟨v, rfl⟩ : ∃ v, ds = [v] := List.length_eq_one_iff.1 (by simpa using hl)
    have hp' : midiPrologue 0xe0 3 bytes = .ok (delta, s &&& 0x0f, [d0, v]) := hp
    refine ⟨fun h => ?_, fun h => ?_⟩
    · show Refused (binPitchBend bytes)
      simp only [binPitchBend, hp', Outcome.bind_ok]
      rw [if_pos ((u8_gt_127 d0).2 (by omega))]
      exact Or.inl ⟨_, rfl⟩
    · show SameOk (binPitchBend bytes) (asEvent delta bytes (unmarshalPitchBend s [d0, v]))
      simp only [binPitchBend, hp', Outcome.bind_ok, unmarshalPitchBend]
      rw [if_neg (fun h' => (u8_gt_127 d0).1 h' (by omega))]
      exact Or.inl rfl

theorem sysex_api (mc : MiddleC) (spare extra : Bytes) {db len data : Bytes} {delta : UInt32} (hd : Quantity db delta.toNat)
    (hl : Quantity len data.length) :
    SameOk (unmarshalBinary mc (db ++ 0xf0 :: (len ++ data ++ extra)) spare) (asEvent delta (db ++ 0xf0 :: (len ++ data ++ extra)) (unmarshalSysExMessage data)) ∧
    unmarshalBinary mc (db ++ 0xf7 :: (len ++ data ++ extra)) spare = asEvent delta (db ++ 0xf7 :: (len ++ data ++ extra)) (unmarshalSysExContinuation data) := by
  have hv := vlfSlice_extra hl extra spare
  obtain ⟨l, ls, hls⟩ : ∃ l ls, len ++ data ++ extra = l :: ls := by
    cases len with
    | nil => exact absurd hl.1 (by simp [Terminated])
    | cons l ls => exact ⟨l, _, rfl⟩
  rw [hls] at hv ⊢
  have hp : ∀ s, sysexPrologue s (db ++ s :: l :: ls) spare = .ok (delta, data) := by
    intro s
    unfold sysexPrologue
    rw [vlqSlice_quantity hd]
    simp [hv]
  constructor
  · unfold unmarshalBinary
    rw [vlqSlice_quantity hd]
    simp only [Outcome.bind_ok]
    show SameOk (binSysExMessage _ spare) _
    simp only [binSysExMessage, hp, Outcome.bind_ok]
    cases data with
    | nil => exact Or.inr ⟨Or.inr rfl, Or.inl ⟨_, rfl⟩⟩
    | cons d ds => exact Or.inl rfl
  · unfold unmarshalBinary
    rw [vlqSlice_quantity hd]
    simp only [Outcome.bind_ok]
    show binSysExContinuation _ spare = _
    simp only [binSysExContinuation, hp, Outcome.bind_ok]
    rfl

theorem sameOk_finish {o : Outcome Event} {delta : UInt32} {bytes : Bytes} {ob : Outcome Body} {m : Option Content}
    (h : SameOk o (asEvent delta bytes ob)) (h1 : ∀ c, m = some c → ∃ b, ob = .ok b ∧ b.view = asShown c)
    (h2 : m = none → Refused ob) :
    (∀ c, m = some c → ∃ b, o = .ok ⟨0, delta, bytes, b⟩ ∧ b.view = asShown c) ∧ (m = none → Refused o) := by
  refine ⟨fun c hc => ?_, fun hn => ?_⟩
  · obtain ⟨b, hb, hv⟩ := h1 c hc
    rw [hb, asEvent_ok] at h
    rcases h with h | h
    · exact ⟨b, h, hv⟩
    · exact absurd rfl (refused_not_ok h.2 _)
  · rcases h with h | h
    · rw [h]
      exact asEvent_refused (h2 hn)
    · exact h.1

theorem midiPrologue_length {db : Bytes} {delta : UInt32} (h : Quantity db delta.toNat) (s t : UInt8) (data : Bytes) (n : Nat)
    (hn : data.length + 1 ≠ n) : midiPrologue t n (db ++ s :: data) = .err .other := by
  unfold midiPrologue
  rw [vlqSlice_quantity h]
  simp [hn]

/-- A channel event with too few or too many data bytes is refused. -/
theorem chan_api_length (mc : MiddleC) (spare : Bytes) {db data : Bytes} {delta : UInt32} (hd : Quantity db delta.toNat) (s : UInt8)
    (hs : IsChannelStatus s) (hl : data.length ≠ dataLen 1 s) : Refused (unmarshalBinary mc (db ++ s :: data) spare) := by
  obtain ⟨h1, h2, h3⟩ := nibble_facts s
  have hne : s ≠ 0xff := by
    rintro rfl
    exact absurd hs.2 (by decide)
  have hk : s.toNat / 16 = 8 ∨ s.toNat / 16 = 9 ∨ s.toNat / 16 = 10 ∨ s.toNat / 16 = 11 ∨ s.toNat / 16 = 12 ∨
      s.toNat / 16 = 13 ∨ s.toNat / 16 = 14 := by
    obtain ⟨ha, hb⟩ := hs
    omega
  have hp : ∀ t, midiPrologue t (dataLen 1 s + 1) (db ++ s :: data) = .err .other :=
    fun t => midiPrologue_length hd s t data _ (by omega)
  unfold unmarshalBinary
  rw [vlqSlice_quantity hd]
  simp only [Outcome.bind_ok]
  cases data with
  | nil => exact Or.inl ⟨_, rfl⟩
  | cons d0 ds =>
    simp only
    rw [if_neg (by simp [hne]), if_neg (by simp [hne]), if_neg (by simp [hne]), if_neg (by simp [hne]), if_neg (by simp [hne]),
        if_neg (by simp [hne]), if_neg (by simp [hne]), if_neg (by simp [hne]), if_neg (by simp [hne]), if_neg (by simp [hne]),
        if_neg (by simp [hne]), if_neg (by simp [hne]), if_neg (by simp [hne]), if_neg (by simp [hne]), if_neg (by simp [hne]),
        if_neg (by simp [hne]), if_neg (by simp [hne]), if_neg (by simp [hne])]
    generalize db ++ s :: d0 :: ds = bytes at hp ⊢
    left
    refine ⟨.other, ?_⟩
    rcases hk with hk | hk | hk | hk | hk | hk | hk
    all_goals
      rw [hk] at h1
      simp only [dataLen, hk] at hp
      rw [h1]
    · show binNoteOff mc bytes = _
      simp only [binNoteOff, hp, Outcome.bind_err]
    · show binNoteOn mc bytes = _
      simp only [binNoteOn, hp, Outcome.bind_err]
    · show binPolyphonicPressure bytes = _
      simp only [binPolyphonicPressure, hp, Outcome.bind_err]
    · show binController bytes = _
      simp only [binController, hp, Outcome.bind_err]
    · show binProgramChange bytes = _
      simp only [binProgramChange, hp, Outcome.bind_err]
    · show binChannelPressure bytes = _
      simp only [binChannelPressure, hp, Outcome.bind_err]
    · show binPitchBend bytes = _
      simp only [binPitchBend, hp, Outcome.bind_err]

/-- The outcome of the single-event API for every complete event with its status byte, followed by further bytes unless it is a channel event. -/
theorem api_general (mc : MiddleC) (spare extra : Bytes) (i : Item) (rs' : Option UInt8) (h : FramedItem 1 none i rs')
    (he : extra = [] ∨ ∀ s d, i.raw ≠ .chan s d) :
    (∀ c, apiMeaning i.raw = some c → ∃ b, unmarshalBinary mc (i.bytes ++ extra) spare = .ok ⟨0, i.delta, i.bytes ++ extra, b⟩ ∧ b.view = asShown c) ∧
    (apiMeaning i.raw = none → Refused (unmarshalBinary mc (i.bytes ++ extra) spare)) := by
  obtain ⟨db, eb, hb, hq, hf⟩ := h
  rw [hb]
  generalize i.raw = raw at hf he
  have hwf := wfRaw_of_framed hf
  generalize hrs : (none : Option UInt8) = rs at hf
  cases hf with
  | running => cases hrs
  | @full _ status data h1 h2 =>
    obtain rfl : extra = [] := by
      rcases he with h | h
      · exact h
      · exact absurd rfl (h status data)
    rw [List.append_nil]
    obtain ⟨c1, c2⟩ := chan_api mc spare hq status h1 h2
    by_cases hx : status.toNat / 16 = 14 ∧ 128 ≤ (data.headD 0).toNat
    · simp only [apiMeaning, if_pos hx]
      exact ⟨fun c hc => (by cases hc), fun _ => c1 hx⟩
    · simp only [apiMeaning, if_neg hx]
      obtain ⟨b1, b2⟩ := body_meaning mc false (.chan status data) ⟨h1, h2⟩
      refine sameOk_finish (c2 hx) (fun c hc => ?_) (fun hn => ?_)
      · obtain ⟨b, hb, hv⟩ := b1 c hc
        refine ⟨b, ?_, hv⟩
        simp only [bodyOutcome] at hb
        cases hm : midiUnmarshal mc status data <;> simp [hm, errPanics] at hb ⊢
        exact hb
      · rcases b2 hn with h | h
        · exact absurd h.1 (by simp [RefusedSysEx])
        · exact refused_of_errPanics h.2
  | @metaEvent _ type len data hl =>
    rw [List.append_assoc, List.cons_append, List.cons_append]
    have ht := and7f_toNat type
    have hx7 : (type &&& 0x7f = 0x7f ∧ data.length < 2) ↔ (type.toNat % 128 = 0x7f ∧ data.length < 2) := by
      rw [← ht, ← UInt8.toNat_inj]
      exact Iff.rfl
    by_cases hx : type.toNat % 128 = 0x7f ∧ data.length < 2
    · simp only [apiMeaning, if_pos hx]
      exact ⟨fun c hc => (by cases hc), fun _ => meta_api_short mc spare extra hq type hl (hx7.2 hx)⟩
    · simp only [apiMeaning, if_neg hx]
      have hs := meta_api mc spare extra hq type hl (fun h => hx (hx7.1 h))
      obtain ⟨b1, b2⟩ := meta_body (type &&& 0x7f) (apiData (type &&& 0x7f).toNat data)
      rw [ht] at hs b1 b2
      exact sameOk_finish hs b1 (fun hn => refused_of_errPanics (b2 hn))
  | @sysex _ status len data hst hl =>
    rw [List.append_assoc, List.cons_append]
    obtain ⟨s1, s2⟩ := sysex_api mc spare extra hq hl
    rcases hst with rfl | rfl
    · obtain ⟨b1, b2⟩ := body_meaning mc false (.sysex 0xf0 data) (Or.inl rfl)
      refine sameOk_finish s1 b1 (fun hn => ?_)
      rcases b2 hn with h | h
      · exact Or.inl ⟨_, h.2⟩
      · exact Or.inr h.2
    · obtain ⟨b1, b2⟩ := body_meaning mc true (.sysex 0xf7 data) (Or.inr rfl)
      refine sameOk_finish (Or.inl s2) b1 (fun hn => ?_)
      rcases b2 hn with h | h
      · exact Or.inl ⟨_, h.2⟩
      · exact Or.inr h.2

/-- C72: the outcome of the single-event API for every complete event with its status byte, whatever lies beyond the bytes. -/
theorem C72_api_exact (mc : MiddleC) (spare : Bytes) (i : Item) (rs' : Option UInt8) (h : FramedItem 1 none i rs') :
    (∀ c, apiMeaning i.raw = some c → ∃ b, unmarshalBinary mc i.bytes spare = .ok ⟨0, i.delta, i.bytes, b⟩ ∧ b.view = asShown c) ∧
    (apiMeaning i.raw = none → Refused (unmarshalBinary mc i.bytes spare)) := by
  have := api_general mc spare [] i rs' h (Or.inl rfl)
  simpa only [List.append_nil] using this

/-- C103: a channel event that is not exactly as long as its status says is refused. -/
theorem C103_channel_length_partial (mc : MiddleC) (spare db data : Bytes) (delta : UInt32) (hd : Quantity db delta.toNat) (s : UInt8)
    (hs : IsChannelStatus s) (hl : data.length ≠ dataLen 1 s) : Refused (unmarshalBinary mc (db ++ s :: data) spare) :=
  chan_api_length mc spare hd s hs hl

/-- C103 is false for meta events and SysEx messages: whatever follows the event is ignored but kept as part of its bytes. -/
theorem C103_trailing_bytes_fails (mc : MiddleC) (spare extra : Bytes) (i : Item) (rs' : Option UInt8) (h : FramedItem 1 none i rs')
    (hr : ∀ s d, i.raw ≠ .chan s d) :
    (∀ c, apiMeaning i.raw = some c → ∃ b, unmarshalBinary mc (i.bytes ++ extra) spare = .ok ⟨0, i.delta, i.bytes ++ extra, b⟩ ∧ b.view = asShown c) ∧
    (apiMeaning i.raw = none → Refused (unmarshalBinary mc (i.bytes ++ extra) spare)) :=
  api_general mc spare extra i rs' h (Or.inr hr)

/-- A note off with a data byte too many, and a tempo followed by another event. -/
example : Refused (unmarshalBinary .c3 [0, 0x80, 60, 64, 0] []) ∧
    ∃ b, unmarshalBinary .c3 [0, 0xff, 0x51, 3, 7, 0xa1, 0x20, 0, 0xff, 0x2f, 0] [] =
      .ok ⟨0, 0, [0, 0xff, 0x51, 3, 7, 0xa1, 0x20, 0, 0xff, 0x2f, 0], b⟩ ∧ b.view = .tempo 500000 := by
  constructor
  · exact C103_channel_length_partial .c3 [] [0] [60, 64, 0] 0 ⟨⟨[], _, rfl, by simp, by decide⟩, by decide⟩ 0x80 (by unfold IsChannelStatus; decide) (by decide)
  · exact (C103_trailing_bytes_fails .c3 [] [0, 0xff, 0x2f, 0] ⟨0, .metaEvent 0x51 [7, 0xa1, 0x20], [0, 0xff, 0x51, 3, 7, 0xa1, 0x20]⟩ none
      ⟨[0], [0xff, 0x51, 3, 7, 0xa1, 0x20], rfl, ⟨⟨[], _, rfl, by simp, by decide⟩, by decide⟩, .metaEvent (len := [3]) ⟨⟨[], _, rfl, by simp, by decide⟩, by decide⟩⟩ (by intro s d h; cases h)).1 _ rfl

/-! ### Agreement with the track decoder -/

theorem apiData_eq {t : Nat} {d : Bytes} {c : Content} (h : metaMeaning t d = some c) : apiData t d = d := by
  unfold apiData fixedLength
  split
  · rename_i k hk
    have hlen : d.length = k := by
      split at hk <;> (try cases hk) <;> simp only [metaMeaning] at h <;> simp at h
      · match d, h with
        | [_, _], _ => rfl
      · match d, h with
        | [_], _ => rfl
      · match d, h with
        | [_], _ => rfl
      · match d, h with
        | [_, _, _], _ => rfl
      · match d, h with
        | [_, _, _, _, _], _ => rfl
      · match d, h with
        | [_, _, _, _], _ => rfl
      · match d, h with
        | [_, _], _ => rfl
    rw [← hlen, List.take_length]
  · rfl

/-- The events on which the single-event API and the track decoder differ: escape messages, pitch bends beyond 14 bits and
sequencer specific events that are just a manufacturer ID. -/
def ApiDiffers : Content → Prop
  | .escape _ => True
  | .pitchBend _ b => 16384 ≤ b
  | .sequencerSpecific id d => id.length = 1 ∧ d = []
  | _ => False

theorem apiMeaning_eq {p : Bool} {raw : Raw} {c : Content} (h : meaning p raw = some c) (hd : ¬ ApiDiffers c) (wf : WfRaw raw) :
    apiMeaning raw = some c := by
  cases raw with
  | chan s d =>
    simp only [meaning] at h
    simp only [apiMeaning]
    rw [if_neg, h]
    rintro ⟨h1, h2⟩
    rcases chanMeaning_inv h with ⟨_, _, rfl, _, _, rfl⟩ | ⟨_, _, rfl, _, _, rfl⟩ | ⟨_, rfl, _, _, rfl⟩ | ⟨_, _, rfl, _, _, rfl⟩ |
      ⟨_, _, rfl, _, rfl⟩ | ⟨_, rfl, _, rfl⟩ | ⟨_, rfl, _, _, rfl⟩ | ⟨_, _, rfl, _, rfl⟩ <;> try omega
    apply hd
    simp only [ApiDiffers]
    simp only [List.headD_cons] at h2
    omega
  | metaEvent t d =>
    simp only [meaning] at h
    simp only [apiMeaning]
    rw [if_neg, apiData_eq h, h]
    rintro ⟨h1, h2⟩
    rw [h1] at h
    match d, h2 with
    | [], _ => simp [metaMeaning] at h
    | [b], _ =>
      simp [metaMeaning] at h
      obtain ⟨_, rfl⟩ := h
      exact hd ⟨rfl, rfl⟩
  | sysex s d =>
    simp only [meaning] at h
    simp only [apiMeaning]
    rcases wf with rfl | rfl
    · cases p with
      | false => exact h
      | true =>
        match d with
        | [] => simp [sysexMeaning] at h
        | [_] => simp [sysexMeaning] at h
        | _ :: _ :: _ => simp [sysexMeaning] at h
    · cases p with
      | true => exact h
      | false =>
        simp [sysexMeaning] at h
        subst h
        exact absurd trivial hd

theorem terminated_split {a b : Bytes} {x y : Bytes} (ha : Terminated a) (hb : Terminated b) (h : a ++ x = b ++ y) : x = y := by
  have h1 := vlqSlice_terminated ha x
  have h2 := vlqSlice_terminated hb y
  rw [h, h2] at h1
  injection h1 with h1
  injection h1 with _ h1
  exact h1.symm

/-- C62: for an event of a decoded track that is written with its status byte, the API gives the same delta time and field values,
whatever lies beyond the bytes.  Missing: the three kinds of events of `ApiDiffers`, events under running status (their bytes do
not say what they are) and incomplete events, see `C62_api_fails`. -/
theorem C62_api_agrees_partial (mc : MiddleC) (spare : Bytes) (n : Nat) (ch : Chunk) (wf : ch.Wf) (ht : ch.tag = tagMTrk) (t : MTrk)
    (h : unmarshalMTrk mc spare n ch.bytes = .ok t) (e : Event) (he : e ∈ t.events)
    (hs : ∃ db s rest, e.bytes = db ++ s :: rest ∧ Terminated db ∧ 0x80 ≤ s.toNat) (hd : ¬ ApiDiffers e.body.view) (mc' : MiddleC)
    (spare' : Bytes) :
    ∃ e', unmarshalBinary mc' e.bytes spare' = .ok e' ∧ e'.delta = e.delta ∧ e'.bytes = e.bytes ∧ e'.body.view = e.body.view := by
  obtain ⟨items, tail, rs', cs, hb, hf, htr, hm0, hl0, hview, hdelta, hbytes, _⟩ := track_decomposition mc spare n ch wf ht t h
  obtain ⟨k, hk⟩ := List.mem_iff_getElem?.1 he
  have b1 := congrArg (·[k]?) hbytes
  have b2 := congrArg (·[k]?) hdelta
  have b3 := congrArg (·[k]?) hview
  simp only [List.getElem?_map, hk, Option.map_some] at b1 b2 b3
  cases hi : items[k]? with
  | none => rw [hi] at b1; cases b1
  | some i =>
    rw [hi] at b1 b2
    simp only [Option.map_some, Option.some.injEq] at b1 b2
    cases hc : cs[k]? with
    | none => rw [hc] at b3; cases b3
    | some c =>
      rw [hc] at b3
      simp only [Option.map_some, Option.some.injEq] at b3
      obtain ⟨c', hc', hmean⟩ := meanings_get hm0 k i.raw (by simp [hi])
      rw [hc] at hc'
      injection hc' with hc'
      subst hc'
      obtain ⟨rs, rs1, db, eb, f1, f2, f3⟩ := framedTrack_mem hf i (List.mem_of_getElem? hi)
      have hf' : FramedItem 1 none i rs1 := by
        refine ⟨db, eb, f1, f2, ?_⟩
        generalize i.raw = raw at f3
        cases f3 with
        | full a b => exact .full a b
        | metaEvent a => exact .metaEvent a
        | sysex a b => exact .sysex a b
        | running a b d =>
          exfalso
          obtain ⟨db', s, rest, g1, g2, g3⟩ := hs
          rw [b1, f1] at g1
          have := terminated_split f2.1 g2 g1
          injection this with this
          rw [this] at d
          omega
      have hw : WfRaw i.raw := wfRaw_of_framed f3
      have hnd : ¬ ApiDiffers c := by
        intro hh
        apply hd
        rw [b3]
        cases c <;> simp only [ApiDiffers, asShown] at hh ⊢
        · refine ⟨?_, hh.2⟩
          split
          · rfl
          · exact hh.1
        · exact hh
      obtain ⟨b, r1, r2⟩ := (C72_api_exact mc' spare' i rs1 hf').1 c (apiMeaning_eq hmean hnd hw)
      rw [b1]
      exact ⟨_, r1, b2.symm, rfl, by rw [r2, b3]⟩

/-- C62 fails for incomplete events: a text that is cut short is completed from whatever lies beyond the bytes, and panics if there
is not enough.  It also fails for complete events: an escape message is taken for a continuation, and a pitch bend whose first data byte
has its top bit set and a sequencer specific event that is just a manufacturer ID, which the track decoder accepts, are refused. -/
theorem C62_api_fails (mc : MiddleC) :
    (∀ (db len d s spare : Bytes) (delta : UInt32), Quantity db delta.toNat → Quantity len (d ++ s).length →
      unmarshalBinary mc (db ++ 0xff :: 0x01 :: (len ++ d)) (s ++ spare) =
        .ok ⟨0, delta, db ++ 0xff :: 0x01 :: (len ++ d), .text .text (d ++ s)⟩) ∧
    (∀ (db len d s spare : Bytes) (delta : UInt32), Quantity db delta.toNat → Quantity len (d ++ s).length → spare.length < s.length →
      unmarshalBinary mc (db ++ 0xff :: 0x01 :: (len ++ d)) spare = .panic) ∧
    (∃ t, unmarshalMTrk mc [] 0 (Chunk.bytes ⟨tagMTrk, [0, 0xf7, 2, 0x41, 0x42, 0, 0xe0, 0x80, 0, 0, 0xff, 0x7f, 1, 0x43]⟩) = .ok t ∧
      t.events.map (fun e => (e.bytes, e.body.view)) = [([0, 0xf7, 2, 0x41, 0x42], .escape [0x41, 0x42]),
        ([0, 0xe0, 0x80, 0], .pitchBend 0 16384), ([0, 0xff, 0x7f, 1, 0x43], .sequencerSpecific [0x43] [])]) ∧
    (∀ spare, ∃ e, unmarshalBinary mc [0, 0xf7, 2, 0x41, 0x42] spare = .ok e ∧ e.body.view = .continuation [0x41, 0x42]) ∧
    (∀ spare, Refused (unmarshalBinary mc [0, 0xe0, 0x80, 0] spare)) ∧
    (∀ spare, Refused (unmarshalBinary mc [0, 0xff, 0x7f, 1, 0x43] spare)) := by
  have short : ∀ (len d s spare : Bytes), Quantity len (d ++ s).length →
      vlfSlice (len ++ d) spare = sliceTo d spare (d ++ s).length := by
    intro len d s spare h
    unfold vlfSlice
    rw [vlqSlice_quantity (quantity_len h)]
    simp only [Outcome.bind_ok, quantity_len_toNat h]
  have dispatch : ∀ (db rest spare : Bytes) (delta : UInt32), Quantity db delta.toNat →
      unmarshalBinary mc (db ++ 0xff :: 0x01 :: rest) spare =
        (vlfSlice rest spare >>= fun v => .ok ⟨0, delta, db ++ 0xff :: 0x01 :: rest, .text .text v⟩) := by
    intro db rest spare delta h
    unfold unmarshalBinary
    rw [vlqSlice_quantity h]
    simp only [Outcome.bind_ok]
    show binText .text _ spare = _
    have hp : metaPrologue 0x01 (db ++ 0xff :: 0x01 :: rest) = .ok (delta, rest) := metaPrologue_quantity h 0x01 rest
    simp only [binText, TextKind.type, hp, Outcome.bind_ok]
  refine ⟨?_, ?_, ?_, ?_, ?_, ?_⟩
  · intro db len d s spare delta h1 h2
    rw [dispatch db _ _ delta h1, short len d s _ h2]
    simp only [sliceTo]
    rw [if_pos (by simp)]
    have : (d ++ (s ++ spare)).take (d ++ s).length = d ++ s := by
      rw [← List.append_assoc, List.take_left]
    rw [this]
    rfl
  · intro db len d s spare delta h1 h2 h3
    rw [dispatch db _ _ delta h1, short len d s _ h2]
    simp only [sliceTo]
    rw [if_neg (by simp; omega)]
    rfl
  · obtain ⟨t, h1, h2⟩ := Outcome.of_test
      (o := unmarshalMTrk mc [] 0 (Chunk.bytes ⟨tagMTrk, [0, 0xf7, 2, 0x41, 0x42, 0, 0xe0, 0x80, 0, 0, 0xff, 0x7f, 1, 0x43]⟩))
      (p := fun t : MTrk => t.events.map (fun e => (e.bytes, e.body.view)) == [([0, 0xf7, 2, 0x41, 0x42], .escape [0x41, 0x42]),
        ([0, 0xe0, 0x80, 0], .pitchBend 0 16384), ([0, 0xff, 0x7f, 1, 0x43], .sequencerSpecific [0x43] [])])
      (by cases mc <;> decide +kernel)
    exact ⟨t, h1, beq_iff_eq.1 h2⟩
  · intro spare
    obtain ⟨b, h1, h2⟩ := (C72_api_exact mc spare ⟨0, .sysex 0xf7 [0x41, 0x42], [0, 0xf7, 2, 0x41, 0x42]⟩ none
      ⟨[0], [0xf7, 2, 0x41, 0x42], rfl, quantity1 0 (by decide), .sysex (len := [2]) (Or.inr rfl) (quantity1 2 (by decide))⟩).1
      (.continuation [0x41, 0x42]) rfl
    exact ⟨_, h1, h2⟩
  · intro spare
    exact (C72_api_exact mc spare ⟨0, .chan 0xe0 [0x80, 0], [0, 0xe0, 0x80, 0]⟩ (some 0xe0)
      ⟨[0], [0xe0, 0x80, 0], rfl, quantity1 0 (by decide), .full (by unfold IsChannelStatus; decide) rfl⟩).2 rfl
  · intro spare
    exact (C72_api_exact mc spare ⟨0, .metaEvent 0x7f [0x43], [0, 0xff, 0x7f, 1, 0x43]⟩ none
      ⟨[0], [0xff, 0x7f, 1, 0x43], rfl, quantity1 0 (by decide), .metaEvent (len := [1]) (quantity1 1 (by decide))⟩).2 rfl

/-- Events the API accepts, one with superfluous bytes. -/
example : apiMeaning (.metaEvent 0x51 [7, 0xa1, 0x20, 9]) = some (.tempo 500000) ∧ apiMeaning (.chan 0x93 [60, 64]) = some (.noteOn 3 60 64) ∧
    apiMeaning (.sysex 0xf7 [1, 2]) = some (.continuation [1, 2]) ∧ apiMeaning (.metaEvent 0x7f [0x41]) = none ∧
    FramedItem 1 none ⟨0, .metaEvent 0x51 [7, 0xa1, 0x20, 9], [0, 0xff, 0x51, 4, 7, 0xa1, 0x20, 9]⟩ none :=
  ⟨rfl, rfl, rfl, rfl, [0], [0xff, 0x51, 4, 7, 0xa1, 0x20, 9], rfl, quantity1 0 (by decide),
    .metaEvent (len := [4]) (quantity1 4 (by decide))⟩

end Midiasm
