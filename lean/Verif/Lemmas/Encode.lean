import Verif.Spec.Faithful
import Verif.Model.File
import Verif.Lemmas.Track

/-!
What the encoder writes for an event, and the running status fixup.
-/

set_option linter.unusedSimpArgs false

namespace Midiasm
open Spec

theorem or_channel (k : UInt8) (hk : k = 0x80 ∨ k = 0x90 ∨ k = 0xa0 ∨ k = 0xb0 ∨ k = 0xc0 ∨ k = 0xd0 ∨ k = 0xe0) (ch : UInt8)
    (h : ch.toNat ≤ 15) : k ||| ch = UInt8.ofNat (k.toNat + ch.toNat) := by
  have key : ∀ n : Fin 16, (0x80 ||| UInt8.ofNat n = UInt8.ofNat (0x80 + n)) ∧ (0x90 ||| UInt8.ofNat n = UInt8.ofNat (0x90 + n)) ∧
      (0xa0 ||| UInt8.ofNat n = UInt8.ofNat (0xa0 + n)) ∧ (0xb0 ||| UInt8.ofNat n = UInt8.ofNat (0xb0 + n)) ∧
      (0xc0 ||| UInt8.ofNat n = UInt8.ofNat (0xc0 + n)) ∧ (0xd0 ||| UInt8.ofNat n = UInt8.ofNat (0xd0 + n)) ∧
      (0xe0 ||| UInt8.ofNat n = UInt8.ofNat (0xe0 + n)) := by decide +kernel
  have := key ⟨ch.toNat, by omega⟩
  simp only [UInt8.ofNat_toNat] at this
  obtain ⟨h1, h2, h3, h4, h5, h6, h7⟩ := this
  rcases hk with rfl | rfl | rfl | rfl | rfl | rfl | rfl
  · exact h1
  · exact h2
  · exact h3
  · exact h4
  · exact h5
  · exact h6
  · exact h7

theorem byte32 (t : UInt32) (k : UInt32) (hk : k.toNat < 32) : (t >>> k &&& 0xff).toUInt8.toNat = t.toNat / 2 ^ k.toNat % 256 := by
  have h1 : (t >>> k &&& 0xff).toUInt8.toNat = (t >>> k &&& 0xff).toNat % 2 ^ 8 := UInt32.toNat_toUInt8 _
  rw [h1, UInt32.toNat_and, UInt32.toNat_shiftRight, Nat.mod_eq_of_lt hk, Nat.shiftRight_eq_div_pow]
  have : (0xff : UInt32).toNat = 2 ^ 8 - 1 := rfl
  rw [this, Nat.and_two_pow_sub_one_eq_mod]; omega

theorem byte16 (t : UInt16) (k : UInt16) (hk : k.toNat < 16) : (t >>> k &&& 0xff).toUInt8.toNat = t.toNat / 2 ^ k.toNat % 256 := by
  have h1 : (t >>> k &&& 0xff).toUInt8.toNat = (t >>> k &&& 0xff).toNat % 2 ^ 8 := UInt16.toNat_toUInt8 _
  rw [h1, UInt16.toNat_and, UInt16.toNat_shiftRight, Nat.mod_eq_of_lt hk, Nat.shiftRight_eq_div_pow]
  have : (0xff : UInt16).toNat = 2 ^ 8 - 1 := rfl
  rw [this, Nat.and_two_pow_sub_one_eq_mod]; omega

theorem quantity_vlq (n : Nat) (h : n < 2 ^ 28) : Quantity (vlq2bin (UInt32.ofNat n)) n := by
  have hn : (UInt32.ofNat n).toNat = n := by simp; omega
  obtain ⟨⟨ht, hv⟩, _, _⟩ := vlq2bin_spec (UInt32.ofNat n) (by omega)
  exact ⟨ht, by rw [hv, hn]; omega⟩

theorem quantity_byte (n : Nat) (h : n < 128) : Quantity [UInt8.ofNat n] n := by
  refine ⟨⟨[], UInt8.ofNat n, rfl, by simp, by simp; omega⟩, ?_⟩
  simp [value128]; omega

theorem quantity_delta (d : UInt32) (h : d.toNat < 2 ^ 28) : Quantity (deltaMarshal d) d.toNat := by
  have := quantity_vlq d.toNat h
  rwa [UInt32.ofNat_toNat] at this

theorem marshal_meta {ty : UInt8} {data bs : Bytes} (rs : Option UInt8) (h : data.length < 128)
    (hb : bs = 0xff :: ty :: UInt8.ofNat data.length :: data) : Framed 1 rs (.metaEvent ty data) bs none := by
  subst hb
  exact .metaEvent (len := [UInt8.ofNat data.length]) (quantity_byte _ h)

theorem smpteRateBits_or (r h : UInt8) (hr : r = 24 ∨ r = 25 ∨ r = 29 ∨ r = 30) (hh : h.toNat ≤ 24) :
    smpteRateBits r ||| (h &&& 0x1f) =
      UInt8.ofNat ((if r.toNat = 24 then 0 else if r.toNat = 25 then 1 else if r.toNat = 29 then 2 else 3) * 32 + h.toNat) := by
  have key : ∀ n : Fin 25, (smpteRateBits 24 ||| (UInt8.ofNat n &&& 0x1f) = UInt8.ofNat (0 * 32 + n)) ∧
      (smpteRateBits 25 ||| (UInt8.ofNat n &&& 0x1f) = UInt8.ofNat (1 * 32 + n)) ∧
      (smpteRateBits 29 ||| (UInt8.ofNat n &&& 0x1f) = UInt8.ofNat (2 * 32 + n)) ∧
      (smpteRateBits 30 ||| (UInt8.ofNat n &&& 0x1f) = UInt8.ofNat (3 * 32 + n)) := by decide +kernel
  have := key ⟨h.toNat, by omega⟩
  simp only [UInt8.ofNat_toNat] at this
  obtain ⟨h1, h2, h3, h4⟩ := this
  rcases hr with rfl | rfl | rfl | rfl
  · exact h1
  · exact h2
  · exact h3
  · exact h4

theorem denomLoop_pow (d : UInt8) (e : Nat) (he : e ≤ 7) (hd : d.toNat = 2 ^ e) : denomLoop d 8 1 0 = .ok e := by
  have key : ∀ e : Fin 8, denomLoop (UInt8.ofNat (2 ^ e.1)) 8 1 0 = .ok e.1 := by decide +kernel
  have := key ⟨e, by omega⟩
  rwa [← hd, UInt8.ofNat_toNat] at this

/-- What is written for a faithful event. -/
theorem marshal_faithful (b : Body) (hb : b.Faithful) :
    ∃ bs, b.marshal = .ok bs ∧
      ((∃ s data, b.wire = .chan s data ∧ bs = s :: data ∧ IsChannelStatus s ∧ data.length = dataLen 1 s ∧
          ((s &&& 0xf0 = 0x80 ∨ s &&& 0xf0 = 0x90) → ∃ d ds, data = d :: ds ∧ (b.KeyOk → d.toNat < 0x80))) ∨
       ((∀ rs, Framed 1 rs b.wire bs none) ∧ ∃ h r, bs = h :: r ∧ 0xf0 ≤ h.toNat)) := by
  have chan : ∀ (k : UInt8) (ch : UInt8), (k = 0x80 ∨ k = 0x90 ∨ k = 0xa0 ∨ k = 0xb0 ∨ k = 0xc0 ∨ k = 0xd0 ∨ k = 0xe0) →
      ch.toNat ≤ 15 → (UInt8.ofNat (k.toNat + ch.toNat)).toNat = k.toNat + ch.toNat := by
    intro k ch hk hch
    rcases hk with rfl | rfl | rfl | rfl | rfl | rfl | rfl <;> simp <;> omega
  have notHigh : ∀ (s : UInt8) (n : Nat), s.toNat / 16 = n → n < 16 → 10 ≤ n → ¬ (s &&& 0xf0 = 0x80 ∨ s &&& 0xf0 = 0x90) := by
    intro s n h1 h2 h3
    obtain ⟨g, _, _⟩ := nibble_facts s
    rw [g, h1]
    rintro (h | h)
    · have := congrArg UInt8.toNat h
      simp at this; omega
    · have := congrArg UInt8.toNat h
      simp at this; omega
  have metaCase : ∀ (ty : UInt8) (data : Bytes), b.wire = .metaEvent ty data → data.length < 128 →
      b.marshal = .ok (0xff :: ty :: UInt8.ofNat data.length :: data) →
      ∃ bs, b.marshal = .ok bs ∧
      ((∃ s data, b.wire = .chan s data ∧ bs = s :: data ∧ IsChannelStatus s ∧ data.length = dataLen 1 s ∧
          ((s &&& 0xf0 = 0x80 ∨ s &&& 0xf0 = 0x90) → ∃ d ds, data = d :: ds ∧ (b.KeyOk → d.toNat < 0x80))) ∨
       ((∀ rs, Framed 1 rs b.wire bs none) ∧ ∃ h r, bs = h :: r ∧ 0xf0 ≤ h.toNat)) := by
    intro ty data h1 h2 h3
    refine ⟨_, h3, Or.inr ⟨fun rs => ?_, _, _, rfl, by decide⟩⟩
    rw [h1]
    exact marshal_meta rs h2 rfl
  have sysexCase : ∀ (s : UInt8) (data : Bytes), (s = 0xf0 ∨ s = 0xf7) → b.wire = .sysex s data → data.length < 2 ^ 28 →
      b.marshal = .ok (s :: vlf2bin data) →
      ∃ bs, b.marshal = .ok bs ∧
      ((∃ s data, b.wire = .chan s data ∧ bs = s :: data ∧ IsChannelStatus s ∧ data.length = dataLen 1 s ∧
          ((s &&& 0xf0 = 0x80 ∨ s &&& 0xf0 = 0x90) → ∃ d ds, data = d :: ds ∧ (b.KeyOk → d.toNat < 0x80))) ∨
       ((∀ rs, Framed 1 rs b.wire bs none) ∧ ∃ h r, bs = h :: r ∧ 0xf0 ≤ h.toNat)) := by
    intro s data hs h1 h2 h3
    refine ⟨_, h3, Or.inr ⟨fun rs => ?_, s, _, rfl, by rcases hs with rfl | rfl <;> decide⟩⟩
    rw [h1, vlf2bin]
    exact .sysex hs (quantity_vlq _ h2)
  have chanCase : ∀ (k ch : UInt8) (data : Bytes), (k = 0x80 ∨ k = 0x90 ∨ k = 0xa0 ∨ k = 0xb0 ∨ k = 0xc0 ∨ k = 0xd0 ∨ k = 0xe0) →
      ch.toNat ≤ 15 → b.wire = .chan (UInt8.ofNat (k.toNat + ch.toNat)) data →
      b.marshal = .ok ((k ||| ch) :: data) → data.length = (if k = 0xa0 ∨ k = 0xc0 ∨ k = 0xd0 then 1 else 2) →
      ((k = 0x80 ∨ k = 0x90) → ∃ d ds, data = d :: ds ∧ (b.KeyOk → d.toNat < 0x80)) →
      ∃ bs, b.marshal = .ok bs ∧
      ((∃ s data, b.wire = .chan s data ∧ bs = s :: data ∧ IsChannelStatus s ∧ data.length = dataLen 1 s ∧
          ((s &&& 0xf0 = 0x80 ∨ s &&& 0xf0 = 0x90) → ∃ d ds, data = d :: ds ∧ (b.KeyOk → d.toNat < 0x80))) ∨
       ((∀ rs, Framed 1 rs b.wire bs none) ∧ ∃ h r, bs = h :: r ∧ 0xf0 ≤ h.toNat)) := by
    intro k ch data hk hch h1 h2 h3 h4
    have hn := chan k ch hk hch
    refine ⟨_, h2, Or.inl ⟨_, data, h1, by rw [or_channel k hk ch hch], ?_, ?_, ?_⟩⟩
    · unfold IsChannelStatus; rw [hn]
      rcases hk with rfl | rfl | rfl | rfl | rfl | rfl | rfl <;> simp <;> omega
    · rw [h3]; unfold dataLen; rw [hn]
      rcases hk with rfl | rfl | rfl | rfl | rfl | rfl | rfl <;> simp only [UInt8.reduceToNat]
      · rw [show (128 + ch.toNat) / 16 = 8 by omega]; rfl
      · rw [show (144 + ch.toNat) / 16 = 9 by omega]; rfl
      · rw [show (160 + ch.toNat) / 16 = 10 by omega]; rfl
      · rw [show (176 + ch.toNat) / 16 = 11 by omega]; rfl
      · rw [show (192 + ch.toNat) / 16 = 12 by omega]; rfl
      · rw [show (208 + ch.toNat) / 16 = 13 by omega]; rfl
      · rw [show (224 + ch.toNat) / 16 = 14 by omega]; rfl
    · rcases hk with rfl | rfl | rfl | rfl | rfl | rfl | rfl
      · exact fun _ => h4 (Or.inl rfl)
      · exact fun _ => h4 (Or.inr rfl)
      all_goals
        intro hx
        exact absurd hx (notHigh _ _ rfl (by rw [hn]; simp; omega) (by rw [hn]; simp; omega))
  cases b with
  | sequenceNumber n =>
    exact metaCase 0x00 (be16 n.toNat) rfl (by simp [be16]) (by simp [Body.marshal, putUint16_eq, be16])
  | text k s =>
    simp only [Body.Faithful] at hb
    by_cases hk : k = .trackName
    · subst hk
      simp only [if_true] at hb
      refine ⟨_, rfl, Or.inr ⟨fun rs => ?_, 0xff, _, rfl, by decide⟩⟩
      exact .metaEvent (quantity_vlq _ hb)
    · rw [if_neg hk] at hb
      have hty : UInt8.ofNat k.type.toNat = k.type := by simp
      refine metaCase k.type s (by simp [Body.wire, Body.view, wireOf]) hb ?_
      cases k <;> first | rfl | exact absurd rfl hk
  | midiChannelPrefix ch => exact metaCase 0x20 [ch] (by simp [Body.wire, Body.view, wireOf]) (by simp) rfl
  | midiPort p => exact metaCase 0x21 [p] (by simp [Body.wire, Body.view, wireOf]) (by simp) rfl
  | endOfTrack => exact metaCase 0x2f [] rfl (by simp) rfl
  | tempo t =>
    simp only [Body.Faithful] at hb
    refine metaCase 0x51 [UInt8.ofNat (t.toNat / 65536), UInt8.ofNat (t.toNat / 256 % 256), UInt8.ofNat (t.toNat % 256)] rfl (by simp) ?_
    have e1 : (t >>> 16 &&& 0xff).toUInt8 = UInt8.ofNat (t.toNat / 65536) := by
      apply u8_ext; rw [byte32 _ 16 (by decide), UInt8.toNat_ofNat']; simp only [UInt32.reduceToNat, UInt16.reduceToNat]
    have e2 : (t >>> 8 &&& 0xff).toUInt8 = UInt8.ofNat (t.toNat / 256 % 256) := by
      apply u8_ext; rw [byte32 _ 8 (by decide), UInt8.toNat_ofNat']; simp only [UInt32.reduceToNat, UInt16.reduceToNat]; omega
    have e3 : (t >>> 0 &&& 0xff).toUInt8 = UInt8.ofNat (t.toNat % 256) := by
      apply u8_ext; rw [byte32 _ 0 (by decide), UInt8.toNat_ofNat']; simp only [UInt32.reduceToNat, UInt16.reduceToNat]; omega
    simp only [Body.marshal, e1, e2, e3]
    rfl
  | smpteOffset h m s r f ff =>
    obtain ⟨h1, _, _, h4, _, _⟩ := hb
    refine metaCase 0x54 [smpteRateBits r ||| (h &&& 0x1f), m, s, f, ff] ?_ (by simp) rfl
    simp only [Body.wire, Body.view, wireOf, UInt8.ofNat_toNat, smpteRateBits_or r h h4 h1]
  | timeSignature n d c t =>
    obtain ⟨e, he, hd⟩ := hb
    have hl : Nat.log2 d.toNat = e := by rw [hd]; exact Nat.log2_two_pow
    refine metaCase 0x58 [n, UInt8.ofNat e, c, t] ?_ (by simp) ?_
    · simp [Body.wire, Body.view, wireOf, hl]
    · simp [Body.marshal, denomLoop_pow d e he hd]
  | keySignature a k name =>
    have ha : UInt8.ofNat (a.toInt % 256).toNat = a.toUInt8 := by
      have key : ∀ n : Fin 256, UInt8.ofNat ((Int8.ofInt n).toInt % 256).toNat = (Int8.ofInt n).toUInt8 := by decide +kernel
      have h2 : (a.toUInt8.toNat : Int) = a.toInt % 256 := by
        have := key ⟨a.toUInt8.toNat, a.toUInt8.toNat_lt⟩
        have hh : Int8.ofInt ((⟨a.toUInt8.toNat, a.toUInt8.toNat_lt⟩ : Fin 256) : Nat) = a := by
          have : ∀ u : UInt8, Int8.ofInt (u.toNat : Int) = u.toInt8 :=
            all8 (P := fun u => Int8.ofInt (u.toNat : Int) = u.toInt8) (by decide +kernel)
          simpa using this a.toUInt8
        rw [hh] at this
        have h3 := congrArg UInt8.toNat this
        have h4 : 0 ≤ a.toInt % 256 ∧ a.toInt % 256 < 256 := ⟨by omega, by omega⟩
        simp at h3
        omega
      apply u8_ext
      have h5 := a.toUInt8.toNat_lt
      simp only [UInt8.toNat_ofNat']
      omega
    refine metaCase 0x59 [a.toUInt8, k] ?_ (by simp) rfl
    simp only [Body.wire, Body.view, wireOf, ha, UInt8.ofNat_toNat]
  | sequencerSpecific m data =>
    obtain ⟨_, h2⟩ := hb
    exact metaCase 0x7f (m.id ++ data) rfl (by simpa using h2) (by simp [Body.marshal])
  | noteOff ch n v =>
    obtain ⟨h1, h3⟩ := hb
    exact chanCase 0x80 ch [n.value, v] (by simp) h1 (by simp [Body.wire, Body.view, wireOf]) rfl rfl
      (fun _ => ⟨_, _, rfl, fun h => by simp only [Body.KeyOk] at h; omega⟩)
  | noteOn ch n v =>
    obtain ⟨h1, h3⟩ := hb
    exact chanCase 0x90 ch [n.value, v] (by simp) h1 (by simp [Body.wire, Body.view, wireOf]) rfl rfl
      (fun _ => ⟨_, _, rfl, fun h => by simp only [Body.KeyOk] at h; omega⟩)
  | polyphonicPressure ch p =>
    exact chanCase 0xa0 ch [p] (by simp) hb.1 (by simp [Body.wire, Body.view, wireOf]) rfl rfl (fun h => absurd h (by decide))
  | controller ch c v =>
    exact chanCase 0xb0 ch [c.id, v] (by simp) hb (by simp [Body.wire, Body.view, wireOf]) rfl rfl (fun h => absurd h (by decide))
  | programChange ch bank p =>
    exact chanCase 0xc0 ch [p] (by simp) hb (by simp [Body.wire, Body.view, wireOf]) rfl rfl (fun h => absurd h (by decide))
  | channelPressure ch p =>
    exact chanCase 0xd0 ch [p] (by simp) hb.1 (by simp [Body.wire, Body.view, wireOf]) rfl rfl (fun h => absurd h (by decide))
  | pitchBend ch bend =>
    obtain ⟨h1, h2⟩ := hb
    refine chanCase 0xe0 ch [UInt8.ofNat (bend.toNat / 128), UInt8.ofNat (bend.toNat % 128)] (by simp) h1 rfl ?_ rfl (fun h => absurd h (by decide))
    have e1 : (bend >>> 8 &&& 0x00ff).toUInt8 = UInt8.ofNat (bend.toNat / 128) := by
      apply u8_ext; rw [byte16 _ 8 (by decide), UInt8.toNat_ofNat']; simp only [UInt32.reduceToNat, UInt16.reduceToNat]; omega
    have e2 : (bend >>> 0 &&& 0x00ff).toUInt8 = UInt8.ofNat (bend.toNat % 128) := by
      apply u8_ext; rw [byte16 _ 0 (by decide), UInt8.toNat_ofNat']; simp only [UInt32.reduceToNat, UInt16.reduceToNat]; omega
    simp only [Body.marshal, e1, e2]
  | sysExMessage m data single =>
    obtain ⟨⟨id, h1, _⟩, h2, _⟩ := hb
    exact sysexCase 0xf0 _ (Or.inl rfl) rfl (by rw [h1]; cases single <;> simp <;> omega) rfl
  | sysExContinuation data end_ =>
    obtain ⟨h2, _⟩ := hb
    exact sysexCase 0xf7 _ (Or.inr rfl) rfl (by cases end_ <;> simp [Body.isEnd] <;> omega) rfl
  | sysExEscape data => exact sysexCase 0xf7 data (Or.inr rfl) rfl hb rfl

theorem textKind_range (k : TextKind) : 1 ≤ k.type.toNat ∧ k.type.toNat ≤ 9 := by cases k <;> decide

/-- What is written for a faithful event means that event. -/
theorem meaning_faithful (b : Body) (hb : b.Faithful) (pending : Bool) (ho : b.InOrder pending) :
    meaning pending b.wire = some b.view ∧ pendingAfter pending b.wire = b.pendingNext pending ∧
      asShown b.view = b.view := by
  have hlo : ∀ k ch : Nat, ch ≤ 15 → k % 16 = 0 → k ≤ 240 → (UInt8.ofNat (k + ch)).toNat / 16 = k / 16 ∧ (UInt8.ofNat (k + ch)).toNat % 16 = ch := by
    intro k ch h1 h2 h3
    simp only [UInt8.toNat_ofNat']
    omega
  cases b with
  | sequenceNumber n =>
    refine ⟨?_, rfl, rfl⟩
    have := n.toNat_lt
    simp [Body.wire, Body.view, wireOf, meaning, metaMeaning, be16]
    omega
  | text k s =>
    refine ⟨?_, rfl, rfl⟩
    obtain ⟨h1, h2⟩ := textKind_range k
    simp only [Body.wire, Body.view, wireOf, meaning, metaMeaning, UInt8.ofNat_toNat]
    rw [Nat.mod_eq_of_lt (by omega), if_neg (by omega), if_pos ⟨h1, h2⟩]
  | midiChannelPrefix ch =>
    simp only [Body.Faithful] at hb
    refine ⟨?_, rfl, rfl⟩
    simp [Body.wire, Body.view, wireOf, meaning, metaMeaning, hb]
  | midiPort p =>
    simp only [Body.Faithful] at hb
    refine ⟨?_, rfl, rfl⟩
    simp [Body.wire, Body.view, wireOf, meaning, metaMeaning, hb]
  | endOfTrack => exact ⟨rfl, rfl, rfl⟩
  | tempo t =>
    simp only [Body.Faithful] at hb
    refine ⟨?_, rfl, rfl⟩
    simp [Body.wire, Body.view, wireOf, meaning, metaMeaning]
    omega
  | smpteOffset h m s r f ff =>
    obtain ⟨h1, h2, h3, h4, h5, h6⟩ := hb
    refine ⟨?_, rfl, rfl⟩
    rcases h4 with rfl | rfl | rfl | rfl <;>
    · simp [Body.wire, Body.view, wireOf, meaning, metaMeaning] at h5 ⊢
      generalize h.toNat = n at *
      refine ⟨?_, ?_⟩
      rotate_left
      · refine ⟨by omega, ?_⟩
        first
          | rw [show (n / 32 % 4) = 0 by omega]; rfl
          | rw [show ((32 + n) % 256 / 32 % 4) = 1 by omega]; rfl
          | rw [show ((64 + n) % 256 / 32 % 4) = 2 by omega]; rfl
          | rw [show ((96 + n) % 256 / 32 % 4) = 3 by omega]; rfl
      · refine ⟨by omega, h2, h3, ?_, h6⟩
        first
          | rw [show (n / 32 % 4) = 0 by omega]; exact h5
          | rw [show ((32 + n) % 256 / 32 % 4) = 1 by omega]; exact h5
          | rw [show ((64 + n) % 256 / 32 % 4) = 2 by omega]; exact h5
          | rw [show ((96 + n) % 256 / 32 % 4) = 3 by omega]; exact h5
  | timeSignature n d c t =>
    obtain ⟨e, he, hd⟩ := hb
    refine ⟨?_, rfl, rfl⟩
    simp only [Body.wire, Body.view, wireOf, meaning, metaMeaning, hd, Nat.log2_two_pow]
    have h1 : (UInt8.ofNat e).toNat = e := by simp; omega
    have h2 : 2 ^ e < 256 := by rw [← hd]; exact d.toNat_lt
    simp [h1, Nat.mod_eq_of_lt h2]
  | keySignature a k name =>
    obtain ⟨h1, h2, h3⟩ := hb
    refine ⟨?_, rfl, rfl⟩
    have hs : signed (UInt8.ofNat (a.toInt % 256).toNat) = a.toInt := by
      unfold signed
      simp only [UInt8.toNat_ofNat']
      split <;> omega
    simp [Body.wire, Body.view, wireOf, meaning, metaMeaning, hs, h1, h2, h3]
  | sequencerSpecific m data =>
    obtain ⟨h1, _⟩ := hb
    rcases h1 with ⟨b, h1, h2, h3⟩ | ⟨b, c, h1⟩
    · refine ⟨?_, rfl, by simp [Body.view, asShown, h1, h3]⟩
      simp only [Body.wire, Body.view, wireOf, meaning, metaMeaning, h1]
      simp only [List.cons_append, List.nil_append]
      simp
      split
      · rename_i hx; simp at hx; exact absurd hx.1 h2
      · rename_i hx; simp at hx; obtain ⟨rfl, rfl⟩ := hx; rw [if_neg h2]
      · rename_i hx; cases hx
    · refine ⟨?_, rfl, by simp [Body.view, asShown, h1]⟩
      simp only [Body.wire, Body.view, wireOf, meaning, metaMeaning, h1]
      simp
  | noteOff ch n v =>
    obtain ⟨h1, h2⟩ := hb
    obtain ⟨g1, g2⟩ := hlo 0x80 ch.toNat h1 rfl (by decide)
    refine ⟨?_, rfl, rfl⟩
    simp only [Body.wire, Body.view, wireOf, meaning]
    generalize UInt8.ofNat (0x80 + ch.toNat) = st at g1 g2 ⊢
    simp [chanMeaning, g1, g2, show v.toNat < 128 by omega]
  | noteOn ch n v =>
    obtain ⟨h1, h2⟩ := hb
    obtain ⟨g1, g2⟩ := hlo 0x90 ch.toNat h1 rfl (by decide)
    refine ⟨?_, rfl, rfl⟩
    simp only [Body.wire, Body.view, wireOf, meaning]
    generalize UInt8.ofNat (0x90 + ch.toNat) = st at g1 g2 ⊢
    simp [chanMeaning, g1, g2, show v.toNat < 128 by omega]
  | polyphonicPressure ch v =>
    obtain ⟨h1, h2⟩ := hb
    obtain ⟨g1, g2⟩ := hlo 0xa0 ch.toNat h1 rfl (by decide)
    refine ⟨?_, rfl, rfl⟩
    simp only [Body.wire, Body.view, wireOf, meaning]
    generalize UInt8.ofNat (0xa0 + ch.toNat) = st at g1 g2 ⊢
    simp [chanMeaning, g1, g2, show v.toNat < 128 by omega]
  | controller ch c v =>
    obtain ⟨g1, g2⟩ := hlo 0xb0 ch.toNat hb rfl (by decide)
    refine ⟨?_, rfl, rfl⟩
    simp only [Body.wire, Body.view, wireOf, meaning]
    generalize UInt8.ofNat (0xb0 + ch.toNat) = st at g1 g2 ⊢
    simp [chanMeaning, g1, g2]
  | programChange ch c v =>
    obtain ⟨g1, g2⟩ := hlo 0xc0 ch.toNat hb rfl (by decide)
    refine ⟨?_, rfl, rfl⟩
    simp only [Body.wire, Body.view, wireOf, meaning]
    generalize UInt8.ofNat (0xc0 + ch.toNat) = st at g1 g2 ⊢
    simp [chanMeaning, g1, g2]
  | channelPressure ch v =>
    obtain ⟨h1, h2⟩ := hb
    obtain ⟨g1, g2⟩ := hlo 0xd0 ch.toNat h1 rfl (by decide)
    refine ⟨?_, rfl, rfl⟩
    simp only [Body.wire, Body.view, wireOf, meaning]
    generalize UInt8.ofNat (0xd0 + ch.toNat) = st at g1 g2 ⊢
    simp [chanMeaning, g1, g2, show v.toNat < 128 by omega]
  | pitchBend ch bend =>
    obtain ⟨h1, h2⟩ := hb
    obtain ⟨g1, g2⟩ := hlo 0xe0 ch.toNat h1 rfl (by decide)
    refine ⟨?_, rfl, rfl⟩
    simp only [Body.wire, Body.view, wireOf, meaning]
    generalize UInt8.ofNat (0xe0 + ch.toNat) = st at g1 g2 ⊢
    simp [chanMeaning, g1, g2]
    omega
  | sysExMessage m data single =>
    obtain ⟨⟨id, h1, h2⟩, _, h3⟩ := hb
    simp only [Body.InOrder] at ho
    subst ho
    have hsplit : ∃ b d, (data ++ if single then [0xf7] else []) = b :: d := by
      cases single with
      | true => cases data <;> simp
      | false =>
        have := (h3 rfl).1
        cases data with
        | nil => exact absurd rfl this
        | cons => simp
    obtain ⟨b, d, hd⟩ := hsplit
    have hlast : (b :: d).getLast? = some 0xf7 ↔ single = true := by
      rw [← hd]
      cases single with
      | true => simp
      | false => simpa using (h3 rfl).2
    have hun : unterminated (b :: d) = data := by
      unfold unterminated
      cases single with
      | true => rw [if_pos (hlast.2 rfl), ← hd]; simp
      | false => rw [if_neg (by rw [hlast]; simp), ← hd]; simp
    refine ⟨?_, ?_, by simp [Body.view, asShown, h1, h2]⟩
    · simp only [Body.wire, Body.view, wireOf, meaning, sysexMeaning, h1, List.append_assoc, hd]
      simp only [List.cons_append, List.nil_append, if_true, Bool.false_eq_true, if_false, hun]
      congr 2
      cases single with
      | true => rw [hlast.2 rfl]; rfl
      | false => simpa using fun h => absurd (hlast.1 h) (by simp)
    · simp only [Body.wire, Body.view, wireOf, pendingAfter, Body.pendingNext, h1, List.append_assoc, hd, if_true]
      have : ([id] ++ b :: d).getLast? = (b :: d).getLast? := by simp [List.getLast?_cons_cons]
      rw [this]
      cases single with
      | true => rw [hlast.2 rfl]; rfl
      | false => simpa using fun h => absurd (hlast.1 h) (by simp)
  | sysExContinuation data end_ =>
    obtain ⟨_, h3⟩ := hb
    simp only [Body.InOrder] at ho
    subst ho
    have hlast : (data ++ if end_ then [0xf7] else []).getLast? = some 0xf7 ↔ end_ = true := by
      cases end_ with
      | true => simp
      | false => simpa using h3 rfl
    have hun : unterminated (data ++ if end_ then [0xf7] else []) = data := by
      unfold unterminated
      cases end_ with
      | true => rw [if_pos (hlast.2 rfl)]; simp
      | false => rw [if_neg (by rw [hlast]; simp)]; simp
    refine ⟨?_, ?_, rfl⟩
    · simp only [Body.wire, Body.view, wireOf, meaning, sysexMeaning, Body.isEnd, hun]; simp
    · simp only [Body.wire, Body.view, wireOf, pendingAfter, Body.pendingNext, Body.isEnd]
      cases end_ with
      | true => rw [hlast.2 rfl]; simp
      | false => simpa using h3 rfl
  | sysExEscape data =>
    simp only [Body.InOrder] at ho
    subst ho
    exact ⟨by simp [Body.wire, Body.view, wireOf, meaning, sysexMeaning], by simp [Body.wire, Body.view, wireOf, pendingAfter, Body.pendingNext], rfl⟩

/-- The status nibble of a note event. -/
theorem note_nibble (s : UInt8) (h : s &&& 0xf0 = 0x80 ∨ s &&& 0xf0 = 0x90) : 0x80 ≤ s.toNat ∧ s.toNat < 0xa0 :=
  all8 (P := fun s => (s &&& 0xf0 = 0x80 ∨ s &&& 0xf0 = 0x90) → 0x80 ≤ s.toNat ∧ s.toNat < 0xa0) (by decide +kernel) s h

theorem note_nibble' (s : UInt8) (h : 0x80 ≤ s.toNat ∧ s.toNat < 0xa0) : s &&& 0xf0 = 0x80 ∨ s &&& 0xf0 = 0x90 :=
  all8 (P := fun s => 0x80 ≤ s.toNat ∧ s.toNat < 0xa0 → s &&& 0xf0 = 0x80 ∨ s &&& 0xf0 = 0x90) (by decide +kernel) s h

/-- What the previous chunk says about the reader's running status. -/
def LastOk (last : Option Bytes) (rs : Option UInt8) : Prop :=
  ∀ l, last = some l → ∃ h r, l = h :: r ∧ (0x80 ≤ h.toNat → h.toNat < 0xf0 → rs = some h)

theorem fixup_cons (last : Option Bytes) (d : Bytes) (h : UInt8) (r : Bytes) (cs : List (Bytes × Bytes))
    (hl : ∀ l, last = some l → l ≠ []) :
    statusFixup last ((d, h :: r) :: cs) =
      (statusFixup (some (if (h &&& 0xf0 = 0x80 ∨ h &&& 0xf0 = 0x90) ∧ (last.bind List.head?) = some h then r else h :: r)) cs >>= fun cs' =>
        .ok ((d, if (h &&& 0xf0 = 0x80 ∨ h &&& 0xf0 = 0x90) ∧ (last.bind List.head?) = some h then r else h :: r) :: cs')) := by
  cases last with
  | none => simp [statusFixup]
  | some l =>
    cases l with
    | nil => exact absurd rfl (hl _ rfl)
    | cons x xs =>
      rw [statusFixup]
      simp only [index, List.getElem?_cons_zero, Outcome.bind_ok, Option.bind_some, List.head?_cons, Option.some.injEq]
      by_cases hn : h &&& 0xf0 = 0x80 ∨ h &&& 0xf0 = 0x90
      · rw [if_pos hn]
        simp only [Outcome.bind_ok, hn, true_and, List.drop_succ_cons, List.drop_zero]
        by_cases he : h = x
        · simp [he]
        · have : ¬ x = h := fun h => he h.symm
          simp [he, this]
      · rw [if_neg hn]
        simp [hn]

/-- The compressed chunks of faithful events form a track. -/
theorem fixup_framed (es : List Event) (hf : ∀ e ∈ es, e.body.Faithful ∧ e.body.KeyOk ∧ e.delta.toNat < 2 ^ 28)
    (last : Option Bytes) (rs : Option UInt8) (hl : LastOk last rs) :
    ∃ cs cs' items rs', encodeEvents es = .ok cs ∧ statusFixup last cs = .ok cs' ∧ FramedTrack 1 rs items rs' ∧
      items.map Item.raw = es.map (·.body.wire) ∧ items.map Item.delta = es.map Event.delta ∧
      items.map Item.bytes = cs'.map (fun c => c.1 ++ c.2) := by
  induction es generalizing last rs with
  | nil => exact ⟨[], [], [], rs, rfl, by cases last <;> rfl, .nil, rfl, rfl, rfl⟩
  | cons e es ih =>
    obtain ⟨h1, h2, h3⟩ := hf e (by simp)
    have hfs : ∀ e ∈ es, e.body.Faithful ∧ e.body.KeyOk ∧ e.delta.toNat < 2 ^ 28 := fun x hx => hf x (by simp [hx])
    have hlne : ∀ l, last = some l → l ≠ [] := by
      intro l h
      obtain ⟨x, xs, rfl, _⟩ := hl l h
      simp
    have hq := quantity_delta e.delta h3
    obtain ⟨bs, hm, hcase⟩ := marshal_faithful e.body h1
    -- the event as written
    have step : ∀ (h : UInt8) (r bs' : Bytes) (rs1 : Option UInt8), bs = h :: r →
        bs' = (if (h &&& 0xf0 = 0x80 ∨ h &&& 0xf0 = 0x90) ∧ (last.bind List.head?) = some h then r else h :: r) →
        Framed 1 rs e.body.wire bs' rs1 → LastOk (some bs') rs1 →
        ∃ cs cs' items rs', encodeEvents (e :: es) = .ok cs ∧ statusFixup last cs = .ok cs' ∧ FramedTrack 1 rs items rs' ∧
          items.map Item.raw = (e :: es).map (·.body.wire) ∧ items.map Item.delta = (e :: es).map Event.delta ∧
          items.map Item.bytes = cs'.map (fun c => c.1 ++ c.2) := by
      intro h r bs' rs1 hbs hbs' hfr hlo
      obtain ⟨cs, cs', items, rs', g1, g2, g3, g4, g5, g6⟩ := ih hfs (some bs') rs1 hlo
      refine ⟨(deltaMarshal e.delta, bs) :: cs, (deltaMarshal e.delta, bs') :: cs',
        ⟨e.delta, e.body.wire, deltaMarshal e.delta ++ bs'⟩ :: items, rs', ?_, ?_, ?_, ?_, ?_, ?_⟩
      · rw [encodeEvents, hm, Outcome.bind_ok, g1]; rfl
      · rw [hbs, fixup_cons last _ h r cs hlne, ← hbs', g2]; rfl
      · exact .cons ⟨_, _, rfl, hq, hfr⟩ g3
      · simp [g4]
      · simp [g5]
      · simp [g6]
    rcases hcase with ⟨s, data, hw, hbs, hs, hlen, hnote⟩ | ⟨hfr, h, r, hbs, hh⟩
    · by_cases hc : (s &&& 0xf0 = 0x80 ∨ s &&& 0xf0 = 0x90) ∧ (last.bind List.head?) = some s
      · obtain ⟨d, ds, hd, hk⟩ := hnote hc.1
        have hk := hk h2
        cases last with
        | none => simp at hc
        | some l =>
          obtain ⟨x, xs, rfl, hx⟩ := hl l rfl
          have hxs : x = s := by simpa using hc.2
          subst hxs
          have hrs := hx (by have := hs.1; omega) hs.2
          refine step x data data (some x) hbs (by rw [if_pos hc]) ?_ ?_
          · rw [hw, hrs, hd]
            exact .running hs (by rw [← hd]; exact hlen) hk
          · intro l hl'
            injection hl' with hl'
            exact ⟨d, ds, by rw [← hl', hd], fun h => by omega⟩
      · refine step s data (s :: data) (some s) hbs (by rw [if_neg hc]) ?_ ?_
        · rw [hw]; exact .full hs hlen
        · intro l hl'
          injection hl' with hl'
          exact ⟨s, data, hl'.symm, fun _ _ => rfl⟩
    · have hn : ¬ (h &&& 0xf0 = 0x80 ∨ h &&& 0xf0 = 0x90) := by
        intro hn
        have := note_nibble h hn
        omega
      refine step h r (h :: r) none hbs (by rw [if_neg (fun hx => hn hx.1)]) (by rw [← hbs]; exact hfr rs) ?_
      intro l hl'
      injection hl' with hl'
      exact ⟨h, r, hl'.symm, fun _ _ => by omega⟩

/-- The length sum. -/
theorem chunksLength_toNat (cs : List (Bytes × Bytes)) :
    (chunksLength cs).toNat = ((cs.map (fun c => c.1 ++ c.2)).flatten).length % 2 ^ 32 := by
  have key : ∀ (cs : List (Bytes × Bytes)) (n : UInt32),
      (cs.foldl (fun n c => n + UInt32.ofNat c.1.length + UInt32.ofNat c.2.length) n).toNat =
        (n.toNat + ((cs.map (fun c => c.1 ++ c.2)).flatten).length) % 2 ^ 32 := by
    intro cs
    induction cs with
    | nil => intro n; have := n.toNat_lt; simp
    | cons c cs ih =>
      intro n
      rw [List.foldl_cons, ih]
      simp only [UInt32.toNat_add, UInt32.toNat_ofNat', List.map_cons, List.flatten_cons, List.length_append]
      omega
  rw [chunksLength, key]
  simp

/-- A track is written as a chunk, if it is shorter than 4 GiB. -/
theorem encodeMTrk_chunk (t : MTrk) (bs : Bytes) (h : encodeMTrk t = .ok bs) (hl : bs.length < 2 ^ 32) :
    ∃ cs cs', encodeEvents t.events = .ok cs ∧ statusFixup none cs = .ok cs' ∧
      bs = (Chunk.mk t.tag (cs'.map (fun c => c.1 ++ c.2)).flatten).bytes := by
  unfold encodeMTrk at h
  cases h1 : encodeEvents t.events with
  | ok cs =>
    rw [h1, Outcome.bind_ok] at h
    cases h2 : statusFixup none cs with
    | ok cs' =>
      rw [h2, Outcome.bind_ok] at h
      injection h with h
      refine ⟨cs, cs', rfl, h2, ?_⟩
      rw [← h, Chunk.bytes]
      simp only [putUint32_eq, chunksLength_toNat]
      rw [Nat.mod_eq_of_lt]
      rw [← h] at hl
      simp only [List.length_append] at hl
      omega
    | err e => rw [h2] at h; cases h
    | panic => rw [h2] at h; cases h
    | diverge => rw [h2] at h; cases h
  | err e => rw [h1] at h; cases h
  | panic => rw [h1] at h; cases h
  | diverge => rw [h1] at h; cases h

end Midiasm
