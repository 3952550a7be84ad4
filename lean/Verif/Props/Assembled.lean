import Verif.Spec.Assembled
import Verif.Props.LineMeaning
import Verif.Props.Encode
import Verif.Props.Vlq
import Verif.Props.Fixups
import Verif.Props.Commands

/-!
Property C135: the file that a text stands for, from its lines to its bytes.
-/

set_option linter.unusedSimpArgs false

namespace Midiasm
open Spec

/-! ### Quantities -/

theorem quantity_iff (v : UInt32) (bs : Bytes) : vlq2bin v = bs ↔ WrittenQuantity v.toNat bs := by
  unfold WrittenQuantity
  by_cases h : v.toNat < 2 ^ 28
  · obtain ⟨h1, _, h3, _, _, h6⟩ := C02_vlq_canonical v h
    constructor
    · rintro rfl; exact Or.inl ⟨h, h1, h3⟩
    · rintro (⟨_, a, b⟩ | ⟨hn, _⟩)
      · exact (h6 bs a b).symm
      · omega
  · rw [vlq2bin_eq, if_neg (by omega), if_neg (by omega), if_neg (by omega), if_neg (by omega)]
    have hlt := v.toNat_lt
    have ht : IsVLQ [hi (v.toNat / 128 ^ 3), hi (v.toNat / 128 ^ 2), hi (v.toNat / 128), lo v.toNat] (v.toNat % 2 ^ 28) := by
      refine ⟨⟨[hi (v.toNat / 128 ^ 3), hi (v.toNat / 128 ^ 2), hi (v.toNat / 128)], lo v.toNat, rfl, ?_, ?_⟩, ?_⟩
      · intro b hb
        simp only [List.mem_cons, List.not_mem_nil, or_false] at hb
        rcases hb with rfl | rfl | rfl <;> (rw [hi_toNat]; omega)
      · rw [lo_toNat]; omega
      · simp only [value128, List.foldl_cons, List.foldl_nil, hi_toNat, lo_toNat]
        omega
    constructor
    · rintro rfl
      refine Or.inr ⟨by omega, _, _, rfl, ?_, rfl, ht⟩
      rw [lo_toNat]; omega
    · rintro (⟨hn, _⟩ | ⟨_, b, rest, rfl, hb, hl, hr⟩)
      · omega
      · have e1 : lo (v.toNat / 128 ^ 4) = b := by
          apply u8_ext
          rw [lo_toNat, hb]; omega
        have e2 := value128_inj ht.1 hr.1 (by rw [hl]; rfl) (ht.2.trans hr.2.symm)
        rw [e1, e2]

theorem field_iff (p bs : Bytes) : vlf2bin p = bs ↔ ∃ len, WrittenQuantity (p.length % 2 ^ 32) len ∧ bs = len ++ p := by
  have hq : ∀ len, vlq2bin (UInt32.ofNat p.length) = len ↔ WrittenQuantity (p.length % 2 ^ 32) len := by
    intro len
    rw [quantity_iff, UInt32.toNat_ofNat']
  unfold vlf2bin
  constructor
  · rintro rfl; exact ⟨_, (hq _).mp rfl, rfl⟩
  · rintro ⟨len, h, rfl⟩
    rw [(hq _).mpr h]

/-! ### Events -/

/-- The fields that lines keep in range. -/
def Body.Ranged : Body → Prop
  | .smpteOffset h _ _ r _ _ => h.toNat ≤ 24 ∧ r.toNat ∈ [24, 25, 29, 30]
  | .noteOff ch _ _ => ch.toNat ≤ 15
  | .noteOn ch _ _ => ch.toNat ≤ 15
  | .polyphonicPressure ch _ => ch.toNat ≤ 15
  | .controller ch _ _ => ch.toNat ≤ 15
  | .programChange ch _ _ => ch.toNat ≤ 15
  | .channelPressure ch _ => ch.toNat ≤ 15
  | .pitchBend ch _ => ch.toNat ≤ 15
  | _ => True

theorem status_plus (ch : UInt8) (h : ch.toNat ≤ 15) : (0x80 ||| ch = UInt8.ofNat (8 * 16 + ch.toNat)) ∧ (0x90 ||| ch = UInt8.ofNat (9 * 16 + ch.toNat)) ∧
    (0xa0 ||| ch = UInt8.ofNat (10 * 16 + ch.toNat)) ∧ (0xb0 ||| ch = UInt8.ofNat (11 * 16 + ch.toNat)) ∧ (0xc0 ||| ch = UInt8.ofNat (12 * 16 + ch.toNat)) ∧
    (0xd0 ||| ch = UInt8.ofNat (13 * 16 + ch.toNat)) ∧ (0xe0 ||| ch = UInt8.ofNat (14 * 16 + ch.toNat)) :=
  all8 (P := fun ch => ch.toNat ≤ 15 → (0x80 ||| ch = UInt8.ofNat (8 * 16 + ch.toNat)) ∧ (0x90 ||| ch = UInt8.ofNat (9 * 16 + ch.toNat)) ∧
    (0xa0 ||| ch = UInt8.ofNat (10 * 16 + ch.toNat)) ∧ (0xb0 ||| ch = UInt8.ofNat (11 * 16 + ch.toNat)) ∧ (0xc0 ||| ch = UInt8.ofNat (12 * 16 + ch.toNat)) ∧
    (0xd0 ||| ch = UInt8.ofNat (13 * 16 + ch.toNat)) ∧ (0xe0 ||| ch = UInt8.ofNat (14 * 16 + ch.toNat))) (by decide +kernel) ch h

theorem smpte_byte (h : UInt8) (hh : h.toNat ≤ 24) : (0x00 ||| (h &&& 0x1f) = UInt8.ofNat (0 * 32 + h.toNat)) ∧ (0x20 ||| (h &&& 0x1f) = UInt8.ofNat (1 * 32 + h.toNat)) ∧
    (0x40 ||| (h &&& 0x1f) = UInt8.ofNat (2 * 32 + h.toNat)) ∧ (0x60 ||| (h &&& 0x1f) = UInt8.ofNat (3 * 32 + h.toNat)) :=
  all8 (P := fun h => h.toNat ≤ 24 → (0x00 ||| (h &&& 0x1f) = UInt8.ofNat (0 * 32 + h.toNat)) ∧ (0x20 ||| (h &&& 0x1f) = UInt8.ofNat (1 * 32 + h.toNat)) ∧
    (0x40 ||| (h &&& 0x1f) = UInt8.ofNat (2 * 32 + h.toNat)) ∧ (0x60 ||| (h &&& 0x1f) = UInt8.ofNat (3 * 32 + h.toNat))) (by decide +kernel) h hh

theorem signed_byte (a : Int8) : a.toUInt8 = UInt8.ofNat (a.toInt % 256).toNat := by
  have h := all8 (P := fun b => b.toInt8.toUInt8 = UInt8.ofNat (b.toInt8.toInt % 256).toNat) (by decide +kernel) a.toUInt8
  have he : a.toUInt8.toInt8 = a := by simp
  rw [he] at h
  exact h

theorem bend_bytes (v : UInt16) : [(v >>> 8 &&& 0x00ff).toUInt8, (v >>> 0 &&& 0x00ff).toUInt8] = be16 v.toNat := by
  have hv := v.toNat_lt
  have e1 : (v >>> 8 &&& 0x00ff).toUInt8 = UInt8.ofNat (v.toNat / 256 % 256) := by
    apply u8_ext; rw [byte16 v 8 (by decide)]; simp
  have e2 : (v >>> 0 &&& 0x00ff).toUInt8 = UInt8.ofNat (v.toNat % 256) := by
    apply u8_ext; rw [byte16 v 0 (by decide)]; simp
  rw [e1, e2]; rfl

theorem tempo_bytes (t : UInt32) : [(t >>> 16 &&& 0xff).toUInt8, (t >>> 8 &&& 0xff).toUInt8, (t >>> 0 &&& 0xff).toUInt8] =
    [UInt8.ofNat (t.toNat / 65536 % 256), UInt8.ofNat (t.toNat / 256 % 256), UInt8.ofNat (t.toNat % 256)] := by
  have e1 : (t >>> 16 &&& 0xff).toUInt8 = UInt8.ofNat (t.toNat / 65536 % 256) := by
    apply u8_ext; rw [byte32 t 16 (by decide)]; simp
  have e2 : (t >>> 8 &&& 0xff).toUInt8 = UInt8.ofNat (t.toNat / 256 % 256) := by
    apply u8_ext; rw [byte32 t 8 (by decide)]; simp
  have e3 : (t >>> 0 &&& 0xff).toUInt8 = UInt8.ofNat (t.toNat % 256) := by
    apply u8_ext; rw [byte32 t 0 (by decide)]; simp
  rw [e1, e2, e3]

theorem ok_eq {a b c : Bytes} (h : a = c) : (Outcome.ok a = Outcome.ok b) ↔ b = c := by
  subst h
  exact ⟨fun h => by injection h with h; exact h.symm, fun h => by rw [h]⟩

theorem type_eq (k : TextKind) : k.type = textType k := by cases k <;> rfl

theorem marshal_iff (b : Body) (hr : b.Ranged) (bs : Bytes) : b.marshal = .ok bs ↔ EventBytes b bs := by
  cases b with
  | sequenceNumber n =>
    refine ok_eq ?_
    rw [putUint16_eq]
    rfl
  | text k s =>
    simp only [Body.marshal, marshalText, EventBytes, type_eq]
    have other : k ≠ .trackName → ((Outcome.ok ([0xff, textType k, UInt8.ofNat s.length] ++ s) = Outcome.ok bs) ↔
        (k ≠ .trackName ∧ bs = metaBytes (textType k) s) ∨
        (k = .trackName ∧ ∃ len, WrittenQuantity (s.length % 2 ^ 32) len ∧ bs = 0xff :: textType k :: (len ++ s))) := by
      intro hk
      refine (ok_eq (c := metaBytes (textType k) s) rfl).trans ?_
      exact ⟨fun h => Or.inl ⟨hk, h⟩, fun h => by rcases h with h | h; exact h.2; exact absurd h.1 hk⟩
    cases k with
    | trackName =>
      constructor
      · intro h
        injection h with h
        obtain ⟨len, h1, h2⟩ := (field_iff s _).mp rfl
        exact Or.inr ⟨rfl, len, h1, by rw [← h, h2]; rfl⟩
      · rintro (⟨h, _⟩ | ⟨_, len, h1, rfl⟩)
        · exact absurd rfl h
        · rw [(field_iff s (len ++ s)).mpr ⟨len, h1, rfl⟩]; rfl
    | _ => exact other (by decide)
  | midiChannelPrefix ch => exact ok_eq rfl
  | midiPort p => exact ok_eq rfl
  | endOfTrack => exact ok_eq rfl
  | tempo t =>
    refine ok_eq ?_
    have := tempo_bytes t
    rw [metaBytes, ← this]
    rfl
  | smpteOffset h m s r f ff =>
    obtain ⟨hh, hr⟩ := hr
    obtain ⟨q0, q1, q2, q3⟩ := smpte_byte h hh
    simp only [List.mem_cons, List.not_mem_nil, or_false] at hr
    simp only [Body.marshal, EventBytes, List.mem_cons, List.not_mem_nil, or_false, Prod.mk.injEq]
    have go : ∀ (code : Nat) (bits : UInt8), smpteRateBits r = bits → bits ||| (h &&& 0x1f) = UInt8.ofNat (code * 32 + h.toNat) →
        (∀ c, (r.toNat = 24 ∧ c = 0 ∨ r.toNat = 25 ∧ c = 1 ∨ r.toNat = 29 ∧ c = 2 ∨ r.toNat = 30 ∧ c = 3) ↔ c = code) →
        ((Outcome.ok [0xff, 0x54, 5, smpteRateBits r ||| (h &&& 0x1f), m, s, f, ff] = Outcome.ok bs) ↔
          ∃ c, (r.toNat = 24 ∧ c = 0 ∨ r.toNat = 25 ∧ c = 1 ∨ r.toNat = 29 ∧ c = 2 ∨ r.toNat = 30 ∧ c = 3) ∧
            bs = metaBytes 0x54 [UInt8.ofNat (c * 32 + h.toNat), m, s, f, ff]) := by
      intro code bits e1 e2 e3
      rw [ok_eq (c := metaBytes 0x54 [UInt8.ofNat (code * 32 + h.toNat), m, s, f, ff]) (by rw [e1, e2]; rfl)]
      constructor
      · intro hb; exact ⟨code, (e3 code).mpr rfl, hb⟩
      · rintro ⟨c, hc, hb⟩
        rw [(e3 c).mp hc] at hb
        exact hb
    rcases hr with hr | hr | hr | hr
    · have e : r = 24 := u8_ext hr
      exact go 0 0 (by rw [e]; rfl) q0 (fun c => by omega)
    · have e : r = 25 := u8_ext hr
      exact go 1 0x20 (by rw [e]; rfl) q1 (fun c => by omega)
    · have e : r = 29 := u8_ext hr
      exact go 2 0x40 (by rw [e]; rfl) q2 (fun c => by omega)
    · have e : r = 30 := u8_ext hr
      exact go 3 0x60 (by rw [e]; rfl) q3 (fun c => by omega)
  | timeSignature n d c q =>
    simp only [Body.marshal, EventBytes]
    constructor
    · intro h
      obtain ⟨k, h1, h2⟩ := bound_ok h
      injection h2 with h2
      by_cases hd : d.toNat ≤ 128
      · obtain ⟨k', h3, h4, h5, h6⟩ := (denomLoop_value d).1 hd
        rw [h1] at h3
        injection h3 with h3
        subst h3
        exact ⟨k, h5, h6, h4, h2.symm⟩
      · rw [(denomLoop_value d).2 (by omega)] at h1
        cases h1
    · rintro ⟨e, h1, h2, h3, rfl⟩
      have hd : d.toNat ≤ 128 := Nat.le_trans h1 (Nat.pow_le_pow_right (by decide) h3 : 2 ^ e ≤ 2 ^ 7)
      obtain ⟨k, h4, h5, h6, h7⟩ := (denomLoop_value d).1 hd
      have : k = e := by
        rcases Nat.lt_trichotomy k e with h | h | h
        · have := h2 k h; omega
        · exact h
        · have := h7 e h; omega
      rw [h4, this]
      rfl
  | keySignature a k name => exact ok_eq (by rw [signed_byte]; rfl)
  | sequencerSpecific m data => exact ok_eq (by simp [metaBytes])
  | noteOff ch n v => exact ok_eq (by rw [(status_plus ch hr).1]; rfl)
  | noteOn ch n v => exact ok_eq (by rw [(status_plus ch hr).2.1]; rfl)
  | polyphonicPressure ch p => exact ok_eq (by rw [(status_plus ch hr).2.2.1]; rfl)
  | controller ch c v => exact ok_eq (by rw [(status_plus ch hr).2.2.2.1]; rfl)
  | programChange ch bank p => exact ok_eq (by rw [(status_plus ch hr).2.2.2.2.1]; rfl)
  | channelPressure ch p => exact ok_eq (by rw [(status_plus ch hr).2.2.2.2.2.1]; rfl)
  | pitchBend ch v => exact ok_eq (by rw [(status_plus ch hr).2.2.2.2.2.2, chanBytes, ← bend_bytes])
  | sysExMessage m data single =>
    simp only [Body.marshal, EventBytes]
    constructor
    · intro h
      injection h with h
      obtain ⟨len, h1, h2⟩ := (field_iff (m.id ++ data ++ if single = true then [0xf7] else []) _).mp rfl
      exact ⟨len, _, rfl, h1, by rw [← h, h2]⟩
    · rintro ⟨len, all, rfl, h1, rfl⟩
      rw [(field_iff _ _).mpr ⟨len, h1, rfl⟩]
  | sysExContinuation data last =>
    simp only [Body.marshal, EventBytes]
    constructor
    · intro h
      injection h with h
      obtain ⟨len, h1, h2⟩ := (field_iff (data ++ if last = true then [0xf7] else []) _).mp rfl
      exact ⟨len, _, rfl, h1, by rw [← h, h2]⟩
    · rintro ⟨len, all, rfl, h1, rfl⟩
      rw [(field_iff _ _).mpr ⟨len, h1, rfl⟩]
  | sysExEscape data =>
    simp only [Body.marshal, EventBytes]
    constructor
    · intro h
      injection h with h
      obtain ⟨len, h1, h2⟩ := (field_iff data _).mp rfl
      exact ⟨len, h1, by rw [← h, h2]⟩
    · rintro ⟨len, h1, rfl⟩
      rw [(field_iff _ _).mpr ⟨len, h1, rfl⟩]

/-! ### Running status -/

theorem note_status (s : UInt8) : (s &&& 0xf0 = 0x80 ∨ s &&& 0xf0 = 0x90) ↔ 0x80 ≤ s.toNat ∧ s.toNat < 0xa0 :=
  all8 (P := fun s => (s &&& 0xf0 = 0x80 ∨ s &&& 0xf0 = 0x90) ↔ 0x80 ≤ s.toNat ∧ s.toNat < 0xa0) (by decide +kernel) s

theorem thinned_iff (cs : List (Bytes × Bytes)) (hcs : ∀ c ∈ cs, ∃ s t, c.2 = s :: t ∧ (0x80 ≤ s.toNat → s.toNat < 0xa0 → t ≠ []))
    (last : Option Bytes) (hlast : ∀ l, last = some l → l ≠ []) (cs' : List (Bytes × Bytes)) :
    statusFixup last cs = .ok cs' ↔ cs'.map Prod.fst = cs.map Prod.fst ∧ Thinned (last.bind List.head?) (cs.map Prod.snd) (cs'.map Prod.snd) := by
  induction cs generalizing last cs' with
  | nil =>
    have e : statusFixup last [] = .ok [] := by cases last <;> rfl
    rw [e]
    constructor
    · intro h; injection h with h; subst h; exact ⟨rfl, .nil _⟩
    · rintro ⟨h, _⟩
      cases cs' with
      | nil => rfl
      | cons _ _ => cases h
  | cons c cs ih =>
    obtain ⟨d, e⟩ := c
    obtain ⟨s, t, he, hnote⟩ := hcs (d, e) (List.mem_cons_self)
    simp only at he
    subst he
    have ih := ih (fun c hc => hcs c (List.mem_cons_of_mem _ hc))
    rw [fixup_cons last d s t cs hlast]
    by_cases hc : (s &&& 0xf0 = 0x80 ∨ s &&& 0xf0 = 0x90) ∧ (last.bind List.head?) = some s
    · simp only [if_pos hc]
      obtain ⟨hn1, hn2⟩ := (note_status s).mp hc.1
      have ht := hnote hn1 hn2
      have ih := ih (some t) (fun l hl => by injection hl with hl; rw [← hl]; exact ht)
      constructor
      · intro h
        obtain ⟨r, h1, h2⟩ := bound_ok h
        injection h2 with h2
        subst h2
        obtain ⟨h3, h4⟩ := (ih r).mp h1
        refine ⟨by rw [List.map_cons, List.map_cons, h3], ?_⟩
        rw [hc.2]
        exact .drop s t _ _ hn1 hn2 h4
      · rintro ⟨h1, h2⟩
        rw [hc.2] at h2
        cases cs' with
        | nil => cases h1
        | cons c' cs' =>
          obtain ⟨d', w⟩ := c'
          simp only [List.map_cons, List.cons.injEq] at h1 h2
          obtain ⟨rfl, h1⟩ := h1
          cases h2 with
          | drop _ _ _ _ _ _ h2 => rw [(ih cs').mpr ⟨h1, h2⟩]; rfl
          | keep _ _ _ _ _ hk _ => exact absurd ⟨rfl, hn1, hn2⟩ hk
    · simp only [if_neg hc]
      have ih := ih (some (s :: t)) (fun l hl => by injection hl with hl; rw [← hl]; simp)
      have hk : ¬ (last.bind List.head? = some s ∧ 0x80 ≤ s.toNat ∧ s.toNat < 0xa0) := fun h => hc ⟨(note_status s).mpr h.2, h.1⟩
      constructor
      · intro h
        obtain ⟨r, h1, h2⟩ := bound_ok h
        injection h2 with h2
        subst h2
        obtain ⟨h3, h4⟩ := (ih r).mp h1
        exact ⟨by rw [List.map_cons, List.map_cons, h3], .keep _ s t _ _ hk h4⟩
      · rintro ⟨h1, h2⟩
        cases cs' with
        | nil => cases h1
        | cons c' cs' =>
          obtain ⟨d', w⟩ := c'
          simp only [List.map_cons, List.cons.injEq] at h1 h2
          obtain ⟨rfl, h1⟩ := h1
          generalize hp : last.bind List.head? = p at h2 hk
          cases h2 with
          | drop _ _ _ _ hn1 hn2 _ => exact absurd ⟨rfl, hn1, hn2⟩ hk
          | keep _ _ _ _ _ _ h2 => rw [(ih cs').mpr ⟨h1, h2⟩]; rfl

theorem eventBytes_head (b : Body) (hr : b.Ranged) (bs : Bytes) (h : EventBytes b bs) :
    ∃ s t, bs = s :: t ∧ (0x80 ≤ s.toNat → s.toNat < 0xa0 → t ≠ []) := by
  have hff : ¬ ((0xff : UInt8).toNat < 0xa0) := by decide
  have hf0 : ¬ ((0xf0 : UInt8).toNat < 0xa0) := by decide
  have hf7 : ¬ ((0xf7 : UInt8).toNat < 0xa0) := by decide
  cases b with
  | text k s =>
    rcases h with ⟨_, rfl⟩ | ⟨_, len, _, rfl⟩
    · exact ⟨_, _, rfl, fun _ h => absurd h hff⟩
    · exact ⟨_, _, rfl, fun _ h => absurd h hff⟩
  | smpteOffset => obtain ⟨_, _, rfl⟩ := h; exact ⟨_, _, rfl, fun _ h => absurd h hff⟩
  | timeSignature => obtain ⟨_, _, _, _, rfl⟩ := h; exact ⟨_, _, rfl, fun _ h => absurd h hff⟩
  | sysExMessage => obtain ⟨_, _, _, _, rfl⟩ := h; exact ⟨_, _, rfl, fun _ h => absurd h hf0⟩
  | sysExContinuation => obtain ⟨_, _, _, _, rfl⟩ := h; exact ⟨_, _, rfl, fun _ h => absurd h hf7⟩
  | sysExEscape => obtain ⟨_, _, rfl⟩ := h; exact ⟨_, _, rfl, fun _ h => absurd h hf7⟩
  | noteOff => subst h; exact ⟨_, _, rfl, fun _ _ => by simp⟩
  | noteOn => subst h; exact ⟨_, _, rfl, fun _ _ => by simp⟩
  | polyphonicPressure => subst h; exact ⟨_, _, rfl, fun _ _ => by simp⟩
  | controller => subst h; exact ⟨_, _, rfl, fun _ _ => by simp⟩
  | programChange => subst h; exact ⟨_, _, rfl, fun _ _ => by simp⟩
  | channelPressure => subst h; exact ⟨_, _, rfl, fun _ _ => by simp⟩
  | pitchBend => subst h; exact ⟨_, _, rfl, fun _ _ => by simp [be16]⟩
  | _ => subst h; exact ⟨_, _, rfl, fun _ h => absurd h hff⟩

theorem encodeEvents_iff (es : List Event) (hr : ∀ e ∈ es, e.body.Ranged) (cs : List (Bytes × Bytes)) :
    encodeEvents es = .ok cs ↔ List.Forall₂ (fun e bs => WrittenQuantity e.delta.toNat bs) es (cs.map Prod.fst) ∧
      List.Forall₂ (fun e bs => EventBytes e.body bs) es (cs.map Prod.snd) := by
  induction es generalizing cs with
  | nil =>
    constructor
    · intro h; injection h with h; subst h; exact ⟨.nil, .nil⟩
    · rintro ⟨h, _⟩
      cases cs with
      | nil => rfl
      | cons _ _ => cases h
  | cons e es ih =>
    have ih := ih (fun x hx => hr x (List.mem_cons_of_mem _ hx))
    have hm := marshal_iff e.body (hr e List.mem_cons_self)
    constructor
    · intro h
      obtain ⟨v, h1, h⟩ := bound_ok h
      obtain ⟨r, h2, h⟩ := bound_ok h
      injection h with h
      subst h
      obtain ⟨h3, h4⟩ := (ih r).mp h2
      exact ⟨.cons ((quantity_iff _ _).mp rfl) h3, .cons ((hm v).mp h1) h4⟩
    · rintro ⟨h1, h2⟩
      cases cs with
      | nil => cases h1
      | cons c cs =>
        obtain ⟨d, w⟩ := c
        cases h1 with
        | cons h1 h1' =>
          cases h2 with
          | cons h2 h2' =>
            rw [encodeEvents, (hm w).mpr h2, Outcome.bind_ok, (ih cs).mpr ⟨h1', h2'⟩, Outcome.bind_ok]
            have : deltaMarshal e.delta = d := (quantity_iff _ _).mpr h1
            rw [this]

theorem zip_map (cs : List (Bytes × Bytes)) : cs.map (fun c => c.1 ++ c.2) = List.zipWith (fun d w => d ++ w) (cs.map Prod.fst) (cs.map Prod.snd) := by
  induction cs with
  | nil => rfl
  | cons c cs ih => rw [List.map_cons, List.map_cons, List.map_cons, List.zipWith_cons_cons, ih]

theorem zip_of (a b : List Bytes) (h : a.length = b.length) : (a.zip b).map Prod.fst = a ∧ (a.zip b).map Prod.snd = b := by
  constructor
  · rw [List.map_fst_zip]; omega
  · rw [List.map_snd_zip]; omega

theorem thinned_length {p : Option UInt8} {a b : List Bytes} (h : Thinned p a b) : a.length = b.length := by
  induction h with
  | nil => rfl
  | drop _ _ _ _ _ _ _ ih => simp [ih]
  | keep _ _ _ _ _ _ _ ih => simp [ih]

theorem encodeMTrk_iff (es : List Event) (hr : ∀ e ∈ es, e.body.Ranged) (chunk : Bytes) :
    encodeMTrk (trackOf es) = .ok chunk ↔ TrackChunk es chunk := by
  have head : ∀ cs : List (Bytes × Bytes), List.Forall₂ (fun e bs => EventBytes e.body bs) es (cs.map Prod.snd) →
      ∀ c ∈ cs, ∃ s t, c.2 = s :: t ∧ (0x80 ≤ s.toNat → s.toNat < 0xa0 → t ≠ []) := by
    intro cs h
    clear chunk
    induction cs generalizing es with
    | nil => intro c hc; cases hc
    | cons c cs ih =>
      cases h with
      | @cons e _ es' _ h1 h2 =>
        intro x hx
        rcases List.mem_cons.mp hx with rfl | hx
        · exact eventBytes_head _ (hr e List.mem_cons_self) _ h1
        · exact ih es' (fun y hy => hr y (List.mem_cons_of_mem _ hy)) h2 x hx
  constructor
  · intro h
    obtain ⟨cs, h1, h⟩ := bound_ok h
    obtain ⟨cs', h2, h⟩ := bound_ok h
    injection h with h
    obtain ⟨q1, q2⟩ := (encodeEvents_iff es hr cs).mp h1
    obtain ⟨q3, q4⟩ := (thinned_iff cs (head cs q2) none (by simp) cs').mp h2
    refine ⟨_, _, _, _, q2, q4, q1, rfl, ?_⟩
    rw [← h, putUint32_eq, chunksLength_toNat, zip_map, q3]
    rfl
  · rintro ⟨full, written, deltas, content, q2, q4, q1, rfl, rfl⟩
    have l1 : deltas.length = full.length := q1.length_eq.symm.trans q2.length_eq
    have l2 := thinned_length q4
    obtain ⟨z1, z2⟩ := zip_of deltas full l1
    obtain ⟨z3, z4⟩ := zip_of deltas written (l1.trans l2)
    have h1 := (encodeEvents_iff es hr (deltas.zip full)).mpr ⟨by rw [z1]; exact q1, by rw [z2]; exact q2⟩
    have h2 := (thinned_iff (deltas.zip full) (head _ (by rw [z2]; exact q2)) none (by simp) (deltas.zip written)).mpr
      ⟨by rw [z1, z3], by rw [z2, z4]; exact q4⟩
    rw [encodeMTrk, show (trackOf es).events = es from rfl, h1, Outcome.bind_ok, h2, Outcome.bind_ok, putUint32_eq, chunksLength_toNat, zip_map, z3, z4]
    rfl

/-! ### Terminators -/

theorem fixMessages_first (b : Event) (rest : List Event) :
    ∃ b' rest', fixMessages (b :: rest) = b' :: rest' ∧ b'.body.isContinuation = b.body.isContinuation := by
  cases rest with
  | nil => exact ⟨b, [], rfl, rfl⟩
  | cons c rest =>
    refine ⟨_, _, rfl, ?_⟩
    cases hb : b.body with
    | sysExMessage m d s =>
      simp only
      split
      · rfl
      · rw [hb]
    | _ => simp only [hb]

/-- What the two loops do to an event. -/
theorem fix_step (a b : Event) (rest : List Event) : fixContinuations (fixMessages (a :: b :: rest)) =
    (if b.body.isContinuation then a else ⟨a.tick, a.delta, a.bytes, endPacket a.body⟩) :: fixContinuations (fixMessages (b :: rest)) := by
  obtain ⟨b', rest', hf, hc⟩ := fixMessages_first b rest
  rw [fixMessages, hf]
  obtain ⟨t, d, bs, body⟩ := a
  cases hcc : b.body.isContinuation with
  | true =>
    rw [hcc] at hc
    cases body <;> simp [fixContinuations, hc]
  | false =>
    rw [hcc] at hc
    cases body <;> simp [fixContinuations, hc, endPacket]

theorem fixups_iff (es es' : List Event) : fixups es = .ok es' ↔ TerminatorsRestored es es' := by
  induction es generalizing es' with
  | nil =>
    constructor
    · intro h; cases h
    · intro h; cases h
  | cons a es ih =>
    cases es with
    | nil =>
      constructor
      · intro h; injection h with h; subst h; exact .last a
      · intro h; cases h; rfl
    | cons b rest =>
      have hstep := fix_step a b rest
      have hpacket := isContinuation_iff b.body
      have hfx : ∀ x l, fixups (x :: l) = .ok (fixContinuations (fixMessages (x :: l))) := fun _ _ => rfl
      rw [hfx, hstep]
      constructor
      · intro h
        injection h with h
        subst h
        have hr := (ih _).mp (hfx b rest)
        by_cases hb : b.body.isContinuation = true
        · rw [if_pos hb]
          exact .goesOn a b rest _ (hpacket.mp hb) hr
        · rw [if_neg hb]
          exact .ends a b rest _ (fun h => hb (hpacket.mpr h)) hr
      · intro h
        cases h with
        | goesOn _ _ _ l hb hr =>
          have := (ih _).mpr hr
          rw [hfx] at this
          injection this with this
          rw [if_pos (hpacket.mpr hb), this]
        | ends _ _ _ l hb hr =>
          have := (ih _).mpr hr
          rw [hfx] at this
          injection this with this
          rw [if_neg (fun h => hb (hpacket.mp h)), this]

theorem ranged_end (b : Body) (h : b.Ranged) : (endPacket b).Ranged := by
  cases b <;> exact h

theorem restored_ranged {es es' : List Event} (h : TerminatorsRestored es es') (hr : ∀ e ∈ es, e.body.Ranged) : ∀ e ∈ es', e.body.Ranged := by
  induction h with
  | last e => exact hr
  | goesOn e n es es' _ _ ih =>
    intro x hx
    rcases List.mem_cons.mp hx with rfl | hx
    · exact hr x List.mem_cons_self
    · exact ih (fun y hy => hr y (List.mem_cons_of_mem _ hy)) x hx
  | ends e n es es' _ _ ih =>
    intro x hx
    rcases List.mem_cons.mp hx with rfl | hx
    · exact ranged_end _ (hr e List.mem_cons_self)
    · exact ih (fun y hy => hr y (List.mem_cons_of_mem _ hy)) x hx

/-! ### Texts -/

theorem says_ranged {table : List (String × Lib.Manufacturer)} {line : Bytes} {delta : UInt32} {b : Body} (h : LineSays table line delta b) : b.Ranged := by
  obtain ⟨d, gs, _, _, h⟩ := h
  cases b with
  | smpteOffset => obtain ⟨_, _, _, _, _, _, _, _, _, _, _, _, _, h1, _, _, h2, _⟩ := h; exact ⟨h1, h2⟩
  | noteOff => obtain ⟨_, _, _, _, _, h, _⟩ := h; exact h
  | noteOn => obtain ⟨_, _, _, _, _, h, _⟩ := h; exact h
  | polyphonicPressure => obtain ⟨_, _, _, _, h, _⟩ := h; exact h
  | controller => obtain ⟨_, _, _, _, _, h, _⟩ := h; exact h
  | programChange => obtain ⟨_, _, _, _, _, h, _⟩ := h; exact h
  | channelPressure => obtain ⟨_, _, _, _, h, _⟩ := h; exact h
  | pitchBend => obtain ⟨_, _, _, _, h, _⟩ := h; exact h
  | _ => trivial

theorem says_holds (table : List (String × Lib.Manufacturer)) (ls : List Bytes) (es : List Event) : Says table ls es ↔ TrackHolds table ls es := by
  constructor
  · intro h
    induction h with
    | nil => exact .nil
    | skip l ls es hl _ ih => exact .skip l ls es hl ih
    | event l ls e es hl hr _ ih => exact .event l ls e es hl ((C132_line_means table l e).mp hr) ih
  · intro h
    induction h with
    | nil => exact .nil
    | skip l ls es hl _ ih => exact .skip l ls es hl ih
    | event l ls e es hl hr _ ih => exact .event l ls e es hl ((C132_line_means table l e).mpr hr) ih

theorem holds_ranged {table : List (String × Lib.Manufacturer)} {ls : List Bytes} {es : List Event} (h : TrackHolds table ls es) : ∀ e ∈ es, e.body.Ranged := by
  induction h with
  | nil => intro e he; cases he
  | skip _ _ _ _ _ ih => exact ih
  | event l ls e es _ hr _ ih =>
    intro x hx
    rcases List.mem_cons.mp hx with rfl | hx
    · exact says_ranged hr.2.1
    · exact ih x hx

theorem means_stands (table : List (String × Lib.Manufacturer)) (secs : List (List Bytes)) (h : Option Header) (ts : List (List Event)) :
    Means table secs h ts ↔ Stands table secs h ts := by
  constructor
  · intro hm
    induction hm with
    | nil => exact .nil
    | comment ss h ts l t _ hc ih => exact .comment ss h ts l t ih hc
    | header ss h ts l t f d _ h1 h2 h3 ih => exact .header ss h ts l t f d ih h1 h2 h3
    | track ss h ts l t es es' _ h1 h2 h3 h4 h5 ih =>
      exact .track ss h ts l t es es' ih h1 h2 h3 ((says_holds table t es).mp h4) ((fixups_iff es es').mp h5)
  · intro hm
    induction hm with
    | nil => exact .nil
    | comment ss h ts l t _ hc ih => exact .comment ss h ts l t ih hc
    | header ss h ts l t f d _ h1 h2 h3 ih => exact .header ss h ts l t f d ih h1 h2 h3
    | track ss h ts l t es es' _ h1 h2 h3 h4 h5 ih =>
      exact .track ss h ts l t es es' ih h1 h2 h3 ((says_holds table t es).mpr h4) ((fixups_iff es es').mpr h5)

theorem stands_ranged {table : List (String × Lib.Manufacturer)} {secs : List (List Bytes)} {h : Option Header} {ts : List (List Event)}
    (hm : Stands table secs h ts) : ∀ es ∈ ts, ∀ e ∈ es, e.body.Ranged := by
  induction hm with
  | nil => intro es hes; cases hes
  | comment _ _ _ _ _ _ _ ih => exact ih
  | header _ _ _ _ _ _ _ _ _ _ _ ih => exact ih
  | track ss h ts l t es es' _ _ _ _ h4 h5 ih =>
    intro x hx
    rcases List.mem_append.mp hx with hx | hx
    · exact ih x hx
    · rw [List.mem_singleton] at hx
      subst hx
      exact restored_ranged h5 (holds_ranged h4)

theorem chunks_iff (ts : List (List Event)) (hr : ∀ es ∈ ts, ∀ e ∈ es, e.body.Ranged) (chunks : List Bytes) :
    ts.map (fun es => encodeMTrk (trackOf es)) = chunks.map .ok ↔ List.Forall₂ TrackChunk ts chunks := by
  induction ts generalizing chunks with
  | nil =>
    cases chunks with
    | nil => exact ⟨fun _ => .nil, fun _ => rfl⟩
    | cons _ _ => exact ⟨fun h => (by cases h), fun h => (by cases h)⟩
  | cons es ts ih =>
    have ih := ih (fun x hx => hr x (List.mem_cons_of_mem _ hx))
    cases chunks with
    | nil => exact ⟨fun h => (by cases h), fun h => (by cases h)⟩
    | cons c chunks =>
      rw [List.map_cons, List.map_cons, List.cons.injEq, ih, encodeMTrk_iff es (hr es List.mem_cons_self), List.forall₂_cons]

/-- **C135.** A text is assembled to a file exactly if its lines stand for a header and tracks, section by section and line by line, and the
bytes of the file are those of the header with the number of tracks and of the tracks with their events, running status, lengths and SysEx
terminators.  Nothing in this statement refers to the functions of the model. -/
theorem C135_assembled_file (table : List (String × Lib.Manufacturer)) (text b : Bytes) :
    assembleText table text = .ok b ↔ ShortLines text ∧ ∃ (lines : List Bytes) (secs : List (List Bytes)) (h : Header) (ts : List (List Event))
      (chunks : List Bytes), Lines text lines ∧ Chunked lines secs ∧ Stands table secs (some h) ts ∧ h.tracks = ts.length ∧
      List.Forall₂ TrackChunk ts chunks ∧ b = h.chunk.bytes ++ chunks.flatten := by
  rw [C128_text_meaning]
  refine and_congr_right fun _ => ?_
  constructor
  · rintro ⟨lines, secs, h, ts, chunks, h1, h2, h3, h4, h5, h6⟩
    have h3 := (means_stands table secs _ ts).mp h3
    exact ⟨lines, secs, h, ts, chunks, h1, h2, h3, h4, (chunks_iff ts (stands_ranged h3) chunks).mp h5, h6⟩
  · rintro ⟨lines, secs, h, ts, chunks, h1, h2, h3, h4, h5, h6⟩
    exact ⟨lines, secs, h, ts, chunks, h1, h2, (means_stands table secs _ ts).mpr h3, h4, (chunks_iff ts (stands_ranged h3) chunks).mpr h5, h6⟩

/-- Three notes on one channel, a packet of a message without its terminator and a delta time of two bytes. -/
def threeNotes : Bytes :=
  str "MThd format:0 metrical-time:96 ppqn\nMTrk\ndelta:0 NoteOn channel:1 note:C4, velocity:64\ndelta:200 NoteOn channel:1 note:D4, velocity:64\ndelta:1 NoteOn channel:1 note:E4, velocity:64\ndelta:0 SysExMessage Roland, 10 42 7F\ndelta:0 EndOfTrack\n"

/-- C135: the text is assembled, and the file is the one described: the second note has no status but the third one has, the message
has its terminator. -/
example : ∃ b lines secs h ts chunks, assembleText Lib.manufacturers threeNotes = .ok b ∧ Lines threeNotes lines ∧ Chunked lines secs ∧
    Stands Lib.manufacturers secs (some h) ts ∧ List.Forall₂ TrackChunk ts chunks ∧ b = h.chunk.bytes ++ chunks.flatten ∧
    b = [0x4d, 0x54, 0x68, 0x64, 0, 0, 0, 6, 0, 0, 0, 1, 0, 96, 0x4d, 0x54, 0x72, 0x6b, 0, 0, 0, 24,
      0, 0x91, 60, 64, 0x81, 0x48, 62, 64, 1, 0x91, 64, 64, 0, 0xf0, 5, 0x41, 0x10, 0x42, 0x7f, 0xf7, 0, 0xff, 0x2f, 0] := by
  obtain ⟨b, h1, h2⟩ := Outcome.of_test (o := assembleText Lib.manufacturers threeNotes) (p := fun b => decide (b =
    [0x4d, 0x54, 0x68, 0x64, 0, 0, 0, 6, 0, 0, 0, 1, 0, 96, 0x4d, 0x54, 0x72, 0x6b, 0, 0, 0, 24,
      0, 0x91, 60, 64, 0x81, 0x48, 62, 64, 1, 0x91, 64, 64, 0, 0xf0, 5, 0x41, 0x10, 0x42, 0x7f, 0xf7, 0, 0xff, 0x2f, 0])) (by decide +kernel)
  obtain ⟨_, lines, secs, h, ts, chunks, k1, k2, k3, _, k4, k5⟩ := (C135_assembled_file _ _ _).mp h1
  exact ⟨b, lines, secs, h, ts, chunks, h1, k1, k2, k3, k4, k5, of_decide_eq_true h2⟩

/-! ### C136: the encoder -/

theorem decoded_ranged {mc : MiddleC} {spare file : Bytes} {smf : SMF} (hd : decode mc spare file = .ok smf) {t : MTrk}
    (ht : t ∈ smf.tracks) {e : Event} (he : e ∈ t.events) : e.body.Ranged := by
  obtain ⟨p, r, c, hm, hv⟩ := decode_view hd ht he
  have hk := meaning_kind hm
  have hchan : isChan c = true → ∃ n : Nat, n ≤ 15 ∧ (∃ x y, c = .noteOff n x y) ∨ (n ≤ 15 ∧ ∃ x y, c = .noteOn n x y) ∨ (n ≤ 15 ∧ ∃ x y, c = .polyPressure n x y) ∨
      (n ≤ 15 ∧ ∃ x y, c = .controller n x y) ∨ (n ≤ 15 ∧ ∃ x, c = .program n x) ∨ (n ≤ 15 ∧ ∃ x, c = .channelPressure n x) ∨ (n ≤ 15 ∧ ∃ x, c = .pitchBend n x) := by
    intro hc
    obtain ⟨s, d, rfl⟩ := hk.1 hc
    have h15 : s.toNat % 16 ≤ 15 := by omega
    refine ⟨s.toNat % 16, ?_⟩
    rcases chanMeaning_inv hm with ⟨_, _, _, _, _, h⟩ | ⟨_, _, _, _, _, h⟩ | ⟨_, _, _, _, h⟩ | ⟨_, _, _, _, _, h⟩ |
      ⟨_, _, _, _, h⟩ | ⟨_, _, _, h⟩ | ⟨_, _, _, _, h⟩ | ⟨_, _, _, _, h⟩ <;> simp [h, h15]
  cases hb : e.body <;> try exact trivial
  all_goals
    rw [hb] at hv
    cases c <;> simp only [Body.view, asShown] at hv <;> try (cases hv; done)
  case smpteOffset.smpteOffset =>
    obtain ⟨ty, d, rfl⟩ := hk.2.2 rfl rfl
    obtain ⟨_, a, x, y, z, g, _, h1, _, _, h2, _, _, h3, _⟩ := metaMeaning_inv hm
    injection hv with v1 _ _ v4 _ _
    refine ⟨by omega, ?_⟩
    rw [v4, h2]
    have : a.toNat / 32 % 4 = 0 ∨ a.toNat / 32 % 4 = 1 ∨ a.toNat / 32 % 4 = 2 ∨ a.toNat / 32 % 4 = 3 := by omega
    rcases this with h | h | h | h <;> rw [h] <;> simp [smpteRate]
  all_goals
    obtain ⟨n, h⟩ := hchan rfl
    injection hv with hv
    simp at h
    show _ ≤ 15
    omega

/-- **C136.** The encoder writes the header with the number of tracks and, for each track, its events in order with their running status;
it succeeds exactly if such bytes exist and the header counts the tracks. -/
theorem C136_encoded_file (smf : SMF) (m : MThd) (h : Header) (hm : smf.mthd = some m) (hs : m.Shows h)
    (htag : ∀ t ∈ smf.tracks, t.tag = str "MTrk") (hr : ∀ t ∈ smf.tracks, ∀ e ∈ t.events, e.body.Ranged) (b : Bytes) :
    encode smf = .ok b ↔ h.tracks = smf.tracks.length ∧ ∃ chunks : List Bytes,
      List.Forall₂ TrackChunk (smf.tracks.map MTrk.events) chunks ∧ b = h.chunk.bytes ++ chunks.flatten := by
  unfold encode
  rw [hm]
  simp only
  have hn : m.tracks.toNat = h.tracks := hs.2.2.2.1
  rw [hn, marshal_shows m h hs]
  have hr' : ∀ es ∈ smf.tracks.map MTrk.events, ∀ e ∈ es, e.body.Ranged := by
    intro es hes
    obtain ⟨t, ht, rfl⟩ := List.mem_map.1 hes
    exact hr t ht
  by_cases hc : h.tracks = smf.tracks.length
  · rw [if_neg (fun h => h hc)]
    constructor
    · intro ho
      obtain ⟨bs, h1, h2⟩ := bound_ok ho
      injection h2 with h2
      obtain ⟨chunks, h3, rfl⟩ := (encodeTracks_iff smf.tracks htag bs).mp h1
      exact ⟨hc, chunks, (chunks_iff _ hr' chunks).mp h3, h2.symm⟩
    · rintro ⟨_, chunks, h3, rfl⟩
      rw [(encodeTracks_iff smf.tracks htag _).mpr ⟨chunks, (chunks_iff _ hr' chunks).mpr h3, rfl⟩]
      rfl
  · rw [if_pos hc]
    exact ⟨fun h => (by cases h), fun h => absurd h.1 hc⟩

/-- **C136.** What the encoder writes for a decoded file. -/
theorem C136_decoded_encoded {mc : MiddleC} {spare file : Bytes} {smf : SMF} (hd : decode mc spare file = .ok smf) :
    ∃ (m : MThd) (h : Header) (chunks : List Bytes), smf.mthd = some m ∧ m.Shows h ∧ h.tracks = smf.tracks.length ∧
      List.Forall₂ TrackChunk (smf.tracks.map MTrk.events) chunks ∧ encode smf = .ok (h.chunk.bytes ++ chunks.flatten) := by
  obtain ⟨_, b, hb⟩ := decoded_encodes hd
  obtain ⟨m, h, hm, hs, _⟩ := decode_ok hd
  have htag : ∀ t ∈ smf.tracks, t.tag = str "MTrk" := by
    intro t ht
    obtain ⟨i, ch, hwf, hc, _, hu⟩ := decode_track hd ht
    rw [str_MTrk]
    exact ((unmarshalMTrk_ok mc spare i ch hwf hc t).1 hu).2.1
  obtain ⟨h1, chunks, h2, h3⟩ := (C136_encoded_file smf m h hm hs htag (fun t ht e he => decoded_ranged hd ht he) b).mp hb
  exact ⟨m, h, chunks, hm, hs, h1, h2, by rw [hb, h3]⟩

/-- A file with three notes on one channel, each with its status, and a text. -/
def statusFile : Bytes := [0x4d, 0x54, 0x68, 0x64, 0, 0, 0, 6, 0, 0, 0, 1, 0, 96, 0x4d, 0x54, 0x72, 0x6b, 0, 0, 0, 22,
  0, 0x91, 60, 64, 0x80, 0, 0x91, 62, 64, 1, 0x91, 64, 64, 0, 0xff, 1, 1, 97, 0, 0xff, 0x2f, 0]

/-- C136: the file is decoded and written with the status of the second note left out and its delta time in one byte. -/
example : ∃ smf m h chunks, decode .c3 [] statusFile = .ok smf ∧ smf.mthd = some m ∧ m.Shows h ∧
    List.Forall₂ TrackChunk (smf.tracks.map MTrk.events) chunks ∧ encode smf = .ok (h.chunk.bytes ++ chunks.flatten) ∧
    h.chunk.bytes ++ chunks.flatten = [0x4d, 0x54, 0x68, 0x64, 0, 0, 0, 6, 0, 0, 0, 1, 0, 96, 0x4d, 0x54, 0x72, 0x6b, 0, 0, 0, 20,
      0, 0x91, 60, 64, 0, 62, 64, 1, 0x91, 64, 64, 0, 0xff, 1, 1, 97, 0, 0xff, 0x2f, 0] := by
  obtain ⟨smf, h1, h2⟩ := Outcome.of_test (o := decode .c3 [] statusFile)
    (p := fun smf => match encode smf with
      | .ok bs => bs == [0x4d, 0x54, 0x68, 0x64, 0, 0, 0, 6, 0, 0, 0, 1, 0, 96, 0x4d, 0x54, 0x72, 0x6b, 0, 0, 0, 20,
          0, 0x91, 60, 64, 0, 62, 64, 1, 0x91, 64, 64, 0, 0xff, 1, 1, 97, 0, 0xff, 0x2f, 0]
      | _ => false) (by decide +kernel)
  obtain ⟨m, h, chunks, k1, k2, _, k3, k4⟩ := C136_decoded_encoded h1
  rw [k4] at h2
  exact ⟨smf, m, h, chunks, h1, k1, k2, k3, k4, by simpa using h2⟩

end Midiasm
