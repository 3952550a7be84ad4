import Verif.Lemmas.Basic

/-!
C01 to C04: variable length quantities.
-/

namespace Midiasm
open Spec

/-- C01, for delta times below 2^28 (all that a standard MIDI file can contain): decoding the encoded delta time
followed by anything returns the delta time and leaves exactly what followed.  Missing: values from 2^28 up, for which the
claim is false (`C01_delta_roundtrip_fails`). -/
theorem C01_delta_roundtrip_partial (d : UInt32) (hd : d.toNat < 2 ^ 28) (suffix : Bytes) :
    decodeDelta (deltaMarshal d ++ suffix) = .ok (d, suffix) ∧ readVLQ (deltaMarshal d ++ suffix) = .ok (d, suffix) ∧
    vlqSlice (deltaMarshal d ++ suffix) = .ok (d, suffix) := by
  obtain ⟨⟨ht, hv⟩, _, _⟩ := vlq2bin_spec d hd
  have h1 := readVLQ_terminated ht suffix
  have h2 := vlqSlice_terminated ht suffix
  rw [hv] at h1 h2
  refine ⟨?_, ?_, ?_⟩
  · simpa [decodeDelta_eq, deltaMarshal_eq_vlq2bin] using h1
  · simpa [deltaMarshal_eq_vlq2bin] using h1
  · simpa [deltaMarshal_eq_vlq2bin] using h2

/-- C01 fails for every delta time from 2^28 up: the first byte of the five lacks the continuation bit. -/
theorem C01_delta_roundtrip_fails (d : UInt32) (hd : 2 ^ 28 ≤ d.toNat) (suffix : Bytes) :
    decodeDelta (deltaMarshal d ++ suffix) ≠ .ok (d, suffix) := by
  have hlt := d.toNat_lt
  rw [deltaMarshal_eq_vlq2bin, vlq2bin_eq]
  rw [if_neg (by omega), if_neg (by omega), if_neg (by omega), if_neg (by omega)]
  have ht : Terminated [lo (d.toNat / 128 ^ 4)] := ⟨[], _, rfl, by simp, by simp; omega⟩
  have := readVLQ_terminated ht ([hi (d.toNat / 128 ^ 3), hi (d.toNat / 128 ^ 2), hi (d.toNat / 128), lo d.toNat] ++ suffix)
  simp only [List.cons_append, List.nil_append] at this
  simp only [decodeDelta_eq, List.cons_append, List.nil_append]
  rw [this]
  intro h
  injection h with h
  injection h with _ h
  have := congrArg List.length h
  simp at this
  omega

/-- Non-vacuity: a delta time inside and one outside the range. -/
example : decodeDelta (deltaMarshal 0x0FFFFFFF ++ [1, 2]) = .ok (0x0FFFFFFF, [1, 2]) :=
  (C01_delta_roundtrip_partial 0x0FFFFFFF (by decide) [1, 2]).1
example : decodeDelta (deltaMarshal 0x10000000 ++ [1, 2]) ≠ .ok (0x10000000, [1, 2]) :=
  C01_delta_roundtrip_fails 0x10000000 (by decide) [1, 2]

/-- A digit string denotes a number below 128 to its length. -/
theorem value128_lt (bs : Bytes) : value128 bs < 128 ^ bs.length := by
  induction bs with
  | nil => simp [value128]
  | cons b bs ih =>
    rw [value128_cons, List.length_cons, Nat.pow_succ]
    have h1 : b.toNat % 128 * 128 ^ bs.length ≤ 127 * 128 ^ bs.length := Nat.mul_le_mul_right _ (by omega)
    omega

/-- A canonical quantity of at least two bytes has a non-zero leading digit. -/
theorem canonical_ge {bs : Bytes} (ht : Terminated bs) (hc : Canonical bs) (hl : 2 ≤ bs.length) :
    128 ^ (bs.length - 1) ≤ value128 bs := by
  obtain ⟨init, last, rfl, hi', _⟩ := ht
  cases init with
  | nil => simp at hl
  | cons b init =>
    have hb := hi' b (by simp)
    have hne : b ≠ 0x80 := by simpa [Canonical] using hc
    have hb2 : 1 ≤ b.toNat % 128 := by
      have := b.toNat_lt
      have hn : b.toNat ≠ 128 := fun h => hne (u8_ext (by simpa using h))
      omega
    rw [List.cons_append, value128_cons, List.length_cons]
    have : 1 * 128 ^ (init ++ [last]).length ≤ b.toNat % 128 * 128 ^ (init ++ [last]).length :=
      Nat.mul_le_mul_right _ hb2
    simp only [Nat.add_sub_cancel]
    omega

theorem terminated_cons {b : UInt8} {bs : Bytes} (h : Terminated (b :: bs)) :
    (bs = [] ∧ b.toNat < 128) ∨ (bs ≠ [] ∧ 128 ≤ b.toNat ∧ Terminated bs) := by
  obtain ⟨init, last, h, hi', hl⟩ := h
  cases init with
  | nil => left; simp at h; exact ⟨h.2, h.1 ▸ hl⟩
  | cons c init =>
    right
    simp at h
    obtain ⟨rfl, rfl⟩ := h
    exact ⟨by simp, hi' b (by simp), init, last, rfl, fun x hx => hi' x (by simp [hx]), hl⟩

/-- Two quantities of the same length and value are equal. -/
theorem value128_inj {as bs : Bytes} (ha : Terminated as) (hb : Terminated bs) (hl : as.length = bs.length)
    (hv : value128 as = value128 bs) : as = bs := by
  induction as generalizing bs with
  | nil => obtain ⟨i, l, h, _⟩ := ha; simp at h
  | cons a as ih =>
    cases bs with
    | nil => simp at hl
    | cons b bs =>
      simp at hl
      rw [value128_cons, value128_cons, hl] at hv
      have h1 := value128_lt as
      have h2 := value128_lt bs
      rw [hl] at h1
      have hd : a.toNat % 128 = b.toNat % 128 := by
        have e1 : (a.toNat % 128 * 128 ^ bs.length + value128 as) / 128 ^ bs.length = a.toNat % 128 := by
          rw [Nat.add_comm, Nat.add_mul_div_right _ _ (Nat.pow_pos (by omega)), Nat.div_eq_of_lt h1]; omega
        have e2 : (b.toNat % 128 * 128 ^ bs.length + value128 bs) / 128 ^ bs.length = b.toNat % 128 := by
          rw [Nat.add_comm, Nat.add_mul_div_right _ _ (Nat.pow_pos (by omega)), Nat.div_eq_of_lt h2]; omega
        rw [← e1, ← e2, hv]
      have hr : value128 as = value128 bs := by rw [hd] at hv; omega
      have la := a.toNat_lt
      have lb := b.toNat_lt
      rcases terminated_cons ha with ⟨rfl, h3⟩ | ⟨hn, h3, ht⟩
      · rcases terminated_cons hb with ⟨rfl, h4⟩ | ⟨hn', _, _⟩
        · congr 1; exact u8_ext (by omega)
        · cases bs <;> simp_all
      · rcases terminated_cons hb with ⟨rfl, h4⟩ | ⟨hn', h4, ht'⟩
        · cases as <;> simp_all
        · rw [ih ht ht' hl hr]
          congr 1; exact u8_ext (by omega)

/-- C02: the encoding of every value below 2^28 is a variable length quantity of that value in canonical form with at most
four bytes; it is no longer than any other representation, and the only canonical one. -/
theorem C02_vlq_canonical (v : UInt32) (hv : v.toNat < 2 ^ 28) :
    IsVLQ (vlq2bin v) v.toNat ∧ IsVLQ (deltaMarshal v) v.toNat ∧ Canonical (vlq2bin v) ∧ (vlq2bin v).length ≤ 4 ∧
    (∀ bs, IsVLQ bs v.toNat → (vlq2bin v).length ≤ bs.length) ∧
    (∀ bs, IsVLQ bs v.toNat → Canonical bs → bs = vlq2bin v) := by
  obtain ⟨h1, h2, h3⟩ := vlq2bin_spec v hv
  have short : ∀ bs, IsVLQ bs v.toNat → (vlq2bin v).length ≤ bs.length := by
    intro bs hb
    by_cases hl : (vlq2bin v).length ≤ 1
    · obtain ⟨i, l, rfl, _⟩ := hb.1
      simp; omega
    · have hge := canonical_ge h1.1 h2 (by omega)
      rw [h1.2] at hge
      have hlt := value128_lt bs
      rw [hb.2] at hlt
      have : 128 ^ ((vlq2bin v).length - 1) < 128 ^ bs.length := by omega
      have := (Nat.pow_lt_pow_iff_right (by omega : 1 < 128)).1 this
      omega
  refine ⟨h1, h1, h2, h3, short, ?_⟩
  intro bs hb hc
  have hle := short bs hb
  by_cases hl : bs.length ≤ 1
  · refine value128_inj hb.1 h1.1 ?_ (by rw [hb.2, h1.2])
    obtain ⟨i, l, h, _⟩ := h1.1
    have := congrArg List.length h
    simp at this
    omega
  · have hge := canonical_ge hb.1 hc (by omega)
    rw [hb.2] at hge
    have hlt := value128_lt (vlq2bin v)
    rw [h1.2] at hlt
    have : 128 ^ (bs.length - 1) < 128 ^ (vlq2bin v).length := by omega
    have := (Nat.pow_lt_pow_iff_right (by omega : 1 < 128)).1 this
    exact value128_inj hb.1 h1.1 (by omega) (by rw [hb.2, h1.2])

example : vlq2bin 0x0FFFFFFF = [0xff, 0xff, 0xff, 0x7f] ∧ vlq2bin 16384 = [0x81, 0x80, 0x00] ∧ vlq2bin 0 = [0x00] := by
  decide
example : ((C02_vlq_canonical 16384 (by decide)).1 : IsVLQ (vlq2bin 16384) 16384) = (C02_vlq_canonical 16384 (by decide)).1 := rfl

/-- C03: every byte string either starts with a terminated digit string, and then each of the three decoders returns its
value modulo 2^32 and exactly what follows it, or contains no byte with bit 7 clear, and then they report end of input
(an ordinary error in the slice version). -/
theorem C03_decode_self_delimiting (bs : Bytes) :
    (∃ p rest, bs = p ++ rest ∧ Terminated p ∧
        ∀ more, readVLQ (bs ++ more) = .ok (UInt32.ofNat (value128 p), rest ++ more) ∧
          decodeDelta (bs ++ more) = .ok (UInt32.ofNat (value128 p), rest ++ more) ∧
          vlqSlice (bs ++ more) = .ok (UInt32.ofNat (value128 p), rest ++ more)) ∨
    ((∀ b ∈ bs, 128 ≤ b.toNat) ∧ readVLQ bs = .err .eof ∧ decodeDelta bs = .err .eof ∧ vlqSlice bs = .err .other) := by
  rcases split_terminated bs with ⟨p, rest, rfl, ht⟩ | h
  · left
    refine ⟨p, rest, rfl, ht, fun more => ?_⟩
    rw [List.append_assoc]
    exact ⟨readVLQ_terminated ht _, readVLQ_terminated ht _, vlqSlice_terminated ht _⟩
  · right
    exact ⟨h, readVLQ_unterminated h, readVLQ_unterminated h, vlqSlice_unterminated h⟩

/-- The prefix in C03 is determined by the input, so C03 pins the decoders completely. -/
theorem terminated_prefix_unique {p q r s : Bytes} (hp : Terminated p) (hq : Terminated q) (h : p ++ r = q ++ s) :
    p = q ∧ r = s := by
  induction p generalizing q with
  | nil => obtain ⟨i, l, h, _⟩ := hp; simp at h
  | cons a p ih =>
    cases q with
    | nil => obtain ⟨i, l, h, _⟩ := hq; simp at h
    | cons b q =>
      simp at h
      obtain ⟨rfl, h⟩ := h
      rcases terminated_cons hp with ⟨rfl, h1⟩ | ⟨hn, h1, h2⟩
      · rcases terminated_cons hq with ⟨rfl, h3⟩ | ⟨_, h3, _⟩
        · simpa using h
        · omega
      · rcases terminated_cons hq with ⟨rfl, h3⟩ | ⟨_, h3, h4⟩
        · omega
        · obtain ⟨e1, e2⟩ := ih h2 h4 h
          simp [e1, e2]

example : Terminated [0x81, 0x80, 0x05] ∧ value128 [0x81, 0x80, 0x05] = 16389 ∧
    readVLQ [0x81, 0x80, 0x05, 0x99] = .ok (16389, [0x99]) ∧ readVLQ [0x81, 0xff] = .err .eof :=
  ⟨⟨[0x81, 0x80], 0x05, rfl, by decide, by decide⟩, by decide, by decide, by decide⟩

/-- C04: a payload shorter than 2^28 bytes written as a variable length field is read back byte for byte by the reader
(track decoder) and by the slice version (event parsers, whatever the slice's spare capacity), and nothing after it is
consumed. -/
theorem C04_vlf_roundtrip (p suffix spare : Bytes) (hp : p.length < 2 ^ 28) :
    readVLF (vlf2bin p ++ suffix) = .ok (p, suffix) ∧ vlfSlice (vlf2bin p ++ suffix) spare = .ok p := by
  have hn : (UInt32.ofNat p.length).toNat = p.length := by
    simp; omega
  obtain ⟨⟨ht, hv⟩, _, _⟩ := vlq2bin_spec (UInt32.ofNat p.length) (by omega)
  have h1 := readVLQ_terminated ht (p ++ suffix)
  have h2 := vlqSlice_terminated ht (p ++ suffix)
  rw [hv, hn] at h1 h2
  constructor
  · simp only [readVLF, vlf2bin, List.append_assoc, h1, Outcome.bind_ok, hn]
    simp
  · simp only [vlfSlice, vlf2bin, List.append_assoc, h2, Outcome.bind_ok, hn, sliceTo]
    simp
    omega

example : readVLF (vlf2bin [1, 2, 3] ++ [9]) = .ok ([1, 2, 3], [9]) := (C04_vlf_roundtrip [1, 2, 3] [9] [] (by decide)).1

end Midiasm
