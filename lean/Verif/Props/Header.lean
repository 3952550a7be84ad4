import Verif.Lemmas.File

/-!
C05 to C07: the header chunk and the chunks of a file.
-/

set_option linter.unusedSimpArgs false

namespace Midiasm
open Spec

/-- The decoded header has the field values `h`. -/
def MThd.Shows (m : MThd) (h : Header) : Prop :=
  m.tag = tagMThd ∧ m.length = 6 ∧ m.format.toNat = h.format ∧ m.tracks.toNat = h.tracks ∧ m.division.toNat = h.division ∧
  (h.division < 32768 → m.ppqn.toNat = h.division ∧ m.smpte = false ∧ m.fps = 0 ∧ m.dropFrame = false ∧ m.subFrames = 0) ∧
  (32768 ≤ h.division → m.ppqn = 0 ∧ m.smpte = true ∧ frameRate (h.division / 256) = some (m.fps.toNat, m.dropFrame) ∧
    m.subFrames.toNat = h.division % 256)

theorem frameRate_lt {hi fps : Nat} {drop : Bool} (h : frameRate hi = some (fps, drop)) : fps < 256 := by
  unfold frameRate at h
  repeat' split at h
  all_goals simp at h
  all_goals omega

/-- A chunk holding a valid header is decoded to that header. -/
theorem unmarshalMThd_valid (h : Header) (hv : h.Valid) :
    ∃ m, unmarshalMThd h.chunk.bytes = .ok m ∧ m.Shows h ∧ m.bytes = h.chunk.bytes := by
  obtain ⟨h1, h2, h3, h4⟩ := hv
  have hf : (UInt16.ofNat h.format).toNat = h.format := by simp; omega
  have ht : (UInt16.ofNat h.tracks).toNat = h.tracks := by simp; omega
  have hd : (UInt16.ofNat h.division).toNat = h.division := by simp; omega
  rw [unmarshalMThd_chunk h (by omega) h2 h3, if_pos h1]
  by_cases hm : h.division < 32768
  · rw [if_pos hm]
    exact ⟨_, rfl, ⟨rfl, rfl, hf, ht, hd, fun _ => ⟨hd, rfl, rfl, rfl, rfl⟩, fun hx => by omega⟩, rfl⟩
  · rw [if_neg hm]
    cases hr : frameRate (h.division / 256) with
    | none => simp [hr] at h4; omega
    | some p =>
      obtain ⟨fps, drop⟩ := p
      have hlt := frameRate_lt hr
      refine ⟨_, rfl, ⟨rfl, rfl, hf, ht, hd, fun hx => by omega, fun _ => ⟨rfl, rfl, ?_, ?_⟩⟩, rfl⟩
      · rw [hr]; simp; omega
      · simp; omega

/-- C05: a chunk is accepted as a header exactly when it is tagged MThd, has length 6, a documented format and a documented
division; the decoded fields are the big-endian fields of the chunk; otherwise an error is returned. -/
theorem C05_header_acceptance (c : Chunk) (wf : c.Wf) :
    ((∃ m, unmarshalMThd c.bytes = .ok m) ↔ ∃ h : Header, h.Valid ∧ c = h.chunk) ∧
    (∀ h : Header, h.Valid → c = h.chunk → ∃ m, unmarshalMThd c.bytes = .ok m ∧ m.Shows h) ∧
    ((¬ ∃ h : Header, h.Valid ∧ c = h.chunk) → unmarshalMThd c.bytes = .err .other) := by
  have hok : ∀ h : Header, h.Valid → c = h.chunk → ∃ m, unmarshalMThd c.bytes = .ok m ∧ m.Shows h := by
    intro h hv hc
    obtain ⟨m, h1, h2, _⟩ := unmarshalMThd_valid h hv
    exact ⟨m, by rw [hc]; exact h1, h2⟩
  have hno : (¬ ∃ h : Header, h.Valid ∧ c = h.chunk) → unmarshalMThd c.bytes = .err .other := by
    intro hn
    by_cases hc : c.tag = tagMThd ∧ c.body.length = 6
    · obtain ⟨h, rfl, h1, h2, h3⟩ := header_of_chunk c hc.1 hc.2
      rw [unmarshalMThd_chunk h h1 h2 h3]
      by_cases hf : h.format ≤ 2
      · rw [if_pos hf]
        by_cases hd : h.division < 32768
        · exact absurd ⟨h, ⟨hf, h2, h3, Or.inl hd⟩, rfl⟩ hn
        · rw [if_neg hd]
          cases hr : frameRate (h.division / 256) with
          | none => rfl
          | some p => exact absurd ⟨h, ⟨hf, h2, h3, Or.inr (by simp [hr])⟩, rfl⟩ hn
      · rw [if_neg hf]
    · exact unmarshalMThd_other c wf hc
  refine ⟨⟨?_, ?_⟩, hok, hno⟩
  · rintro ⟨m, hm⟩
    apply Classical.byContradiction
    intro hn
    rw [hno hn] at hm
    cases hm
  · rintro ⟨h, hv, hc⟩
    obtain ⟨m, h1, _⟩ := hok h hv hc
    exact ⟨m, h1⟩

/-- Non-vacuity: a metrical and an SMPTE header are accepted, format 3 and frame rate -26 are not. -/
example : (Header.mk 1 17 480).Valid ∧ (Header.mk 0 1 0xe728).Valid ∧ ¬ (Header.mk 3 1 480).Valid ∧
    ¬ (Header.mk 1 1 0xe628).Valid := by
  refine ⟨⟨by decide, by decide, by decide, Or.inl (by decide)⟩, ⟨by decide, by decide, by decide, Or.inr rfl⟩, ?_, ?_⟩
  · exact fun h => absurd h.1 (by decide)
  · intro h
    rcases h.2.2.2 with h | h
    · exact absurd h (by decide)
    · exact absurd h (by decide)

/-- Writing a header writes its chunk. -/
theorem marshal_shows (m : MThd) (h : Header) (hs : m.Shows h) : m.marshal = h.chunk.bytes := by
  obtain ⟨h1, h2, h3, h4, h5, _⟩ := hs
  simp only [MThd.marshal, Header.chunk, Chunk.bytes, putUint16_eq, putUint32_eq, h1, h2, h3, h4, h5]
  simp [be16, be32]

/-- C63: a header read from a file and written again gives the chunk it was read from, so reading it back gives the same
header value. -/
theorem C63_decoded_header_roundtrip (c : Chunk) (wf : c.Wf) (m : MThd) (hm : unmarshalMThd c.bytes = .ok m) :
    m.marshal = c.bytes ∧ unmarshalMThd m.marshal = .ok m := by
  obtain ⟨h, hv, rfl⟩ := (C05_header_acceptance c wf).1.1 ⟨m, hm⟩
  obtain ⟨m', h1, h2, _⟩ := unmarshalMThd_valid h hv
  rw [hm] at h1
  injection h1 with h1
  subst h1
  have := marshal_shows m h h2
  exact ⟨this, by rw [this, hm]⟩

example : ∃ m, unmarshalMThd (Header.mk 0 1 0xe7c8).chunk.bytes = .ok m :=
  ((C05_header_acceptance _ (header_chunk_wf _)).1).2 ⟨_, ⟨by decide, by decide, by decide, Or.inr rfl⟩, rfl⟩

/-- Equality of headers except for the recorded raw bytes. -/
def MThd.SameAs (m m' : MThd) : Prop :=
  m.tag = m'.tag ∧ m.length = m'.length ∧ m.format = m'.format ∧ m.tracks = m'.tracks ∧ m.division = m'.division ∧
  m.ppqn = m'.ppqn ∧ m.smpte = m'.smpte ∧ m.fps = m'.fps ∧ m.dropFrame = m'.dropFrame ∧ m.subFrames = m'.subFrames

/-- The header value made for given fields. -/
theorem makeMThd_eq (f t d : UInt16) (b : Bytes) (hv : (Header.mk f.toNat t.toNat d.toNat).Valid) :
    makeMThd f t d b =
      if d.toNat < 32768 then .ok ⟨tagMThd, 6, f, t, d, d, false, 0, 0, false, b⟩
      else match frameRate (d.toNat / 256) with
        | none => .panic
        | some (fps, drop) => .ok ⟨tagMThd, 6, f, t, d, 0, true, d &&& 0x007f, UInt8.ofNat fps, drop, b⟩ := by
  obtain ⟨h1, h2, h3, h4⟩ := hv
  simp only at h1 h2 h3 h4
  have hf : ¬ (f ≠ 0 ∧ f ≠ 1 ∧ f ≠ 2) := by
    rintro ⟨a, b, c⟩
    have a' : f.toNat ≠ 0 := fun h => a (u16_ext (by simpa using h))
    have b' : f.toNat ≠ 1 := fun h => b (u16_ext (by simpa using h))
    have c' : f.toNat ≠ 2 := fun h => c (u16_ext (by simpa using h))
    omega
  rw [makeMThd, if_neg hf, fpsOf_eq, str_MThd]
  by_cases hd : d.toNat < 32768
  · rw [if_pos ((u16_and8000 d).2 hd), if_pos hd, u16_and7fff d hd]
  · rw [if_neg (fun h => hd ((u16_and8000 d).1 h)), if_neg hd]
    cases frameRate (d.toNat / 256) <;> rfl

theorem u16_and7f (v : UInt16) : (v &&& 0x007f).toNat = v.toNat % 128 := by
  have h1 : (v &&& 0x007f).toNat = v.toNat &&& 2 ^ 7 - 1 := by simp
  rw [h1, Nat.and_two_pow_sub_one_eq_mod]

/-- C06 for headers built from format, track count and division, when the division is metrical or counts fewer than 128 ticks
per frame: written and read back they have the same fields.  Missing: SMPTE divisions with 128 or more ticks per frame, for
which the claim is false (`C06_header_roundtrip_fails`). -/
theorem C06_header_roundtrip_partial (f t d : UInt16) (hv : (Header.mk f.toNat t.toNat d.toNat).Valid)
    (hd : d.toNat < 32768 ∨ d.toNat % 256 < 128) :
    ∃ m m', makeMThd f t d [] = .ok m ∧ unmarshalMThd m.marshal = .ok m' ∧ m'.SameAs m ∧
      m.Shows ⟨f.toNat, t.toNat, d.toNat⟩ := by
  obtain ⟨m', h1, h2, _⟩ := unmarshalMThd_valid _ hv
  have hr := hv.2.2.2
  simp only at hr
  have key : ∃ m, makeMThd f t d [] = .ok m ∧ m.Shows ⟨f.toNat, t.toNat, d.toNat⟩ := by
    rw [makeMThd_eq f t d [] hv]
    by_cases hm : d.toNat < 32768
    · rw [if_pos hm]
      exact ⟨_, rfl, rfl, rfl, rfl, rfl, rfl, fun _ => ⟨rfl, rfl, rfl, rfl, rfl⟩, fun hx => by simp only at hx; omega⟩
    · rw [if_neg hm]
      cases hfr : frameRate (d.toNat / 256) with
      | none => simp [hfr] at hr; omega
      | some p =>
        obtain ⟨fps, drop⟩ := p
        have hlt := frameRate_lt hfr
        refine ⟨_, rfl, rfl, rfl, rfl, rfl, rfl, fun hx => by simp only at hx; omega, fun _ => ⟨rfl, rfl, ?_, ?_⟩⟩
        · simp only [hfr]; simp; omega
        · simp only [u16_and7f]; omega
  obtain ⟨m, hm, hs⟩ := key
  refine ⟨m, m', hm, by rw [marshal_shows m _ hs]; exact h1, ?_, hs⟩
  obtain ⟨a1, a2, a3, a4, a5, a6, a7⟩ := hs
  obtain ⟨b1, b2, b3, b4, b5, b6, b7⟩ := h2
  simp only at a3 a4 a5 a6 a7 b3 b4 b5 b6 b7
  refine ⟨b1.trans a1.symm, b2.trans a2.symm, u16_ext (b3.trans a3.symm), u16_ext (b4.trans a4.symm), u16_ext (b5.trans a5.symm), ?_⟩
  by_cases hm : d.toNat < 32768
  · obtain ⟨p1, p2, p3, p4, p5⟩ := a6 hm
    obtain ⟨q1, q2, q3, q4, q5⟩ := b6 hm
    exact ⟨u16_ext (q1.trans p1.symm), q2.trans p2.symm, q3.trans p3.symm, q4.trans p4.symm, q5.trans p5.symm⟩
  · obtain ⟨p1, p2, p3, p4⟩ := a7 (by omega)
    obtain ⟨q1, q2, q3, q4⟩ := b7 (by omega)
    rw [p3] at q3
    injection q3 with q3
    injection q3 with q3 q5
    exact ⟨q1.trans p1.symm, q2.trans p2.symm, u8_ext q3.symm, q5.symm, u16_ext (q4.trans p4.symm)⟩

/-- C06 fails for every SMPTE division with 128 or more ticks per frame: the value built keeps only seven bits. -/
theorem C06_header_roundtrip_fails (f t d : UInt16) (hv : (Header.mk f.toNat t.toNat d.toNat).Valid)
    (h1 : 32768 ≤ d.toNat) (h2 : 128 ≤ d.toNat % 256) :
    ∃ m m', makeMThd f t d [] = .ok m ∧ unmarshalMThd m.marshal = .ok m' ∧ m'.subFrames ≠ m.subFrames := by
  obtain ⟨m', hm', hs, _⟩ := unmarshalMThd_valid _ hv
  have hr := hv.2.2.2
  simp only at hr
  rw [makeMThd_eq f t d [] hv, if_neg (by omega)]
  cases hfr : frameRate (d.toNat / 256) with
  | none => simp [hfr] at hr; omega
  | some p =>
    obtain ⟨fps, drop⟩ := p
    refine ⟨_, m', rfl, ?_, ?_⟩
    · rw [← hm']
      congr 1
      simp only [MThd.marshal, Header.chunk, Chunk.bytes, putUint16_eq, putUint32_eq]
      simp [be16, be32]
    · obtain ⟨_, _, _, _, _, _, b7⟩ := hs
      have := (b7 h1).2.2.2
      intro hx
      rw [hx] at this
      simp only [u16_and7f] at this
      omega

example : ∃ m m', makeMThd 1 2 0xe764 [] = .ok m ∧ unmarshalMThd m.marshal = .ok m' ∧ m'.SameAs m ∧
    m.Shows ⟨1, 2, 0xe764⟩ :=
  C06_header_roundtrip_partial 1 2 0xe764 ⟨by decide, by decide, by decide, Or.inr rfl⟩ (Or.inr (by decide))
example : ∃ m m', makeMThd 1 2 0xe7c8 [] = .ok m ∧ unmarshalMThd m.marshal = .ok m' ∧ m'.subFrames ≠ m.subFrames :=
  C06_header_roundtrip_fails 1 2 0xe7c8 ⟨by decide, by decide, by decide, Or.inr rfl⟩ (by decide) (by decide)

/-! ### Chunks -/

/-- The track chunks of a file. -/
def trackChunks (cs : List Chunk) : List Chunk := cs.filter (fun c => c.tag == tagMTrk)

/-- The track loop of the decoder. -/
theorem decodeTracks_ok (mc : MiddleC) (spare : Bytes) (cs : List Chunk) (wf : ∀ c ∈ cs, c.Wf) (n : Nat) (ts : List MTrk) :
    decodeTracks mc spare (cs.map Chunk.bytes) n = .ok ts ↔
      ts.length = (trackChunks cs).length ∧
      ∀ i c t, (trackChunks cs)[i]? = some c → ts[i]? = some t → unmarshalMTrk mc spare (n + i) c.bytes = .ok t := by
  induction cs generalizing n ts with
  | nil =>
    simp only [List.map_nil, decodeTracks, trackChunks, List.filter_nil, List.length_nil]
    constructor
    · intro h; injection h with h; subst h; simp
    · rintro ⟨h, _⟩; rw [List.eq_nil_of_length_eq_zero h]
  | cons c cs ih =>
    have wc := wf c (by simp)
    have wcs : ∀ c ∈ cs, c.Wf := fun c hc => wf c (by simp [hc])
    simp only [List.map_cons, decodeTracks, slice_tag c wc, Outcome.bind_ok, str_MTrk]
    by_cases ht : c.tag = tagMTrk
    · rw [if_pos ht]
      have hf : trackChunks (c :: cs) = c :: trackChunks cs := by simp [trackChunks, ht]
      rw [hf]
      constructor
      · intro h
        cases hu : unmarshalMTrk mc spare n c.bytes with
        | ok t =>
          rw [hu, Outcome.bind_ok] at h
          cases hd : decodeTracks mc spare (cs.map Chunk.bytes) (n + 1) with
          | ok ts' =>
            rw [hd, Outcome.bind_ok] at h
            injection h with h
            subst h
            obtain ⟨h1, h2⟩ := (ih wcs (n + 1) ts').1 hd
            refine ⟨by simp [h1], ?_⟩
            intro i c' t' hc' ht'
            cases i with
            | zero => simp at hc' ht'; subst hc' ht'; exact hu
            | succ i =>
              have := h2 i c' t' (by simpa using hc') (by simpa using ht')
              rw [show n + (i + 1) = n + 1 + i by omega]; exact this
          | err e => rw [hd] at h; cases h
          | panic => rw [hd] at h; cases h
          | diverge => rw [hd] at h; cases h
        | err e => rw [hu] at h; cases h
        | panic => rw [hu] at h; cases h
        | diverge => rw [hu] at h; cases h
      · rintro ⟨h1, h2⟩
        cases ts with
        | nil => simp at h1
        | cons t ts =>
          have h0 : unmarshalMTrk mc spare n c.bytes = .ok t := h2 0 c t (by simp) (by simp)
          rw [h0, Outcome.bind_ok]
          have := (ih wcs (n + 1) ts).2 ⟨by simpa using h1, by
            intro i c' t' hc' ht'
            have := h2 (i + 1) c' t' (by simpa using hc') (by simpa using ht')
            rw [show n + (i + 1) = n + 1 + i by omega] at this; exact this⟩
          rw [this, Outcome.bind_ok]
    · rw [if_neg ht]
      have hf : trackChunks (c :: cs) = trackChunks cs := by simp [trackChunks, ht]
      rw [hf]
      exact ih wcs n ts

/-- Chunks with other tags have no effect on the tracks. -/
theorem decodeTracks_filter (mc : MiddleC) (spare : Bytes) (cs : List Chunk) (wf : ∀ c ∈ cs, c.Wf) (n : Nat) :
    decodeTracks mc spare (cs.map Chunk.bytes) n = decodeTracks mc spare ((trackChunks cs).map Chunk.bytes) n := by
  induction cs generalizing n with
  | nil => rfl
  | cons c cs ih =>
    have wc := wf c (by simp)
    have wcs : ∀ c ∈ cs, c.Wf := fun c hc => wf c (by simp [hc])
    by_cases ht : c.tag = tagMTrk
    · have hf : trackChunks (c :: cs) = c :: trackChunks cs := by simp [trackChunks, ht]
      rw [hf, List.map_cons, List.map_cons, decodeTracks, decodeTracks]
      simp only [ih wcs, slice_tag c wc, Outcome.bind_ok, str_MTrk, ht, if_true]
    · have hf : trackChunks (c :: cs) = trackChunks cs := by simp [trackChunks, ht]
      rw [hf, List.map_cons, decodeTracks, slice_tag c wc, Outcome.bind_ok, str_MTrk, if_neg ht]
      exact ih wcs n

theorem trackChunks_wf {cs : List Chunk} (wf : ∀ c ∈ cs, c.Wf) : ∀ c ∈ trackChunks cs, c.Wf :=
  fun c hc => wf c (List.mem_filter.1 hc).1

/-- The decoder on a list of chunks. -/
theorem decode_chunks (mc : MiddleC) (spare : Bytes) (c : Chunk) (cs : List Chunk) (wf : ∀ x ∈ c :: cs, x.Wf) (tail : Bytes)
    (ht : EndTail tail) :
    decode mc spare (fileBytes (c :: cs) ++ tail) =
      unmarshalMThd c.bytes >>= fun m => decodeTracks mc spare (cs.map Chunk.bytes) 0 >>= fun ts =>
        if ts.length ≠ m.tracks.toNat then .err .other else .ok ⟨some m, ts⟩ := by
  rw [decode, (chunkLoop_file (c :: cs) wf tail).1 ht]
  rfl

/-- C07: a file made of a header chunk and further chunks decodes exactly when every MTrk chunk decodes and their number is the
one in the header; the tracks are then the MTrk chunks in file order, numbered 0, 1, 2, ...  Chunks with other tags have no
effect. -/
theorem C07_chunk_framing (mc : MiddleC) (spare : Bytes) (h : Header) (hv : h.Valid) (cs : List Chunk) (wf : ∀ c ∈ cs, c.Wf) :
    (∀ smf, decode mc spare (fileBytes (h.chunk :: cs)) = .ok smf ↔
      (∃ m, smf.mthd = some m ∧ m.Shows h ∧ m.bytes = h.chunk.bytes) ∧
      smf.tracks.length = h.tracks ∧ (trackChunks cs).length = h.tracks ∧
      ∀ i c t, (trackChunks cs)[i]? = some c → smf.tracks[i]? = some t → unmarshalMTrk mc spare i c.bytes = .ok t) ∧
    decode mc spare (fileBytes (h.chunk :: cs)) = decode mc spare (fileBytes (h.chunk :: trackChunks cs)) := by
  have w1 : ∀ x ∈ h.chunk :: cs, x.Wf := by
    intro x hx
    rcases List.mem_cons.1 hx with rfl | hx
    · exact header_chunk_wf h
    · exact wf x hx
  have w2 : ∀ x ∈ h.chunk :: trackChunks cs, x.Wf := by
    intro x hx
    rcases List.mem_cons.1 hx with rfl | hx
    · exact header_chunk_wf h
    · exact trackChunks_wf wf x hx
  have e1 := decode_chunks mc spare h.chunk cs w1 [] .nil
  have e2 := decode_chunks mc spare h.chunk (trackChunks cs) w2 [] .nil
  rw [List.append_nil] at e1 e2
  refine ⟨?_, by rw [e1, e2, decodeTracks_filter mc spare cs wf]⟩
  intro smf
  obtain ⟨m, hm, hs, hb⟩ := unmarshalMThd_valid h hv
  rw [e1, hm, Outcome.bind_ok]
  have htr : m.tracks.toNat = h.tracks := hs.2.2.2.1
  constructor
  · intro hd
    cases hdt : decodeTracks mc spare (cs.map Chunk.bytes) 0 with
    | ok ts =>
      rw [hdt, Outcome.bind_ok] at hd
      split at hd
      · cases hd
      · rename_i hlen
        injection hd with hd
        subst hd
        obtain ⟨h1, h2⟩ := (decodeTracks_ok mc spare cs wf 0 ts).1 hdt
        simp only [ne_eq, Decidable.not_not] at hlen
        refine ⟨⟨m, rfl, hs, hb⟩, by simp only; omega, by omega, ?_⟩
        intro i c t hc ht
        have := h2 i c t hc ht
        rwa [Nat.zero_add] at this
    | err e => rw [hdt] at hd; cases hd
    | panic => rw [hdt] at hd; cases hd
    | diverge => rw [hdt] at hd; cases hd
  · rintro ⟨⟨m', hm', hs', hb'⟩, h1, h2, h3⟩
    have hdt := (decodeTracks_ok mc spare cs wf 0 smf.tracks).2 ⟨by omega, fun i c t hc ht => by
      rw [Nat.zero_add]; exact h3 i c t hc ht⟩
    rw [hdt, Outcome.bind_ok, if_neg (by omega)]
    have : m' = m := by
      obtain ⟨a1, a2, a3, a4, a5, a6, a7⟩ := hs
      obtain ⟨b1, b2, b3, b4, b5, b6, b7⟩ := hs'
      obtain ⟨tag, length, format, tracks, division, ppqn, smpte, sub, fps, drop, bytes⟩ := m
      obtain ⟨tag', length', format', tracks', division', ppqn', smpte', sub', fps', drop', bytes'⟩ := m'
      simp only at *
      subst a1 a2 b1 b2 hb hb'
      have e3 := u16_ext (b3.trans a3.symm)
      have e4 := u16_ext (b4.trans a4.symm)
      have e5 := u16_ext (b5.trans a5.symm)
      subst e3 e4 e5
      by_cases hmd : h.division < 32768
      · obtain ⟨p1, p2, p3, p4, p5⟩ := a6 hmd
        obtain ⟨q1, q2, q3, q4, q5⟩ := b6 hmd
        have e6 := u16_ext (q1.trans p1.symm)
        subst p2 p3 p4 p5 q2 q3 q4 q5 e6
        rfl
      · obtain ⟨p1, p2, p3, p4⟩ := a7 (by omega)
        obtain ⟨q1, q2, q3, q4⟩ := b7 (by omega)
        rw [p3] at q3
        injection q3 with q3
        injection q3 with q3 q5
        have e6 := u8_ext q3
        have e7 := u16_ext (q4.trans p4.symm)
        subst p1 p2 q1 q2 q5 e6 e7
        rfl
    subst this
    rw [← hm']

/-- Non-vacuity: a file with two tracks and an unknown chunk between them. -/
def sampleChunks : List Chunk :=
  [⟨tagMTrk, [0x00, 0xff, 0x2f, 0x00]⟩, ⟨[0x58, 0x46, 0x49, 0x48], [1, 2, 3]⟩, ⟨tagMTrk, [0x00, 0x90, 0x3c, 0x40, 0x00, 0xff, 0x2f, 0x00]⟩]

example : ∃ smf, decode .c3 [] (fileBytes ((Header.mk 1 2 480).chunk :: sampleChunks)) = .ok smf ∧
    (smf.tracks.map (fun t => t.trackNumber) == [0, 1]) = true :=
  Outcome.of_test (p := fun smf : SMF => smf.tracks.map (fun t => t.trackNumber) == [0, 1]) (by decide +kernel)

/-! ### Truncated files -/

theorem chunk_bytes_inj {c c' : Chunk} (w : c.Wf) (w' : c'.Wf) (h : c.bytes = c'.bytes) : c = c' := by
  obtain ⟨t, b⟩ := c
  obtain ⟨t', b'⟩ := c'
  obtain ⟨w1, _⟩ := w
  obtain ⟨w1', _⟩ := w'
  simp only at w1 w1'
  simp only [Chunk.bytes, List.append_assoc] at h
  obtain ⟨h1, h2⟩ := List.append_inj h (by omega)
  obtain ⟨_, h3⟩ := List.append_inj h2 (by simp [be32])
  rw [h1, h3]

/-- The chunks found in a prefix of a file are the first chunks of the file. -/
theorem chunks_of_prefix (cs cs' : List Chunk) (w : ∀ c ∈ cs, c.Wf) (w' : ∀ c ∈ cs', c.Wf) (tail ext : Bytes)
    (h : fileBytes cs = fileBytes cs' ++ tail ++ ext) : ∃ more, cs = cs' ++ more ∧ fileBytes more = tail ++ ext := by
  induction cs' generalizing cs with
  | nil => exact ⟨cs, rfl, by simpa [fileBytes] using h⟩
  | cons c' cs' ih =>
    cases cs with
    | nil =>
      have hl := chunk_length c' (w' c' (by simp))
      have := congrArg List.length h
      simp [fileBytes] at this
      omega
    | cons c cs =>
      have e1 := nextChunk_chunk c (w c (by simp)) (fileBytes cs)
      have e2 := nextChunk_chunk c' (w' c' (by simp)) (fileBytes cs' ++ tail ++ ext)
      have hh : c.bytes ++ fileBytes cs = c'.bytes ++ (fileBytes cs' ++ tail ++ ext) := by
        simpa [fileBytes] using h
      rw [hh, e2] at e1
      injection e1 with e1
      injection e1 with e1 e3
      have := chunk_bytes_inj (w c (by simp)) (w' c' (by simp)) e1.symm
      subst this
      obtain ⟨more, h1, h2⟩ := ih cs (fun c hc => w c (by simp [hc])) (fun c hc => w' c (by simp [hc])) e3.symm
      exact ⟨more, by rw [h1]; rfl, h2⟩

/-- C64: a file whose last chunk is a track and that decodes is rejected with an error when it is cut short anywhere. -/
theorem C64_truncated_file_rejected (mc : MiddleC) (spare : Bytes) (c0 : Chunk) (cs : List Chunk) (last : Chunk)
    (wf : ∀ c ∈ c0 :: (cs ++ [last]), c.Wf) (hlast : last.tag = tagMTrk) (smf : SMF)
    (hd : decode mc spare (fileBytes (c0 :: (cs ++ [last]))) = .ok smf) (p ext : Bytes) (hne : ext ≠ [])
    (hp : fileBytes (c0 :: (cs ++ [last])) = p ++ ext) : ∃ e, decode mc spare p = .err e := by
  obtain ⟨cs', tail, rfl, w', htail⟩ := split_file p
  obtain ⟨more, hm, hmb⟩ := chunks_of_prefix _ cs' wf w' tail ext hp
  rcases htail with htail | htail
  · cases cs' with
    | nil =>
      rw [decode, (chunkLoop_file [] (by simp) tail).1 htail]
      exact ⟨.other, rfl⟩
    | cons c' cs' =>
      have hmne : more ≠ [] := by
        rintro rfl
        simp [fileBytes] at hmb
        exact hne hmb.2
      obtain ⟨more', l', rfl⟩ : ∃ more' l', more = more' ++ [l'] :=
        ⟨more.dropLast, more.getLast hmne, (List.dropLast_concat_getLast hmne).symm⟩
      rw [List.cons_append] at hm
      injection hm with h1 h2
      subst h1
      rw [← List.append_assoc] at h2
      obtain ⟨h3, h4⟩ := List.append_inj' h2 rfl
      injection h4 with h4
      subst h3 h4
      rw [decode_chunks mc spare c0 cs' w' tail htail]
      have hd' := decode_chunks mc spare c0 ((cs' ++ more') ++ [last]) wf [] .nil
      rw [List.append_nil, hd] at hd'
      cases hu : unmarshalMThd c0.bytes with
      | ok m =>
        rw [hu, Outcome.bind_ok] at hd'
        rw [Outcome.bind_ok]
        have wcs : ∀ c ∈ (cs' ++ more') ++ [last], c.Wf := fun c hc => wf c (List.mem_cons_of_mem _ hc)
        cases ht : decodeTracks mc spare (((cs' ++ more') ++ [last]).map Chunk.bytes) 0 with
        | ok ts =>
          rw [ht, Outcome.bind_ok] at hd'
          split at hd'
          · cases hd'
          · rename_i hlen
            simp only [ne_eq, Decidable.not_not] at hlen
            obtain ⟨k1, k2⟩ := (decodeTracks_ok mc spare _ wcs 0 ts).1 ht
            have hsplit : trackChunks ((cs' ++ more') ++ [last]) = trackChunks cs' ++ (trackChunks more' ++ [last]) := by
              simp [trackChunks, List.filter_append, hlast]
            rw [hsplit] at k1 k2
            have k1' : (trackChunks cs').length < ts.length := by rw [k1]; simp
            have hok := (decodeTracks_ok mc spare cs' (fun c hc => w' c (List.mem_cons_of_mem _ hc)) 0
              (ts.take (trackChunks cs').length)).2 ⟨by simp; omega, by
                intro i c t hc hti
                have hi : i < (trackChunks cs').length := (List.getElem?_eq_some_iff.1 hc).1
                apply k2 i c t
                · rw [List.getElem?_append_left hi]; exact hc
                · rw [List.getElem?_take_of_lt hi] at hti; exact hti⟩
            rw [hok, Outcome.bind_ok, if_pos]
            · exact ⟨.other, rfl⟩
            · simp; omega
        | err e => rw [ht] at hd'; cases hd'
        | panic => rw [ht] at hd'; cases hd'
        | diverge => rw [ht] at hd'; cases hd'
      | err e => rw [hu] at hd'; cases hd'
      | panic => rw [hu] at hd'; cases hd'
      | diverge => rw [hu] at hd'; cases hd'
  · rw [decode, (chunkLoop_file cs' w' tail).2 htail]
    exact ⟨.unexpectedEof, rfl⟩

/-- Non-vacuity: a decodable file ending in a track. -/
example : ∃ smf, decode .c3 [] (fileBytes ((Header.mk 1 2 480).chunk :: (sampleChunks.dropLast ++
    [⟨tagMTrk, [0x00, 0x90, 0x3c, 0x40, 0x00, 0xff, 0x2f, 0x00]⟩]))) = .ok smf ∧ (smf.tracks.length == 2) = true :=
  Outcome.of_test (p := fun smf : SMF => smf.tracks.length == 2) (by decide +kernel)

end Midiasm
