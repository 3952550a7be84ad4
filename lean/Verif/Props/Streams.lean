import Verif.Lemmas.Streams
import Verif.Props.JsonAccepted

/-!
Decoding from any reader and encoding to any writer.
-/

set_option linter.unusedSimpArgs false

namespace Midiasm
open Spec

/-- Every input is whole chunks and a tail at which reading ends. -/
theorem split_read (file : Bytes) : ∃ cs tail k, file = fileBytes cs ++ tail ∧ (∀ c ∈ cs, c.Wf) ∧
    nextChunk tail = .err k ∧
    chunkLoop (file.length + 1) file = loopEnd .eof k (cs.map Chunk.bytes) := by
  obtain ⟨cs, tail, rfl, wf, h | h⟩ := split_file file
  · exact ⟨cs, tail, .eof, rfl, wf, nextChunk_end h, (chunkLoop_file cs wf tail).1 h⟩
  · exact ⟨cs, tail, .unexpectedEof, rfl, wf, nextChunk_bad h, (chunkLoop_file cs wf tail).2 h⟩

/-- C122: decoding depends on the bytes that a reader delivers up to its end of file and on nothing else: not on the
sizes of the pieces, not on empty reads, and not on whether the end comes along with the last bytes or after them. -/
theorem C122_delivery (mc : MiddleC) (spare : Bytes) {σ : Type} (R : Reader σ) (s : σ) (bytes : List UInt8)
    (h : Yields R .eof s bytes) : ∃ f0, ∀ f, f0 ≤ f → decodeFrom mc spare R f s = decode mc spare bytes := by
  obtain ⟨cs, tail, k, rfl, wf, hk, hloop⟩ := split_read bytes
  obtain ⟨f0, h0⟩ := chunkLoopFrom_yields cs wf hk h
  refine ⟨f0, fun f hf => ?_⟩
  rw [decodeFrom, h0 f f hf hf, decode, hloop]
  rfl

/-- C122: the same bytes in any two series of pieces decode alike. -/
theorem C122_pieces (mc : MiddleC) (spare : Bytes) (ps qs : List (List UInt8)) (a b : Bool)
    (h : ps.flatten = qs.flatten) :
    ∃ f0, ∀ f, f0 ≤ f → decodeFrom mc spare (pieces .eof a) f ps = decodeFrom mc spare (pieces .eof b) f qs := by
  obtain ⟨f1, h1⟩ := C122_delivery mc spare _ ps _ (pieces_yields .eof a ps)
  obtain ⟨f2, h2⟩ := C122_delivery mc spare _ qs _ (pieces_yields .eof b qs)
  refine ⟨max f1 f2, fun f hf => ?_⟩
  rw [h1 f (by omega), h2 f (by omega), h]

/-- C123: a read that fails, other than by reaching the end of the file, makes decoding fail, wherever it happens: also
after the last byte of a complete file. -/
theorem C123_read_failure (mc : MiddleC) (spare : Bytes) {σ : Type} (R : Reader σ) (s : σ) (bytes : List UInt8)
    (h : Yields R .other s bytes) : ∃ f0, ∀ f, f0 ≤ f → decodeFrom mc spare R f s = .err .other := by
  obtain ⟨cs, tail, k, rfl, wf, hk, _⟩ := split_read bytes
  obtain ⟨f0, h0⟩ := chunkLoopFrom_yields cs wf hk h
  refine ⟨f0, fun f hf => ?_⟩
  rw [decodeFrom, h0 f f hf hf]
  rfl

/-- C123: a read that fails with an error that wraps the end of file counts as the end of the file, wherever it happens:
the whole chunks up to there are decoded and the rest is dropped without an error. -/
theorem C123_wrapped_end (mc : MiddleC) (spare : Bytes) {σ : Type} (R : Reader σ) (s : σ) (cs : List Chunk)
    (wf : ∀ c ∈ cs, c.Wf) (tail : List UInt8) (ht : EndTail tail ∨ BadTail tail)
    (h : Yields R .wrapsEof s (fileBytes cs ++ tail)) :
    ∃ f0, ∀ f, f0 ≤ f → decodeFrom mc spare R f s = decode mc spare (fileBytes cs) := by
  obtain ⟨k, hk⟩ : ∃ k, nextChunk tail = .err k := by
    rcases ht with ht | ht
    · exact ⟨_, nextChunk_end ht⟩
    · exact ⟨_, nextChunk_bad ht⟩
  obtain ⟨f0, h0⟩ := chunkLoopFrom_yields cs wf hk h
  have hl := (chunkLoop_file cs wf []).1 .nil
  rw [List.append_nil] at hl
  refine ⟨f0, fun f hf => ?_⟩
  rw [decodeFrom, h0 f f hf hf, decode, hl]
  rfl

/-- C123: in all, a decoded reader delivered a decodable file: all of its bytes, or its whole chunks if the reader broke
off with an error that wraps the end of file. -/
theorem C123_decoded (mc : MiddleC) (spare : Bytes) {σ : Type} (R : Reader σ) (e : ReadErr) (s : σ) (bytes : List UInt8)
    (h : Yields R e s bytes) : ∃ f0, ∀ f, f0 ≤ f → ∀ smf, decodeFrom mc spare R f s = .ok smf →
      (e = .eof ∧ decode mc spare bytes = .ok smf) ∨
      (e = .wrapsEof ∧ ∃ cs tail, bytes = fileBytes cs ++ tail ∧ decode mc spare (fileBytes cs) = .ok smf) := by
  cases e with
  | eof =>
    obtain ⟨f0, h0⟩ := C122_delivery mc spare R s bytes h
    exact ⟨f0, fun f hf smf hs => .inl ⟨rfl, by rw [← h0 f hf]; exact hs⟩⟩
  | wrapsEof =>
    obtain ⟨cs, tail, rfl, wf, ht⟩ := split_file bytes
    obtain ⟨f0, h0⟩ := C123_wrapped_end mc spare R s cs wf tail ht h
    exact ⟨f0, fun f hf smf hs => .inr ⟨rfl, cs, tail, rfl, by rw [← h0 f hf]; exact hs⟩⟩
  | other =>
    obtain ⟨f0, h0⟩ := C123_read_failure mc spare R s bytes h
    refine ⟨f0, fun f hf smf hs => ?_⟩
    rw [h0 f hf] at hs
    cases hs

/-! ### Writers -/

theorem encodeTracksTo_spec {ω : Type} (W : Writer ω) (hW : Honest W) (ts : List MTrk) : ∀ (s : ω) (out : Bytes),
    (∃ b, (encodeTracksTo W ts s out).2.1 = out ++ b ∧
      ((encodeTracksTo W ts s out).1 = .ok () → encodeTracks ts = .ok b) ∧
      (∀ b', encodeTracks ts = .ok b' → b <+: b')) ∧
    (Faultless W → (encodeTracksTo W ts s out).1 = (encodeTracks ts >>= fun _ => .ok ())) ∧
    (∀ l t r, ts = l ++ t :: r → ∀ b, encodeTracks l = .ok b → (∀ x, encodeMTrk t ≠ .ok x) →
      (encodeTracksTo W ts s out).2.1 <+: out ++ b ∧ (encodeTracksTo W ts s out).1 ≠ .ok () ∧
      (Faultless W → (encodeTracksTo W ts s out).2.1 = out ++ b)) := by
  induction ts with
  | nil =>
    intro s out
    refine ⟨⟨[], by simp [encodeTracksTo], by simp [encodeTracksTo, encodeTracks], by simp⟩, ?_, ?_⟩
    · intro _
      rfl
    · intro l t r h
      simp at h
  | cons t ts ih =>
    intro s out
    cases hm : encodeMTrk t with
    | ok b =>
      obtain ⟨hw1, hw2⟩ := hW s b
      have hts : encodeTracks (t :: ts) = (encodeTracks ts >>= fun bs => .ok (b ++ bs)) := by
        rw [encodeTracks, hm, Outcome.bind_ok]
      cases he : (W.write s b).2.1 with
      | true =>
        have hstep : encodeTracksTo W (t :: ts) s out = (.err .other, out ++ b.take (W.write s b).1, (W.write s b).2.2) := by
          rw [encodeTracksTo, hm]
          simp only
          generalize W.write s b = r at he
          obtain ⟨n, o, s'⟩ := r
          simp only at he
          subst he
          rfl
        rw [hstep]
        refine ⟨⟨b.take (W.write s b).1, rfl, (by intro h; cases h), ?_⟩, ?_, ?_⟩
        · intro b' hb'
          rw [hts] at hb'
          obtain ⟨bs, _, h2⟩ := bound_ok hb'
          injection h2 with h2
          subst h2
          exact List.IsPrefix.trans (List.take_prefix _ _) (List.prefix_append _ _)
        · intro hf
          rw [hf s b] at he
          cases he
        · intro l t' r hl b' hb' hno
          refine ⟨?_, by simp, fun hf => by rw [hf s b] at he; cases he⟩
          cases l with
          | nil =>
            simp at hl
            exact absurd hm (by rw [hl.1]; exact hno b)
          | cons t0 l =>
            simp at hl
            obtain ⟨rfl, hl⟩ := hl
            rw [encodeTracks, hm, Outcome.bind_ok] at hb'
            obtain ⟨bs, _, h2⟩ := bound_ok hb'
            injection h2 with h2
            subst h2
            simp only
            exact (List.prefix_append_right_inj _).2 (List.IsPrefix.trans (List.take_prefix _ _) (List.prefix_append _ _))
      | false =>
        have hn := hw2 he
        have hstep : encodeTracksTo W (t :: ts) s out = encodeTracksTo W ts (W.write s b).2.2 (out ++ b) := by
          rw [encodeTracksTo, hm]
          simp only
          generalize W.write s b = r at he hn
          obtain ⟨n, o, s'⟩ := r
          simp only at he hn
          subst he hn
          simp
        rw [hstep]
        obtain ⟨⟨b2, k1, k2, k3⟩, k4, k5⟩ := ih (W.write s b).2.2 (out ++ b)
        refine ⟨⟨b ++ b2, by rw [k1, List.append_assoc], ?_, ?_⟩, ?_, ?_⟩
        · intro h
          rw [hts, k2 h]
          rfl
        · intro b' hb'
          rw [hts] at hb'
          obtain ⟨bs, h1, h2⟩ := bound_ok hb'
          injection h2 with h2
          subst h2
          exact (List.prefix_append_right_inj _).2 (k3 bs h1)
        · intro hf
          rw [k4 hf, hts]
          cases encodeTracks ts <;> rfl
        · intro l t' r hl b' hb' hno
          cases l with
          | nil =>
            simp at hl
            exact absurd hm (by rw [hl.1]; exact hno b)
          | cons t0 l =>
            simp at hl
            obtain ⟨rfl, hl⟩ := hl
            rw [encodeTracks, hm, Outcome.bind_ok] at hb'
            obtain ⟨bs, h1, h2⟩ := bound_ok hb'
            injection h2 with h2
            subst h2
            rw [← List.append_assoc]
            exact k5 l t' r hl bs h1 hno
    | err e =>
      have hstep : encodeTracksTo W (t :: ts) s out = (.err e, out, s) := by rw [encodeTracksTo, hm]
      have hts : encodeTracks (t :: ts) = .err e := by rw [encodeTracks, hm]; rfl
      rw [hstep]
      refine ⟨⟨[], by simp, (by intro h; cases h), by simp⟩, (by intro _; rw [hts]; rfl), ?_⟩
      intro l t' r hl b' hb' hno
      cases l with
      | nil =>
        injection hb' with hb'
        subst hb'
        simp
      | cons t0 l =>
        simp at hl
        obtain ⟨rfl, hl⟩ := hl
        rw [encodeTracks, hm] at hb'
        cases hb'
    | panic =>
      have hstep : encodeTracksTo W (t :: ts) s out = (.panic, out, s) := by rw [encodeTracksTo, hm]
      have hts : encodeTracks (t :: ts) = .panic := by rw [encodeTracks, hm]; rfl
      rw [hstep]
      refine ⟨⟨[], by simp, (by intro h; cases h), by simp⟩, (by intro _; rw [hts]; rfl), ?_⟩
      intro l t' r hl b' hb' hno
      cases l with
      | nil =>
        injection hb' with hb'
        subst hb'
        simp
      | cons t0 l =>
        simp at hl
        obtain ⟨rfl, hl⟩ := hl
        rw [encodeTracks, hm] at hb'
        cases hb'
    | diverge =>
      have hstep : encodeTracksTo W (t :: ts) s out = (.diverge, out, s) := by rw [encodeTracksTo, hm]
      have hts : encodeTracks (t :: ts) = .diverge := by rw [encodeTracks, hm]; rfl
      rw [hstep]
      refine ⟨⟨[], by simp, (by intro h; cases h), by simp⟩, (by intro _; rw [hts]; rfl), ?_⟩
      intro l t' r hl b' hb' hno
      cases l with
      | nil =>
        injection hb' with hb'
        subst hb'
        simp
      | cons t0 l =>
        simp at hl
        obtain ⟨rfl, hl⟩ := hl
        rw [encodeTracks, hm] at hb'
        cases hb'

/-- C124: an encoder that reports success has handed its writer the whole file; whatever happens, what the writer
accepted is the beginning of that file; and a writer that never fails gets it all. -/
theorem C124_encode_writer {ω : Type} (W : Writer ω) (hW : Honest W) (smf : SMF) (s : ω) :
    ((encodeTo W smf s).1 = .ok () → encode smf = .ok (encodeTo W smf s).2.1) ∧
    (∀ b, encode smf = .ok b → (encodeTo W smf s).2.1 <+: b) ∧
    (Faultless W → (encodeTo W smf s).1 = (encode smf >>= fun _ => .ok ())) := by
  cases hh : smf.mthd with
  | none => simp [encodeTo, encode, hh]
  | some h =>
    by_cases hn : h.tracks.toNat = smf.tracks.length
    · have he : encode smf = (encodeTracks smf.tracks >>= fun bs => .ok (h.marshal ++ bs)) := by
        simp only [encode, hh, hn, ne_eq, not_true, if_false]
      obtain ⟨hw1, hw2⟩ := hW s h.marshal
      cases hf : (W.write s h.marshal).2.1 with
      | true =>
        have hstep : encodeTo W smf s = (.err .other, h.marshal.take (W.write s h.marshal).1, (W.write s h.marshal).2.2) := by
          simp only [encodeTo, hh, hn, ne_eq, not_true, if_false]
          generalize W.write s h.marshal = r at hf
          obtain ⟨n, o, s'⟩ := r
          simp only at hf
          subst hf
          rfl
        rw [hstep]
        refine ⟨(by intro h; cases h), ?_, ?_⟩
        · intro b hb
          rw [he] at hb
          obtain ⟨bs, _, h2⟩ := bound_ok hb
          injection h2 with h2
          subst h2
          exact List.IsPrefix.trans (List.take_prefix _ _) (List.prefix_append _ _)
        · intro hw
          rw [hw s h.marshal] at hf
          cases hf
      | false =>
        have hstep : encodeTo W smf s = encodeTracksTo W smf.tracks (W.write s h.marshal).2.2 h.marshal := by
          have hn' := hw2 hf
          simp only [encodeTo, hh, hn, ne_eq, not_true, if_false]
          generalize W.write s h.marshal = r at hf hn'
          obtain ⟨n, o, s'⟩ := r
          simp only at hf hn'
          subst hf hn'
          simp
        rw [hstep, he]
        obtain ⟨⟨b, k1, k2, k3⟩, k4, _⟩ := encodeTracksTo_spec W hW smf.tracks (W.write s h.marshal).2.2 h.marshal
        refine ⟨?_, ?_, ?_⟩
        · intro hok
          rw [k2 hok, k1]
          rfl
        · intro b' hb'
          obtain ⟨bs, h1, h2⟩ := bound_ok hb'
          injection h2 with h2
          subst h2
          rw [k1]
          exact (List.prefix_append_right_inj _).2 (k3 bs h1)
        · intro hw
          rw [k4 hw]
          cases encodeTracks smf.tracks <;> rfl
    · simp [encodeTo, encode, hh, hn]

theorem encodeTracks_each (l : List MTrk) (bs : List Bytes) (h : List.Forall₂ (fun t b => encodeMTrk t = .ok b) l bs) :
    encodeTracks l = .ok bs.flatten := by
  induction h with
  | nil => rfl
  | cons h1 _ ih => rw [encodeTracks, h1, Outcome.bind_ok, ih]; rfl

/-- C124: encoding a file with a track that cannot be encoded does not succeed; a writer that never fails is left with
the header and the tracks before that track, any other writer with the beginning of them. -/
theorem C124_left_behind {ω : Type} (W : Writer ω) (hW : Honest W) (smf : SMF) (s : ω) (h : MThd)
    (hh : smf.mthd = some h) (hn : h.tracks.toNat = smf.tracks.length) (l r : List MTrk) (t : MTrk)
    (hl : smf.tracks = l ++ t :: r) (bs : List (List UInt8)) (hbs : List.Forall₂ (fun t b => encodeMTrk t = .ok b) l bs)
    (ht : ∀ x, encodeMTrk t ≠ .ok x) :
    (encodeTo W smf s).1 ≠ .ok () ∧ (encodeTo W smf s).2.1 <+: h.marshal ++ bs.flatten ∧
    (Faultless W → (encodeTo W smf s).2.1 = h.marshal ++ bs.flatten) := by
  obtain ⟨hw1, hw2⟩ := hW s h.marshal
  cases hf : (W.write s h.marshal).2.1 with
  | true =>
    have hstep : encodeTo W smf s = (.err .other, h.marshal.take (W.write s h.marshal).1, (W.write s h.marshal).2.2) := by
      simp only [encodeTo, hh, hn, ne_eq, not_true, if_false]
      generalize W.write s h.marshal = r at hf
      obtain ⟨n, o, s'⟩ := r
      simp only at hf
      subst hf
      rfl
    rw [hstep]
    refine ⟨by simp, List.IsPrefix.trans (List.take_prefix _ _) (List.prefix_append _ _), ?_⟩
    intro hw
    rw [hw s h.marshal] at hf
    cases hf
  | false =>
    have hstep : encodeTo W smf s = encodeTracksTo W smf.tracks (W.write s h.marshal).2.2 h.marshal := by
      have hn' := hw2 hf
      simp only [encodeTo, hh, hn, ne_eq, not_true, if_false]
      generalize W.write s h.marshal = r at hf hn'
      obtain ⟨n, o, s'⟩ := r
      simp only at hf hn'
      subst hf hn'
      simp
    rw [hstep]
    obtain ⟨_, _, k⟩ := encodeTracksTo_spec W hW smf.tracks (W.write s h.marshal).2.2 h.marshal
    obtain ⟨k1, k2, k3⟩ := k l t r hl _ (encodeTracks_each l bs hbs) ht
    exact ⟨k2, k1, k3⟩

/-! ### Concrete cases -/

theorem device_honest : Honest device := by
  intro s p
  simp only [device]
  split
  · simp
  · simp; omega

-- A file that comes byte by byte, with reads that deliver nothing, and its end along with the last byte.
example : ∃ f0, ∀ f, f0 ≤ f → ∃ smf, decodeFrom .c3 [] (pieces .eof true) f ([] :: plainFile.map (fun b => [b])) = .ok smf ∧
    decode .c3 [] plainFile = .ok smf := by
  obtain ⟨f0, h⟩ := C122_delivery .c3 [] _ _ _ (pieces_yields .eof true ([] :: plainFile.map (fun b => [b])))
  have hp : ([] :: plainFile.map (fun b => [b])).flatten = plainFile := by decide +kernel
  rw [hp] at h
  obtain ⟨smf, h1, _⟩ := Outcome.of_test (o := decode .c3 [] plainFile) (p := fun _ => true) (by decide +kernel)
  exact ⟨f0, fun f hf => ⟨smf, by rw [h f hf]; exact h1, h1⟩⟩

-- A failing read after the last byte of a good file.
example : ∃ f0, ∀ f, f0 ≤ f → decodeFrom .c3 [] (pieces .other false) f [plainFile] = .err .other :=
  C123_read_failure .c3 [] _ _ _ (pieces_yields .other false [plainFile])

-- A good file with three stray bytes after it: an error at a plain end of file, none at a wrapped one.
example : decode .c3 [] (oneTrack [0, 0xff, 0x2f, 0] ++ [1, 2, 3]) = .err .unexpectedEof ∧
    ∃ f0, ∀ f, f0 ≤ f → ∃ smf, decodeFrom .c3 [] (pieces .wrapsEof false) f [oneTrack [0, 0xff, 0x2f, 0], [1, 2, 3]] = .ok smf := by
  have wf : ∀ c ∈ [(Header.mk 0 1 96).chunk, ⟨tagMTrk, [0, 0xff, 0x2f, 0]⟩], Chunk.Wf c := by
    intro c hc
    simp at hc
    rcases hc with rfl | rfl
    · exact header_chunk_wf _
    · exact ⟨rfl, by simp⟩
  have ht : BadTail [1, 2, 3] := .short (by simp) (by simp)
  constructor
  · rw [decode, oneTrack, (chunkLoop_file _ wf [1, 2, 3]).2 ht]
    rfl
  · obtain ⟨f0, h⟩ := C123_wrapped_end .c3 [] (pieces .wrapsEof false) [oneTrack [0, 0xff, 0x2f, 0], [1, 2, 3]] _ wf [1, 2, 3] (.inr ht)
      (by
        have := pieces_yields .wrapsEof false [oneTrack [0, 0xff, 0x2f, 0], [1, 2, 3]]
        simpa [oneTrack] using this)
    obtain ⟨smf, h1, _⟩ := Outcome.of_test (o := decode .c3 [] (oneTrack [0, 0xff, 0x2f, 0])) (p := fun _ => true) (by decide +kernel)
    exact ⟨f0, fun f hf => ⟨smf, by rw [h f hf]; exact h1⟩⟩

-- A device that is full after twenty bytes: an error, and the first twenty bytes of the file.
example : ∃ smf, decode .c3 [] plainFile = .ok smf ∧ (encodeTo device smf 20).2.1 = plainFile.take 20 ∧
    (encodeTo device smf 20).1 = .err .other ∧ (encodeTo device smf 1000).1 = .ok () := by
  obtain ⟨smf, h1, h2⟩ := Outcome.of_test (o := decode .c3 [] plainFile)
    (p := fun smf => (encodeTo device smf 20).2.1 == plainFile.take 20 && decide ((encodeTo device smf 20).1 = .err .other) &&
      decide ((encodeTo device smf 1000).1 = .ok ())) (by decide +kernel)
  simp only [Bool.and_eq_true, beq_iff_eq, decide_eq_true_eq] at h2
  exact ⟨smf, h1, h2.1.1, h2.1.2, h2.2⟩

-- A track that cannot be encoded: a time signature of 1/200 never ends.
example (t : MTrk) : ∀ x, encodeMTrk { t with events := [⟨0, 0, [], .timeSignature 1 200 24 8⟩] } ≠ .ok x := by
  have h : encodeEvents [⟨0, 0, [], .timeSignature 1 200 24 8⟩] = .diverge := by decide +kernel
  intro x hx
  rw [encodeMTrk] at hx
  simp only [h] at hx
  cases hx

end Midiasm
