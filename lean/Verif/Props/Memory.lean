import Verif.Model.Memory
import Verif.Lemmas.Alike
import Verif.Lemmas.Decoded
import Verif.Props.JsonAccepted
import Verif.Props.TrackEvents
import Verif.Props.Printed

/-!
C127: the buffers made while decoding.
-/

set_option linter.unusedSimpArgs false

namespace Midiasm
open Spec

theorem vlqReadGo_length {bs r : Bytes} {acc n : UInt32} (h : vlqReadGo acc bs = .ok (n, r)) : r.length < bs.length := by
  induction bs generalizing acc with
  | nil => cases h
  | cons b bs ih =>
    rw [vlqReadGo] at h
    split at h
    · injection h with h
      injection h with _ h
      subst h
      simp
    · have := ih h
      simp
      omega

theorem readVLQ_length {bs r : Bytes} {n : UInt32} (h : readVLQ bs = .ok (n, r)) : r.length < bs.length :=
  vlqReadGo_length h

theorem vlfBuffer_small (r : Bytes) : (vlfBuffer r).sum ≤ 2 ^ 32 - 1 := by
  unfold vlfBuffer
  split
  · rename_i n _ _
    have := n.toNat_lt
    simp
    omega
  · simp

theorem readVLF_length {r d r' : Bytes} (h : readVLF r = .ok (d, r')) : (vlfBuffer r).sum + r'.length ≤ r.length := by
  rw [readVLF] at h
  cases hq : readVLQ r with
  | ok p =>
    obtain ⟨n, rest⟩ := p
    have hl := readVLQ_length hq
    rw [hq, Outcome.bind_ok] at h
    simp only at h
    split at h
    · injection h with h
      injection h with _ h
      subst h
      simp [vlfBuffer, hq]
      omega
    · cases h
  | err e => rw [hq] at h; cases h
  | panic => rw [hq] at h; cases h
  | diverge => rw [hq] at h; cases h

theorem readBytes_length {n : Nat} {r r' : Bytes} (h : readBytes n r = .ok r') : r'.length ≤ r.length := by
  induction n generalizing r with
  | zero => injection h with h; subst h; exact Nat.le_refl _
  | succ n ih =>
    cases r with
    | nil => cases h
    | cons b r =>
      have := ih h
      simp
      omega

theorem payloadBuffer_small (status : UInt8) (r : Bytes) : (payloadBuffer status r).sum ≤ 2 ^ 32 - 1 := by
  unfold payloadBuffer
  split
  · exact vlfBuffer_small _
  · split
    · exact vlfBuffer_small _
    · simp

theorem eventBuffer_small (rs : UInt8) (inp : Bytes) : (eventBuffer rs inp).sum ≤ 2 ^ 32 - 1 := by
  unfold eventBuffer
  split
  · split
    · simp
    · split
      · exact payloadBuffer_small _ _
      · exact payloadBuffer_small _ _
  · simp

theorem eventBuffer_nil (rs : UInt8) : eventBuffer rs [] = [] := rfl

/-- The buffer of an event that was parsed holds bytes of the event. -/
theorem parsed_buffer {mc : MiddleC} {inp spare : Bytes} {tick : UInt32} {ctx : Context} {e : Event} {rest : Bytes} {ctx' : Context}
    (h : parseEvent mc inp spare tick ctx = .ok (e, rest, ctx')) :
    (eventBuffer ctx.runningStatus inp).sum + rest.length ≤ inp.length := by
  rw [parseEvent_rest] at h
  cases hq : readVLQ inp with
  | ok p =>
    obtain ⟨delta, r⟩ := p
    have hl := readVLQ_length hq
    rw [hq, Outcome.bind_ok] at h
    cases r with
    | nil => cases h
    | cons b r' =>
      simp only at h
      have key : ∀ (status : UInt8) (r : Bytes), r.length ≤ (b :: r').length → parseRest mc inp spare tick delta ctx status r = .ok (e, rest, ctx') →
          (payloadBuffer status r).sum + rest.length ≤ inp.length := by
        intro status r hr h
        unfold parseRest at h
        unfold payloadBuffer
        split at h
        · rw [if_pos ‹_›]
          cases r with
          | nil => cases h
          | cons t r =>
            simp only at h
            obtain ⟨p, h1, h2⟩ := bound_ok h
            obtain ⟨d, r2⟩ := p
            obtain ⟨e2, _, h3⟩ := bound_ok h2
            injection h3 with h3
            injection h3 with _ h3
            injection h3 with h3 _
            subst h3
            have := readVLF_length h1
            simp at hr hl ⊢
            omega
        · rw [if_neg ‹_›]
          split at h
          · rw [if_pos ‹_›]
            simp only at h
            obtain ⟨p, h1, h2⟩ := bound_ok h
            obtain ⟨d, r2⟩ := p
            simp only at h2
            split at h2
            · cases h2
            · obtain ⟨e2, _, h3⟩ := bound_ok h2
              injection h3 with h3
              injection h3 with _ h3
              injection h3 with h3 _
              subst h3
              have := readVLF_length h1
              simp at hr hl ⊢
              omega
          · rw [if_neg ‹_›]
            obtain ⟨r2, h1, h2⟩ := bound_ok h
            obtain ⟨e2, _, h3⟩ := bound_ok h2
            injection h3 with h3
            injection h3 with _ h3
            injection h3 with h3 _
            subst h3
            have := readBytes_length h1
            simp at hr hl ⊢
            omega
      unfold eventBuffer
      rw [hq]
      simp only
      split at h
      · cases h
      · rw [if_neg ‹_›]
        split at h
        · rw [if_pos ‹_›]
          exact key _ _ (Nat.le_refl _) h
        · rw [if_neg ‹_›]
          exact key _ _ (by simp) h
  | err e => rw [hq] at h; cases h
  | panic => rw [hq] at h; cases h
  | diverge => rw [hq] at h; cases h

theorem trackBuffers_bound (mc : MiddleC) (spare : Bytes) (fuel : Nat) : ∀ (inp : Bytes) (tick : UInt32) (ctx : Context),
    GoodRS ctx.runningStatus →
    (trackBuffers mc spare fuel inp tick ctx).sum ≤ inp.length + (2 ^ 32 - 1) ∧
    ∀ es c, trackLoop mc spare fuel inp tick ctx = .ok (es, c) → (es.map Event.bytes).flatten.length ≤ inp.length ∧
      (inp.length ≤ (es.map Event.bytes).flatten.length → (trackBuffers mc spare fuel inp tick ctx).sum ≤ inp.length) := by
  induction fuel with
  | zero =>
    intro inp tick ctx _
    refine ⟨by simp [trackBuffers], ?_⟩
    intro es c h
    cases h
  | succ fuel ih =>
    intro inp tick ctx hg
    have hsmall := eventBuffer_small ctx.runningStatus inp
    cases hp : parseEvent mc inp spare tick ctx with
    | ok p =>
      obtain ⟨e, rest, ctx'⟩ := p
      have hb := parsed_buffer hp
      have hbytes : e.bytes.length + rest.length = inp.length ∧ GoodRS (applyContext mc ctx' e).2.runningStatus := by
        rcases parseEvent_cases mc spare tick ctx hg inp with ⟨i, rest', rs', rfl, hi⟩ | ⟨_, h⟩ | ⟨_, h⟩ | ⟨_, h⟩
        · rw [parseEvent_framed mc spare rest' tick ctx i rs' hi] at hp
          obtain ⟨b, _, h2⟩ := bound_ok hp
          injection h2 with h2
          injection h2 with h2 h3
          injection h3 with h3 h4
          subst h2 h3 h4
          obtain ⟨_, _, _, _, hf⟩ := hi
          refine ⟨by simp [mkEvent], ?_⟩
          rw [(applyContext_ctx mc _ _).1]
          exact (framed_rs hf ctx).1
        · rw [h] at hp; cases hp
        · rw [h] at hp; cases hp
        · rw [h] at hp; cases hp
      obtain ⟨ih1, ih2⟩ := ih rest (tick + e.delta) (applyContext mc ctx' e).2 hbytes.2
      have hsum : (trackBuffers mc spare (fuel + 1) inp tick ctx).sum =
          (eventBuffer ctx.runningStatus inp).sum + (trackBuffers mc spare fuel rest (tick + e.delta) (applyContext mc ctx' e).2).sum := by
        rw [trackBuffers, hp, List.sum_append]
      rw [hsum]
      refine ⟨by omega, ?_⟩
      intro es c h
      rw [trackLoop, hp] at h
      simp only at h
      cases hl : trackLoop mc spare fuel rest (tick + e.delta) (applyContext mc ctx' e).2 with
      | ok q =>
        obtain ⟨es', c'⟩ := q
        rw [hl] at h
        simp only at h
        injection h with h
        injection h with h1 h2
        subst h1 h2
        obtain ⟨k1, k2⟩ := ih2 es' c' hl
        have he := (applyContext_event mc ctx' e).2.2.1
        simp only [List.map_cons, List.flatten_cons, List.length_append, he]
        refine ⟨by omega, fun hle => ?_⟩
        have := k2 (by omega)
        omega
      | err k => rw [hl] at h; cases h
      | panic => rw [hl] at h; cases h
      | diverge => rw [hl] at h; cases h
    | err k =>
      have hsum : (trackBuffers mc spare (fuel + 1) inp tick ctx).sum = (eventBuffer ctx.runningStatus inp).sum := by
        rw [trackBuffers, hp, List.append_nil]
      rw [hsum]
      refine ⟨by omega, ?_⟩
      intro es c h
      rw [trackLoop, hp] at h
      cases k with
      | eof =>
        simp only at h
        injection h with h
        injection h with h1 _
        subst h1
        refine ⟨by simp, fun hle => ?_⟩
        cases inp with
        | nil => simp [eventBuffer_nil]
        | cons _ _ => simp at hle
      | unexpectedEof => cases h
      | other => cases h
    | panic =>
      have hsum : (trackBuffers mc spare (fuel + 1) inp tick ctx).sum = (eventBuffer ctx.runningStatus inp).sum := by
        rw [trackBuffers, hp, List.append_nil]
      rw [hsum]
      refine ⟨by omega, ?_⟩
      intro es c h
      rw [trackLoop, hp] at h
      cases h
    | diverge =>
      have hsum : (trackBuffers mc spare (fuel + 1) inp tick ctx).sum = (eventBuffer ctx.runningStatus inp).sum := by
        rw [trackBuffers, hp, List.append_nil]
      rw [hsum]
      refine ⟨by omega, ?_⟩
      intro es c h
      rw [trackLoop, hp] at h
      cases h

/-- The buffers made for chunks: all of a well formed chunk's bytes, and a little or a lot for what follows the last one. -/
theorem chunkBuffers_chunks (cs : List Chunk) (wf : ∀ c ∈ cs, c.Wf) (tail : Bytes) (fuel : Nat) :
    (chunkBuffers (cs.length + fuel) (fileBytes cs ++ tail)).sum = (fileBytes cs).length + (chunkBuffers fuel tail).sum := by
  induction cs with
  | nil => simp [fileBytes]
  | cons c cs ih =>
    have hlen : (c :: cs).length + fuel = (cs.length + fuel) + 1 := by simp; omega
    have hb : fileBytes (c :: cs) ++ tail = c.bytes ++ (fileBytes cs ++ tail) := by simp [fileBytes]
    have hl : (fileBytes (c :: cs)).length = c.bytes.length + (fileBytes cs).length := by simp [fileBytes]
    have hih := ih (fun c hc => wf c (by simp [hc]))
    have hw := wf c (by simp)
    have hcl := chunk_length c hw
    obtain ⟨tag, body⟩ := c
    obtain ⟨h1, h2⟩ := hw
    simp only at h1 h2 hcl
    have h8 : (tag ++ be32 body.length).length = 8 := by simp [h1, be32]
    have hu : beUint32 (be32 body.length) = .ok (UInt32.ofNat body.length) := by
      have := beUint32_be32 body.length h2 []
      rwa [List.append_nil] at this
    have hn : (UInt32.ofNat body.length).toNat = body.length := by
      rw [UInt32.toNat_ofNat']
      omega
    have r1 : readFull 8 ((Chunk.mk tag body).bytes ++ (fileBytes cs ++ tail)) =
        .ok (tag ++ be32 body.length, body ++ (fileBytes cs ++ tail)) := by
      have e : (Chunk.mk tag body).bytes ++ (fileBytes cs ++ tail) = (tag ++ be32 body.length) ++ (body ++ (fileBytes cs ++ tail)) := by
        simp [Chunk.bytes]
      rw [e, readFull, if_pos (by rw [List.length_append]; omega), ← h8, List.take_left, List.drop_left]
    have r2 : (tag ++ be32 body.length).drop 4 = be32 body.length := by rw [← h1, List.drop_left]
    have r3 : readFull body.length (body ++ (fileBytes cs ++ tail)) = .ok (body, fileBytes cs ++ tail) := by
      rw [readFull, if_pos (by simp), List.take_left, List.drop_left]
    rw [hlen, hb, hl, chunkBuffers, r1]
    simp only
    rw [r2, hu]
    simp only
    rw [hn, r3]
    simp only [List.sum_cons]
    rw [hih]
    omega

theorem chunkBuffers_tail (tail : Bytes) (h : EndTail tail ∨ BadTail tail) (fuel : Nat) :
    (chunkBuffers (fuel + 1) tail).sum ≤ 8 + (2 ^ 32 - 1) := by
  have hn : ∀ c r, nextChunk tail ≠ .ok (c, r) := by
    intro c r
    rcases h with h | h
    · rw [nextChunk_end h]; simp
    · rw [nextChunk_bad h]; simp
  rw [chunkBuffers]
  cases h1 : readFull 8 tail with
  | ok p =>
    obtain ⟨b, r⟩ := p
    simp only
    cases h2 : beUint32 (b.drop 4) with
    | ok n =>
      simp only
      have hlt := n.toNat_lt
      cases h3 : readFull n.toNat r with
      | ok q =>
        exfalso
        refine hn (b ++ q.1) q.2 ?_
        rw [nextChunk, h1, Outcome.bind_ok]
        simp only
        rw [h2, Outcome.bind_ok, h3]
        rfl
      | err _ => simp; omega
      | panic => simp; omega
      | diverge => simp; omega
    | err _ => simp
    | panic => simp
    | diverge => simp
  | err _ => simp
  | panic => simp
  | diverge => simp

/-- The buffers made for the chunks of any file. -/
theorem chunkBuffers_file (cs : List Chunk) (wf : ∀ c ∈ cs, c.Wf) (tail : Bytes) (h : EndTail tail ∨ BadTail tail) :
    (chunkBuffers ((fileBytes cs ++ tail).length + 1) (fileBytes cs ++ tail)).sum ≤ (fileBytes cs).length + 8 + (2 ^ 32 - 1) ∧
    (tail = [] → (chunkBuffers ((fileBytes cs ++ tail).length + 1) (fileBytes cs ++ tail)).sum = (fileBytes cs).length + 8) := by
  have hl := fileBytes_length cs wf
  obtain ⟨f, hf⟩ : ∃ f, (fileBytes cs ++ tail).length + 1 = cs.length + (f + 1) :=
    ⟨(fileBytes cs ++ tail).length - cs.length, by simp; omega⟩
  rw [hf, chunkBuffers_chunks cs wf tail]
  refine ⟨by have := chunkBuffers_tail tail h f; omega, ?_⟩
  rintro rfl
  simp [chunkBuffers, readFull]

theorem chunk_drop8 (c : Chunk) (wf : c.Wf) : c.bytes.drop 8 = c.body := by
  obtain ⟨tag, body⟩ := c
  obtain ⟨h1, _⟩ := wf
  simp only at h1
  have h8 : (tag ++ be32 body.length).length = 8 := by simp [h1, be32]
  have e : (Chunk.mk tag body).bytes = (tag ++ be32 body.length) ++ body := by simp [Chunk.bytes]
  rw [e, ← h8, List.drop_left]

theorem chunk_take4 (c : Chunk) (wf : c.Wf) : c.bytes.take 4 = c.tag := by
  obtain ⟨tag, body⟩ := c
  obtain ⟨h1, _⟩ := wf
  simp only at h1
  have e : (Chunk.mk tag body).bytes = tag ++ (be32 body.length ++ body) := by simp [Chunk.bytes]
  rw [e]
  simp only
  rw [← h1, List.take_left]

theorem decodeBody_def (mc : MiddleC) (spare body : Bytes) :
    decodeBody mc spare body = trackLoop mc spare (body.length + 1) body 0 newContext := rfl

/-- The buffers made for the events of tracks. -/
theorem tracksBuffers_bound (mc : MiddleC) (spare : Bytes) (cs : List Chunk) (wf : ∀ c ∈ cs, c.Wf) :
    (tracksBuffers mc spare (cs.map Chunk.bytes)).sum ≤ (fileBytes cs).length + (trackChunks cs).length * (2 ^ 32 - 1) ∧
    ∀ n ts, decodeTracks mc spare (cs.map Chunk.bytes) n = .ok ts →
      (∀ t ∈ ts, t.bytes.length ≤ 8 + (t.events.map Event.bytes).flatten.length) →
      (tracksBuffers mc spare (cs.map Chunk.bytes)).sum ≤ (fileBytes cs).length := by
  induction cs with
  | nil => simp [tracksBuffers]
  | cons c cs ih =>
    obtain ⟨ih1, ih2⟩ := ih (fun c hc => wf c (by simp [hc]))
    have hw := wf c (by simp)
    have hl : (fileBytes (c :: cs)).length = 8 + c.body.length + (fileBytes cs).length := by
      have h1 := chunk_length c hw
      have h2 : (fileBytes (c :: cs)).length = c.bytes.length + (fileBytes cs).length := by simp [fileBytes]
      omega
    rw [List.map_cons, tracksBuffers, chunk_take4 c hw, chunk_drop8 c hw, str_MTrk]
    by_cases ht : c.tag = tagMTrk
    · have hcount : (trackChunks (c :: cs)).length = (trackChunks cs).length + 1 := by
        simp [trackChunks, ht]
      obtain ⟨b1, b2⟩ := trackBuffers_bound mc spare (c.body.length + 1) c.body 0 newContext (Or.inl (by decide))
      rw [if_pos ht, List.sum_append, hcount, hl]
      have hstop : ∀ (l : List Nat), l.sum ≤ (tracksBuffers mc spare (cs.map Chunk.bytes)).sum →
          (trackBuffers mc spare (c.body.length + 1) c.body 0 newContext).sum + l.sum ≤
            8 + c.body.length + (fileBytes cs).length + ((trackChunks cs).length + 1) * (2 ^ 32 - 1) := by
        intro l hle
        rw [Nat.add_mul]
        omega
      refine ⟨?_, ?_⟩
      · cases unmarshalMTrk mc spare 0 c.bytes with
        | ok _ => exact hstop _ (Nat.le_refl _)
        | err _ => exact hstop [] (by simp)
        | panic => exact hstop [] (by simp)
        | diverge => exact hstop [] (by simp)
      · intro n ts h hcov
        rw [decodeTracks, slice_tag c hw, Outcome.bind_ok, str_MTrk, if_pos ht] at h
        obtain ⟨t, h1, h2⟩ := bound_ok h
        obtain ⟨ts', h3, h4⟩ := bound_ok h2
        injection h4 with h4
        subst h4
        have hi := ih2 (n + 1) ts' h3 (fun t ht => hcov t (by simp [ht]))
        rw [unmarshalMTrk_chunk mc spare n c hw ht] at h1
        obtain ⟨p, h5, h6⟩ := bound_ok h1
        injection h6 with h6
        subst h6
        have hc := hcov _ (List.mem_cons_self ..)
        simp only at hc
        rw [chunk_length c hw] at hc
        have := (b2 p.1 p.2 h5).2 (by omega)
        have hstop : ∀ (l : List Nat), l.sum ≤ (tracksBuffers mc spare (cs.map Chunk.bytes)).sum →
            (trackBuffers mc spare (c.body.length + 1) c.body 0 newContext).sum + l.sum ≤ 8 + c.body.length + (fileBytes cs).length := by
          intro l hle
          omega
        cases unmarshalMTrk mc spare 0 c.bytes with
        | ok _ => exact hstop _ (Nat.le_refl _)
        | err _ => exact hstop [] (by simp)
        | panic => exact hstop [] (by simp)
        | diverge => exact hstop [] (by simp)
    · have hcount : (trackChunks (c :: cs)).length = (trackChunks cs).length := by
        simp [trackChunks, ht]
      rw [if_neg ht, hcount, hl]
      refine ⟨by omega, ?_⟩
      intro n ts h hcov
      rw [decodeTracks, slice_tag c hw, Outcome.bind_ok, str_MTrk, if_neg ht] at h
      have := ih2 n ts h hcov
      omega

/-- C127, the part that holds: decoding a file of any chunks asks for at most twice its length, eight bytes and 2³² - 1 bytes
for the end of the file and for each track chunk; and when the file is accepted, is made of whole chunks and the events of
each track cover its chunk, for at most twice its length and eight bytes.  Missing: the bound by twice the length and eight
bytes for other files, for which it is false. -/
theorem C127_buffers_partial (mc : MiddleC) (spare : Bytes) (cs : List Chunk) (wf : ∀ c ∈ cs, c.Wf) (tail : Bytes)
    (h : EndTail tail ∨ BadTail tail) :
    (decodeBuffers mc spare (fileBytes cs ++ tail)).sum ≤
      2 * (fileBytes cs ++ tail).length + 8 + (1 + (trackChunks cs).length) * (2 ^ 32 - 1) ∧
    ∀ smf, decode mc spare (fileBytes cs ++ tail) = .ok smf → tail = [] →
      (∀ t ∈ smf.tracks, t.bytes.length ≤ 8 + (t.events.map Event.bytes).flatten.length) →
      (decodeBuffers mc spare (fileBytes cs ++ tail)).sum ≤ 2 * (fileBytes cs ++ tail).length + 8 := by
  obtain ⟨k1, k2⟩ := chunkBuffers_file cs wf tail h
  have hlen : (fileBytes cs ++ tail).length = (fileBytes cs).length + tail.length := List.length_append
  unfold decodeBuffers
  rw [List.sum_append]
  have hmul : ∀ n, (1 + n) * (2 ^ 32 - 1) = (2 ^ 32 - 1) + n * (2 ^ 32 - 1) := by intro n; rw [Nat.add_mul, Nat.one_mul]
  have ht := fun hcs => (tracksBuffers_bound mc spare cs.tail hcs)
  generalize 2 ^ 32 - 1 = K at k1 hmul ht ⊢
  rcases h with h | h
  · rw [(chunkLoop_file cs wf tail).1 h]
    cases cs with
    | nil =>
      simp only [List.map_nil, List.sum_nil]
      refine ⟨by rw [hmul]; omega, ?_⟩
      intro smf _ ht _
      have := k2 ht
      omega
    | cons c cs =>
      have hcs : ∀ x ∈ cs, x.Wf := fun x hx => wf x (by simp [hx])
      obtain ⟨t1, t2⟩ := ht hcs
      simp only [List.tail_cons] at t1 t2
      have hfb : (fileBytes (c :: cs)).length = c.bytes.length + (fileBytes cs).length := by simp [fileBytes]
      have htc : (trackChunks cs).length ≤ (trackChunks (c :: cs)).length := by
        simp only [trackChunks, List.filter_cons]
        split
        · simp
        · exact Nat.le_refl _
      have hle := Nat.mul_le_mul_right K htc
      simp only [List.map_cons]
      refine ⟨?_, ?_⟩
      · rw [hmul]
        cases unmarshalMThd c.bytes with
        | ok _ => simp only; omega
        | err _ => simp only [List.sum_nil]; omega
        | panic => simp only [List.sum_nil]; omega
        | diverge => simp only [List.sum_nil]; omega
      · intro smf hd ht hcov
        have k := k2 ht
        rw [decode_chunks mc spare c cs wf tail h] at hd
        obtain ⟨m, h1, h2⟩ := bound_ok hd
        obtain ⟨ts, h3, h4⟩ := bound_ok h2
        split at h4
        · cases h4
        · injection h4 with h4
          subst h4
          have := t2 0 ts h3 hcov
          rw [h1]
          simp only
          omega
  · rw [(chunkLoop_file cs wf tail).2 h]
    simp only [List.sum_nil]
    refine ⟨by rw [hmul]; omega, ?_⟩
    intro smf hd
    rw [decode, (chunkLoop_file cs wf tail).2 h] at hd
    cases hd

/-- The file of `C127_buffers_fails`: a track with a text event that claims 2³² - 1 bytes and has none. -/
def greedyFile : Bytes := oneTrack [0, 0xff, 0x01, 0x8f, 0xff, 0xff, 0xff, 0x7f]

/-- C127 is false: eight bytes make the decoder ask for any number of bytes below 2³² before it finds that they are not there,
and a file of thirty bytes that is accepted makes it ask for 2³² - 1 bytes. -/
theorem C127_buffers_fails (mc : MiddleC) (spare : Bytes) :
    (∀ tag n, tag.length = 4 → n < 2 ^ 32 → (decodeBuffers mc spare (tag ++ be32 n)).sum ≥ 8 + n) ∧
    greedyFile.length = 30 ∧ (∃ smf, decode mc spare greedyFile = .ok smf) ∧
    (decodeBuffers mc spare greedyFile).sum = 2 ^ 32 - 1 + 38 := by
  refine ⟨?_, by decide +kernel, ?_, ?_⟩
  · intro tag n ht hn
    have h8 : (tag ++ be32 n).length = 8 := by simp [ht, be32]
    have r1 : readFull 8 (tag ++ be32 n) = .ok (tag ++ be32 n, []) := by
      rw [readFull, if_pos (by omega), List.take_of_length_le (by omega), List.drop_of_length_le (by omega)]
    have r2 : (tag ++ be32 n).drop 4 = be32 n := by rw [← ht, List.drop_left]
    have hu : beUint32 (be32 n) = .ok (UInt32.ofNat n) := by
      have := beUint32_be32 n hn []
      rwa [List.append_nil] at this
    have hv : (UInt32.ofNat n).toNat = n := by
      rw [UInt32.toNat_ofNat']
      omega
    unfold decodeBuffers
    rw [List.sum_append, chunkBuffers, r1]
    simp only
    rw [r2, hu]
    simp only [List.sum_cons]
    rw [hv]
    omega
  · cases mc <;> exact ⟨_, rfl⟩
  · have h : decodeBuffers mc spare greedyFile = [8, 6, 8, 8, 8, 4294967295] := by cases mc <;> rfl
    rw [h]
    rfl

/-- C127: the ordinary file meets the hypotheses of the second part. -/
example : ∃ smf, decode .c3 [] plainFile = .ok smf ∧
    (∀ t ∈ smf.tracks, t.bytes.length ≤ 8 + (t.events.map Event.bytes).flatten.length) ∧
    (decodeBuffers .c3 [] plainFile).sum = 94 ∧ plainFile.length = 72 := by
  obtain ⟨smf, h1, h2⟩ := Outcome.of_test (o := decode .c3 [] plainFile)
    (p := fun smf => smf.tracks.all fun t => decide (t.bytes.length ≤ 8 + (t.events.map Event.bytes).flatten.length)) (by decide +kernel)
  refine ⟨smf, h1, ?_, by decide +kernel, by decide +kernel⟩
  intro t ht
  exact of_decide_eq_true (List.all_eq_true.1 h2 t ht)

end Midiasm
