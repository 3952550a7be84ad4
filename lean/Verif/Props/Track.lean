import Verif.Lemmas.Track
import Verif.Props.Header

/-!
C08 to C14, C17, C45: decoding a track.  A track chunk is `c` with tag MTrk; `c.body` is the track body.
-/

set_option linter.unusedSimpArgs false

namespace Midiasm
open Spec

/-- Concrete one-item framings used in the examples. -/
theorem quantity1 (b : UInt8) (h : b.toNat < 128) : Quantity [b] b.toNat := by
  refine ⟨⟨[], b, rfl, by simp, h⟩, ?_⟩
  have := b.toNat_lt
  simp [value128]; omega

theorem quantity1' (n : Nat) (h : n < 128) : Quantity [UInt8.ofNat n] n := by
  have := quantity1 (UInt8.ofNat n) (by simp; omega)
  rwa [show (UInt8.ofNat n).toNat = n by simp; omega] at this

/-- An item with a one byte delta time. -/
theorem framedItem1 {polyLen : Nat} {rs rs' : Option UInt8} {raw : Raw} (d : UInt8) (h : d.toNat < 128) {eb : Bytes}
    (hf : Framed polyLen rs raw eb rs') : FramedItem polyLen rs ⟨d.toUInt32, raw, d :: eb⟩ rs' :=
  ⟨[d], eb, rfl, by rw [UInt8.toNat_toUInt32]; exact quantity1 d h, hf⟩

/-! ### C08 -/

/-- What makes the decoder panic: after events with a meaning comes either a complete event whose fields are out of range or of
an unknown kind (a system exclusive packet that is refused in order is an error instead), or a system common or real time
status. -/
def PanicsAt (body : Bytes) : Prop :=
  (∃ pre i rs' rest, body = trackBytes (pre ++ [i]) ++ rest ∧ FramedTrack 1 none (pre ++ [i]) rs' ∧
    (meanings false (pre.map Item.raw)).isSome = true ∧ meaning (pendingAll false (pre.map Item.raw)) i.raw = none ∧
    ¬ RefusedSysEx (pendingAll false (pre.map Item.raw)) i.raw) ∨
  (∃ items rs' tail, body = trackBytes items ++ tail ∧ FramedTrack 1 none items rs' ∧
    (meanings false (items.map Item.raw)).isSome = true ∧ SystemStatus tail)

theorem framedTrack_split {polyLen : Nat} {rs rs' : Option UInt8} {a b : List Item} (h : FramedTrack polyLen rs (a ++ b) rs') :
    ∃ rs1, FramedTrack polyLen rs a rs1 ∧ FramedTrack polyLen rs1 b rs' := by
  induction a generalizing rs with
  | nil => exact ⟨rs, .nil, h⟩
  | cons i a ih =>
    cases h with
    | cons h1 h2 =>
      obtain ⟨rs1, h3, h4⟩ := ih h2
      exact ⟨rs1, .cons h1 h3, h4⟩

/-- C08 for a track: decoding a track panics exactly in the cases of `PanicsAt`, and it always ends.  Missing from C08: the
claim that there are no such tracks, which is false (`C08_decode_never_panics_fails`). -/
theorem C08_track_panics_iff_partial (mc : MiddleC) (spare : Bytes) (n : Nat) (c : Chunk) (wf : c.Wf) (ht : c.tag = tagMTrk) :
    (unmarshalMTrk mc spare n c.bytes = .panic ↔ PanicsAt c.body) ∧ unmarshalMTrk mc spare n c.bytes ≠ .diverge := by
  rw [unmarshalMTrk_panic mc spare n c wf ht]
  have hcases := decodeBody_cases mc spare c.body
  refine ⟨⟨?_, ?_⟩, ?_⟩
  · intro hp
    obtain ⟨items, tail, rs', hb, hf, h⟩ := hcases
    rcases h with ⟨cs, es, ctx, hm, _, _, _, _, _, ⟨_, h⟩ | ⟨_, h⟩ | ⟨h1, h⟩⟩ | ⟨pre, i, post, rfl, h1, h2, ⟨_, h⟩ | ⟨h3, h⟩⟩
    · rw [hp] at h; cases h
    · rw [hp] at h; cases h
    · exact Or.inr ⟨items, rs', tail, hb, hf, by simp [hm], h1⟩
    · rw [hp] at h; cases h
    · have hf' : FramedTrack 1 none ((pre ++ [i]) ++ post) rs' := by simpa using hf
      obtain ⟨rs1, hf1, _⟩ := framedTrack_split hf'
      exact Or.inl ⟨pre, i, rs1, trackBytes post ++ tail, by rw [hb]; simp [trackBytes], hf1, h1, h2, h3⟩
  · rintro (⟨pre, i, rs', rest, hb, hf, h1, h2, h3⟩ | ⟨items, rs', tail, hb, hf, h1, h2⟩)
    · rw [hb]
      rcases decodeBody_stop mc spare pre i rs' rest hf h1 h2 with ⟨h4, _⟩ | ⟨_, h4⟩
      · exact absurd h4 h3
      · exact h4
    · obtain ⟨cs, hcs⟩ := Option.isSome_iff_exists.1 h1
      obtain ⟨es, ctx, _, _, _, _, _, _, _, h⟩ := decodeBody_tail mc spare items rs' tail hf cs hcs
      rw [hb]
      exact h h2
  · intro hdv
    have hd : decodeBody mc spare c.body = .diverge := by
      rw [unmarshalMTrk_chunk mc spare n c wf ht] at hdv
      cases h : decodeBody mc spare c.body with
      | diverge => rfl
      | ok p => rw [h] at hdv; cases hdv
      | err e => rw [h] at hdv; cases hdv
      | panic => rw [h] at hdv; cases hdv
    obtain ⟨items, tail, rs', hb, hf, h⟩ := hcases
    rcases h with ⟨cs, es, ctx, hm, _, _, _, _, _, ⟨_, h⟩ | ⟨_, h⟩ | ⟨_, h⟩⟩ | ⟨pre, i, post, rfl, h1, h2, ⟨_, h⟩ | ⟨_, h⟩⟩ <;>
      rw [hd] at h <;> cases h

/-- The track loop of the file decoder panics only if a track does. -/
theorem decodeTracks_panic (mc : MiddleC) (spare : Bytes) (cs : List Chunk) (wf : ∀ c ∈ cs, c.Wf) (n : Nat) :
    (decodeTracks mc spare (cs.map Chunk.bytes) n = .panic → ∃ c ∈ cs, c.tag = tagMTrk ∧ PanicsAt c.body) ∧
    decodeTracks mc spare (cs.map Chunk.bytes) n ≠ .diverge := by
  induction cs generalizing n with
  | nil => simp [decodeTracks]
  | cons c cs ih =>
    have wc := wf c (by simp)
    have wcs : ∀ c ∈ cs, c.Wf := fun c hc => wf c (by simp [hc])
    obtain ⟨i1, i2⟩ := ih wcs (n + 1)
    obtain ⟨j1, j2⟩ := ih wcs n
    simp only [List.map_cons, decodeTracks, slice_tag c wc, Outcome.bind_ok, str_MTrk]
    by_cases ht : c.tag = tagMTrk
    · rw [if_pos ht]
      obtain ⟨k1, k2⟩ := C08_track_panics_iff_partial mc spare n c wc ht
      cases hu : unmarshalMTrk mc spare n c.bytes with
      | ok t =>
        rw [Outcome.bind_ok]
        cases hd : decodeTracks mc spare (cs.map Chunk.bytes) (n + 1) with
        | ok ts => simp
        | err e => simp
        | panic =>
          refine ⟨fun _ => ?_, by simp⟩
          obtain ⟨c', hc', h⟩ := i1 hd
          exact ⟨c', by simp [hc'], h⟩
        | diverge => exact absurd hd i2
      | err e => simp
      | panic => exact ⟨fun _ => ⟨c, by simp, ht, k1.1 hu⟩, by simp⟩
      | diverge => exact absurd hu k2
    · rw [if_neg ht]
      refine ⟨fun h => ?_, j2⟩
      obtain ⟨c', hc', h⟩ := j1 h
      exact ⟨c', by simp [hc'], h⟩

/-- C08 for a file: decoding always ends, and it panics only if one of its MTrk chunks has a body as in `PanicsAt`; in
particular a file of standard tracks never makes it panic.  Missing from C08: the claim that there are no such files, which is
false (`C08_decode_never_panics_fails`). -/
theorem C08_decode_never_panics_partial (mc : MiddleC) (spare file : Bytes) :
    decode mc spare file ≠ .diverge ∧
    (decode mc spare file = .panic → ∃ cs tail, file = fileBytes cs ++ tail ∧ (∀ c ∈ cs, c.Wf) ∧ EndTail tail ∧
      ∃ c ∈ cs, c.tag = tagMTrk ∧ PanicsAt c.body) := by
  obtain ⟨cs, tail, rfl, wf, htail⟩ := split_file file
  rcases htail with htail | htail
  · cases cs with
    | nil =>
      rw [decode, (chunkLoop_file [] (by simp) tail).1 htail]
      exact ⟨by simp, by simp⟩
    | cons c cs =>
      have wc := wf c (by simp)
      have wcs : ∀ c ∈ cs, c.Wf := fun c hc => wf c (by simp [hc])
      rw [decode_chunks mc spare c cs wf tail htail]
      obtain ⟨i1, i2⟩ := decodeTracks_panic mc spare cs wcs 0
      obtain ⟨_, k2, k3⟩ := C05_header_acceptance c wc
      by_cases hv : ∃ h : Header, h.Valid ∧ c = h.chunk
      · obtain ⟨h, hv, hc⟩ := hv
        obtain ⟨m, hm, _⟩ := k2 h hv hc
        rw [hm, Outcome.bind_ok]
        cases hd : decodeTracks mc spare (cs.map Chunk.bytes) 0 with
        | ok ts =>
          rw [Outcome.bind_ok]
          split <;> exact ⟨by simp, by simp⟩
        | err e => exact ⟨by simp, by simp⟩
        | panic =>
          refine ⟨by simp, fun _ => ⟨c :: cs, tail, rfl, wf, htail, ?_⟩⟩
          obtain ⟨c', hc', h⟩ := i1 hd
          exact ⟨c', by simp [hc'], h⟩
        | diverge => exact absurd hd i2
      · rw [k3 hv]
        exact ⟨by simp, by simp⟩
  · rw [decode, (chunkLoop_file cs wf tail).2 htail]
    exact ⟨by simp, by simp⟩

/-- A file with one track whose body is `body` (shorter than 256 bytes). -/
def oneTrack (body : Bytes) : Bytes := fileBytes [(Header.mk 0 1 96).chunk, ⟨tagMTrk, body⟩]

/-- C08 is false: a note on with velocity 128, an unknown meta event, a tempo event of two bytes, an empty sequencer specific
event and a real time status each make the decoder panic. -/
theorem C08_decode_never_panics_fails (mc : MiddleC) (spare : Bytes) :
    ∀ body ∈ [[0x00, 0x90, 0x3c, 0x80], [0x00, 0xff, 0x60, 0x00], [0x00, 0xff, 0x51, 0x02, 0x07, 0xa1],
      [0x00, 0xff, 0x7f, 0x00], [0x00, 0xf8]], decode mc spare (oneTrack body) = .panic := by
  have key : ∀ body : Bytes, body.length < 2 ^ 32 → PanicsAt body → decode mc spare (oneTrack body) = .panic := by
    intro body hl hp
    have w : ∀ x ∈ (Header.mk 0 1 96).chunk :: [(⟨tagMTrk, body⟩ : Chunk)], x.Wf := by
      intro x hx
      rcases List.mem_cons.1 hx with rfl | hx
      · exact header_chunk_wf _
      · rw [List.mem_singleton.1 hx]; exact ⟨rfl, hl⟩
    have wt := w ⟨tagMTrk, body⟩ (by simp)
    have h := decode_chunks mc spare _ _ w [] .nil
    rw [List.append_nil] at h
    rw [oneTrack, h]
    obtain ⟨m, hm, _⟩ := unmarshalMThd_valid (Header.mk 0 1 96) ⟨by decide, by decide, by decide, Or.inl (by decide)⟩
    rw [hm, Outcome.bind_ok]
    simp only [List.map_cons, List.map_nil, decodeTracks, slice_tag _ wt, Outcome.bind_ok, str_MTrk, if_true]
    rw [((C08_track_panics_iff_partial mc spare 0 _ wt rfl).1).2 hp]
    rfl
  have q0 : Quantity [0] 0 := quantity1 0 (by decide)
  have one : ∀ (i : Item) rs', FramedItem 1 none i rs' → meaning false i.raw = none → ¬ RefusedSysEx false i.raw →
      PanicsAt i.bytes := by
    intro i rs' h1 h2 h3
    refine Or.inl ⟨[], i, rs', [], by simp [trackBytes], .cons h1 .nil, rfl, ?_, ?_⟩
    · simpa [pendingAll] using h2
    · simpa [pendingAll] using h3
  intro body hb
  simp only [List.mem_cons, List.not_mem_nil, or_false] at hb
  rcases hb with rfl | rfl | rfl | rfl | rfl
  · refine key _ (by simp) (one ⟨0, .chan 0x90 [0x3c, 0x80], _⟩ _
      (framedItem1 0 (by decide) (.full ⟨by decide, by decide⟩ (by decide))) (by decide) (by simp [RefusedSysEx]))
  · refine key _ (by simp) (one ⟨0, .metaEvent 0x60 [], _⟩ _
      (framedItem1 0 (by decide) (.metaEvent (len := [0]) q0)) (by decide) (by simp [RefusedSysEx]))
  · refine key _ (by simp) (one ⟨0, .metaEvent 0x51 [0x07, 0xa1], _⟩ _
      (framedItem1 0 (by decide) (.metaEvent (len := [2]) (quantity1 2 (by decide)))) (by decide) (by simp [RefusedSysEx]))
  · refine key _ (by simp) (one ⟨0, .metaEvent 0x7f [], _⟩ _
      (framedItem1 0 (by decide) (.metaEvent (len := [0]) q0)) (by decide) (by simp [RefusedSysEx]))
  · exact key _ (by simp) (Or.inr ⟨[], none, [0x00, 0xf8], rfl, .nil, rfl,
      ⟨[0], 0xf8, [], rfl, q0.1, by decide, by decide, by decide⟩⟩)

end Midiasm
