import Verif.Props.Track

/-!
C09 to C14, C17 and C45: the events of a decoded track.
-/

set_option linter.unusedSimpArgs false

namespace Midiasm
open Spec

/-- A track that decodes is a sequence of framed events followed by an incomplete one, and its events are those. -/
theorem track_decomposition (mc : MiddleC) (spare : Bytes) (n : Nat) (c : Chunk) (wf : c.Wf) (ht : c.tag = tagMTrk) (t : MTrk)
    (h : unmarshalMTrk mc spare n c.bytes = .ok t) :
    ∃ items tail rs' cs, c.body = trackBytes items ++ tail ∧ FramedTrack 1 none items rs' ∧ Truncated 1 rs' tail ∧
      meanings false (items.map Item.raw) = some cs ∧ loopItems mc 0 newContext items = .ok (t.events, t.context) ∧
      t.events.map (·.body.view) = cs.map asShown ∧ t.events.map Event.delta = items.map Item.delta ∧
      t.events.map Event.bytes = items.map Item.bytes ∧ t.events.map Event.tick = loopTicks 0 (items.map Item.delta) := by
  have hd := ((unmarshalMTrk_ok mc spare n c wf ht t).1 h).1
  obtain ⟨items, tail, rs', hb, hf, hc⟩ := decodeBody_cases mc spare c.body
  rcases hc with ⟨cs, es, ctx, hm, hl, h1, h2, h3, h4, ⟨h5, h6⟩ | ⟨_, h6⟩ | ⟨_, h6⟩⟩ | ⟨pre, i, post, rfl, h1, h2, ⟨_, h6⟩ | ⟨h3, h6⟩⟩
  · rw [hd] at h6
    injection h6 with h6
    injection h6 with h6 h7
    subst h6 h7
    exact ⟨items, tail, rs', cs, hb, hf, h5, hm, hl, h1, h2, h3, h4⟩
  all_goals rw [hd] at h6; cases h6

theorem framedTrack_mem {polyLen : Nat} {rs rs' : Option UInt8} {items : List Item} (hf : FramedTrack polyLen rs items rs') :
    ∀ i ∈ items, ∃ rs rs', FramedItem polyLen rs i rs' := by
  induction hf with
  | nil => simp
  | cons h1 _ ih =>
    intro i hi
    rcases List.mem_cons.1 hi with rfl | hi
    · exact ⟨_, _, h1⟩
    · exact ih i hi

/-- C09: the recorded bytes of the events of a decoded track, in order, followed by the bytes of an incomplete event (none if
the track is complete) are exactly the track body; and each event's bytes start with its delta time. -/
theorem C09_event_bytes_cover_track (mc : MiddleC) (spare : Bytes) (n : Nat) (c : Chunk) (wf : c.Wf) (ht : c.tag = tagMTrk) (t : MTrk)
    (h : unmarshalMTrk mc spare n c.bytes = .ok t) :
    (∃ tail rs', c.body = (t.events.map Event.bytes).flatten ++ tail ∧ Truncated 1 rs' tail) ∧
    ∀ e ∈ t.events, ∃ db eb, e.bytes = db ++ eb ∧ Quantity db e.delta.toNat ∧ ∃ rs raw rs', Framed 1 rs raw eb rs' := by
  obtain ⟨items, tail, rs', cs, hb, hf, htr, hm0, hl0, _, hdelta, hbytes, _⟩ := track_decomposition mc spare n c wf ht t h
  refine ⟨⟨tail, rs', by rw [hb, hbytes]; rfl, htr⟩, ?_⟩
  intro e he
  obtain ⟨k, hk, hke⟩ := List.mem_iff_getElem.1 he
  have hlen : t.events.length = items.length := by have := congrArg List.length hbytes; simpa using this
  have hki : k < items.length := by omega
  have e1 : e.delta = items[k].delta := by
    have := congrArg (fun l => l[k]?) hdelta
    simp [hk, hki, hke] at this; exact this
  have e2 : e.bytes = items[k].bytes := by
    have := congrArg (fun l => l[k]?) hbytes
    simp [hk, hki, hke] at this; exact this
  obtain ⟨rs, rs1, db, eb, h1, h2, h3⟩ := framedTrack_mem hf items[k] (List.getElem_mem hki)
  exact ⟨db, eb, by rw [e2, h1], by rw [e1]; exact h2, rs, _, rs1, h3⟩

/-- Non-vacuity: a track with running status and a cut-off last event decodes. -/
example : ∃ t, unmarshalMTrk .c3 [] 3 (Chunk.bytes ⟨tagMTrk, [0x00, 0x90, 0x3c, 0x40, 0x60, 0x3c, 0x00, 0x00, 0xff, 0x2f]⟩) = .ok t ∧
    (t.events.map Event.bytes == [[0x00, 0x90, 0x3c, 0x40], [0x60, 0x3c, 0x00]]) = true :=
  Outcome.of_test (p := fun t : MTrk => t.events.map Event.bytes == [[0x00, 0x90, 0x3c, 0x40], [0x60, 0x3c, 0x00]])
    (by decide +kernel)

/-! ### C10 -/

/-- C67: the tick of every decoded event is the sum of the delta times before it, modulo 2^32, plus its own delta time. -/
theorem C67_ticks_exact (mc : MiddleC) (spare : Bytes) (n : Nat) (c : Chunk) (wf : c.Wf) (ht : c.tag = tagMTrk) (t : MTrk)
    (h : unmarshalMTrk mc spare n c.bytes = .ok t) (k : Nat) (e : Event) (he : t.events[k]? = some e) :
    e.tick.toNat = ((t.events.take k).map (fun e => e.delta.toNat)).sum % 2 ^ 32 + e.delta.toNat := by
  obtain ⟨items, tail, rs', cs, _, _, _, _, _, _, hdelta, _, htick⟩ := track_decomposition mc spare n c wf ht t h
  rw [← hdelta] at htick
  obtain ⟨x, h1, h2⟩ := loopTicks_exact 0 (t.events.map Event.delta) k e.delta (by simp [he])
  rw [← htick] at h1
  simp [he] at h1
  subst h1
  rw [h2]
  simp [List.map_take, Function.comp_def]

/-- C10 for tracks whose delta times sum to less than 2^32: the tick of every event is the sum of the delta times up to and
including it, and ticks never decrease.  Missing: longer tracks, for which the claim is false (`C10_ticks_fails`). -/
theorem C10_ticks_running_sums_partial (mc : MiddleC) (spare : Bytes) (n : Nat) (c : Chunk) (wf : c.Wf) (ht : c.tag = tagMTrk) (t : MTrk)
    (h : unmarshalMTrk mc spare n c.bytes = .ok t) (hs : (t.events.map (fun e => e.delta.toNat)).sum < 2 ^ 32) :
    (∀ k e, t.events[k]? = some e → e.tick.toNat = ((t.events.take (k + 1)).map (fun e => e.delta.toNat)).sum) ∧
    (∀ (i j : Nat) (a b : Event), i ≤ j → t.events[i]? = some a → t.events[j]? = some b → a.tick ≤ b.tick) := by
  have key : ∀ k e, t.events[k]? = some e → e.tick.toNat = ((t.events.take (k + 1)).map (fun e => e.delta.toNat)).sum := by
    intro k e he
    rw [C67_ticks_exact mc spare n c wf ht t h k e he]
    have hsplit : t.events.take (k + 1) = t.events.take k ++ [e] := by
      rw [List.take_add_one, he]; rfl
    have hle : ((t.events.take k).map (fun e => e.delta.toNat)).sum ≤ (t.events.map (fun e => e.delta.toNat)).sum := by
      have := congrArg (fun l => (l.map (fun e : Event => e.delta.toNat)).sum) (List.take_append_drop k t.events)
      simp only [List.map_append, List.sum_append] at this
      omega
    rw [hsplit, List.map_append, List.sum_append]
    simp only [List.map_cons, List.map_nil, List.sum_cons, List.sum_nil]
    omega
  refine ⟨key, ?_⟩
  intro i j a b hij ha hb
  rw [UInt64.le_iff_toNat_le, key i a ha, key j b hb]
  have := congrArg (fun l => (l.map (fun e : Event => e.delta.toNat)).sum) (List.take_append_drop (i + 1) (t.events.take (j + 1)))
  rw [List.take_take, Nat.min_eq_left (by omega)] at this
  simp only [List.map_append, List.sum_append] at this
  omega

/-- C10 is false: sixteen events with the largest delta time and one more; the tick goes back to near zero. -/
def longTrack : Bytes :=
  (List.replicate 17 [0xff, 0xff, 0xff, 0x7f, 0x90, 0x3c, 0x40]).flatten ++ [0x40, 0x3c, 0x00, 0x00, 0xff, 0x2f, 0x00]

theorem C10_ticks_fails : ∃ t, unmarshalMTrk .c3 [] 0 (Chunk.bytes ⟨tagMTrk, longTrack⟩) = .ok t ∧
    (∃ a b, t.events[15]? = some a ∧ t.events[17]? = some b ∧ b.tick < a.tick) := by
  obtain ⟨t, h1, h2⟩ := Outcome.of_test (o := unmarshalMTrk .c3 [] 0 (Chunk.bytes ⟨tagMTrk, longTrack⟩))
    (p := fun t : MTrk => match t.events[15]?, t.events[17]? with | some a, some b => decide (b.tick < a.tick) | _, _ => false)
    (by decide +kernel)
  refine ⟨t, h1, ?_⟩
  revert h2
  cases t.events[15]? with
  | none => simp
  | some a =>
    cases t.events[17]? with
    | none => simp
    | some b => intro h; exact ⟨a, b, rfl, rfl, by simpa using h⟩

example : ∃ t, unmarshalMTrk .c3 [] 0 (Chunk.bytes ⟨tagMTrk, [0x81, 0x00, 0x90, 0x3c, 0x40, 0x60, 0x3c, 0x00, 0x00, 0xff, 0x2f, 0x00]⟩) = .ok t ∧
    (t.events.map Event.tick == [128, 224, 224]) = true :=
  Outcome.of_test (p := fun t : MTrk => t.events.map Event.tick == [128, 224, 224]) (by decide +kernel)

/-! ### C11 -/

/-- What is left of an event without its recorded raw bytes. -/
def Event.content (e : Event) : UInt64 × UInt32 × Body := (e.tick, e.delta, e.body)

/-- Two tracks decode alike: both fail in the same way, or both succeed with the same events up to the recorded bytes and the same
context. -/
def DecodeAlike (a b : Outcome MTrk) : Prop :=
  (∃ t t', a = .ok t ∧ b = .ok t' ∧ t.events.map Event.content = t'.events.map Event.content ∧ t.context = t'.context) ∨
  (∃ e, a = .err e ∧ b = .err e) ∨ (a = .panic ∧ b = .panic)

theorem decodeAlike_of_items (mc : MiddleC) (spare : Bytes) (n n' : Nat) (items items' : List Item) (rs' : Option UInt8) (tail : Bytes)
    (h : FramedTrack 1 none items rs') (h' : FramedTrack 1 none items' rs')
    (same : items.map (fun i => (i.delta, i.raw)) = items'.map (fun i => (i.delta, i.raw)))
    (ht : Truncated 1 rs' tail ∨ Orphan rs' tail ∨ SystemStatus tail)
    (c c' : Chunk) (wf : c.Wf) (wf' : c'.Wf) (htag : c.tag = tagMTrk) (htag' : c'.tag = tagMTrk)
    (hb : c.body = trackBytes items ++ tail) (hb' : c'.body = trackBytes items' ++ tail) :
    DecodeAlike (unmarshalMTrk mc spare n c.bytes) (unmarshalMTrk mc spare n' c'.bytes) := by
  have hraw : items.map Item.raw = items'.map Item.raw := by
    have := congrArg (fun l => l.map Prod.snd) same
    simpa [Function.comp_def] using this
  rw [unmarshalMTrk_chunk mc spare n c wf htag, unmarshalMTrk_chunk mc spare n' c' wf' htag', hb, hb']
  cases hm : meanings false (items.map Item.raw) with
  | some cs =>
    obtain ⟨es, ctx, _, _, _, _, g1, g2, g3, g4⟩ := decodeBody_tail mc spare items rs' tail h cs hm
    rw [hraw] at hm
    obtain ⟨es', ctx', _, _, _, _, k1, k2, k3, k4⟩ := decodeBody_tail mc spare items' rs' tail h' cs hm
    rcases loopItems_congr mc 0 newContext items items' same with ⟨a, b, x, l1, l2, l3⟩ | ⟨e, l1, _⟩ | ⟨l1, _⟩ | ⟨l1, _⟩
    · rw [g1] at l1
      rw [k1] at l2
      injection l1 with l1
      injection l1 with l1 l1'
      injection l2 with l2
      injection l2 with l2 l2'
      subst l1 l2 l1' l2'
      rcases ht with ht | ht | ht
      · rw [g2 ht, k2 ht]
        exact Or.inl ⟨_, _, rfl, rfl, l3, rfl⟩
      · exact Or.inr (Or.inl ⟨.other, by rw [g3 ht]; rfl, by rw [k3 ht]; rfl⟩)
      · exact Or.inr (Or.inr ⟨by rw [g4 ht]; rfl, by rw [k4 ht]; rfl⟩)
    all_goals rw [g1] at l1; cases l1
  | none =>
    have hw := framedTrack_wf h
    have hbo := decodeBody_eq mc spare items tail rs' h ht
    have hbo' := decodeBody_eq mc spare items' tail rs' h' ht
    rcases loopItems_congr mc 0 newContext items items' same with ⟨a, b, x, l1, l2, l3⟩ | ⟨e, l1, l2⟩ | ⟨l1, l2⟩ | ⟨l1, l2⟩
    · obtain ⟨_, _, _, _, _, _, ⟨_, hx⟩ | ⟨_, hx⟩⟩ := loopItems_none mc 0 newContext items hw hm <;> rw [l1] at hx <;> cases hx
    · exact Or.inr (Or.inl ⟨e, by rw [hbo, l1]; rfl, by rw [hbo', l2]; rfl⟩)
    · exact Or.inr (Or.inr ⟨by rw [hbo, l1]; rfl, by rw [hbo', l2]; rfl⟩)
    · obtain ⟨_, _, _, _, _, _, ⟨_, hx⟩ | ⟨_, hx⟩⟩ := loopItems_none mc 0 newContext items hw hm <;> rw [l1] at hx <;> cases hx

/-- C11, general form: two byte representations of the same sequence of delta times and events, differing in which status bytes
are omitted (and in the encoding of delta times and lengths), followed by the same bytes, decode alike. -/
theorem C11_running_status_transparent (mc : MiddleC) (spare : Bytes) (n n' : Nat) (items items' : List Item) (rs' : Option UInt8)
    (rest : Bytes) (h : FramedTrack 1 none items rs') (h' : FramedTrack 1 none items' rs')
    (same : items.map (fun i => (i.delta, i.raw)) = items'.map (fun i => (i.delta, i.raw)))
    (c c' : Chunk) (wf : c.Wf) (wf' : c'.Wf) (htag : c.tag = tagMTrk) (htag' : c'.tag = tagMTrk)
    (hb : c.body = trackBytes items ++ rest) (hb' : c'.body = trackBytes items' ++ rest) :
    DecodeAlike (unmarshalMTrk mc spare n c.bytes) (unmarshalMTrk mc spare n' c'.bytes) := by
  -- the running status byte corresponding to `rs'`
  obtain ⟨s, hg, hs⟩ : ∃ s, GoodRS s ∧ rsOf s = rs' := by
    have : ∀ {rs items rs'}, FramedTrack 1 rs items rs' → (∃ s, GoodRS s ∧ rsOf s = rs) → ∃ s, GoodRS s ∧ rsOf s = rs' := by
      intro rs items rs' h
      induction h with
      | nil => exact id
      | cons hi _ ih =>
        intro _
        apply ih
        obtain ⟨db, eb, _, _, hf⟩ := hi
        obtain ⟨h1, h2⟩ := framed_rs hf newContext
        exact ⟨_, h1, h2⟩
    exact this h ⟨0, Or.inl (by decide), rfl⟩
  obtain ⟨more, tail, s', rfl, hf, _, _, ht⟩ := split_track s hg rest
  rw [hs] at hf
  refine decodeAlike_of_items mc spare n n' (items ++ more) (items' ++ more) (rsOf s') tail (framedTrack_append h hf)
    (framedTrack_append h' hf) (by simp [same]) ht c c' wf wf' htag htag' ?_ ?_
  · rw [hb]; simp [trackBytes]
  · rw [hb']; simp [trackBytes]

/-- C11: omitting the status byte of a channel event that repeats the status of the channel event before it does not change the
decoded track, whatever precedes and follows. -/
theorem C11_omit_status (mc : MiddleC) (spare : Bytes) (n : Nat) (pre : List Item) (s : UInt8) (db : Bytes) (delta : UInt32)
    (d : UInt8) (data rest : Bytes) (hpre : FramedTrack 1 none pre (some s)) (hs : IsChannelStatus s) (hq : Quantity db delta.toNat)
    (hlen : (d :: data).length = dataLen 1 s) (hd : d.toNat < 0x80)
    (hl : (trackBytes pre ++ (db ++ s :: d :: data) ++ rest).length < 2 ^ 32) :
    DecodeAlike (unmarshalMTrk mc spare n (Chunk.bytes ⟨tagMTrk, trackBytes pre ++ (db ++ s :: d :: data) ++ rest⟩))
      (unmarshalMTrk mc spare n (Chunk.bytes ⟨tagMTrk, trackBytes pre ++ (db ++ d :: data) ++ rest⟩)) := by
  refine C11_running_status_transparent mc spare n n (pre ++ [⟨delta, .chan s (d :: data), db ++ s :: d :: data⟩])
    (pre ++ [⟨delta, .chan s (d :: data), db ++ d :: data⟩]) (some s) rest ?_ ?_ (by simp) _ _ ?_ ?_ rfl rfl ?_ ?_
  · exact framedTrack_append hpre (.cons ⟨db, s :: d :: data, rfl, hq, .full hs hlen⟩ .nil)
  · exact framedTrack_append hpre (.cons ⟨db, d :: data, rfl, hq, .running hs hlen hd⟩ .nil)
  · exact ⟨rfl, hl⟩
  · refine ⟨rfl, ?_⟩
    simp at hl ⊢
    omega
  · simp [trackBytes]
  · simp [trackBytes]

/-- Non-vacuity of the hypotheses of C11: a note on with full status, then the same status repeated. -/
example : FramedTrack 1 none [⟨0, .chan 0x93 [60, 64], [0, 0x93, 60, 64]⟩] (some 0x93) :=
  .cons (framedItem1 0 (by decide) (.full ⟨by decide, by decide⟩ (by decide))) .nil

/-! ### C12 -/

/-- C12: after a meta or system exclusive event, a data byte in status position is never interpreted: the track is not decoded,
and if the events before are valid the result is an error. -/
theorem C12_meta_cancels_running_status (mc : MiddleC) (spare : Bytes) (n : Nat) (pre : List Item) (i : Item) (rs : Option UInt8)
    (hpre : FramedTrack 1 none pre rs) (hi : FramedItem 1 rs i none) (db : Bytes) (b : UInt8) (rest : Bytes)
    (hdb : Terminated db) (hb : b.toNat < 0x80) (c : Chunk) (wf : c.Wf) (ht : c.tag = tagMTrk)
    (hbody : c.body = trackBytes pre ++ i.bytes ++ db ++ b :: rest) :
    (∀ t, unmarshalMTrk mc spare n c.bytes ≠ .ok t) ∧
    ((meanings false ((pre ++ [i]).map Item.raw)).isSome = true → unmarshalMTrk mc spare n c.bytes = .err .other) := by
  have hf : FramedTrack 1 none (pre ++ [i]) none := framedTrack_append hpre (.cons hi .nil)
  have ho : Orphan none (db ++ b :: rest) := ⟨rfl, db, b, rest, rfl, hdb, hb⟩
  have hbody' : c.body = trackBytes (pre ++ [i]) ++ (db ++ b :: rest) := by rw [hbody]; simp [trackBytes]
  cases hm : meanings false ((pre ++ [i]).map Item.raw) with
  | some cs =>
    obtain ⟨es, ctx, _, _, _, _, _, _, h2, _⟩ := decodeBody_tail mc spare (pre ++ [i]) none (db ++ b :: rest) hf cs hm
    have herr := (unmarshalMTrk_err mc spare n c wf ht .other).2 (by rw [hbody']; exact h2 ho)
    refine ⟨fun t h => ?_, fun _ => herr⟩
    rw [herr] at h
    cases h
  | none =>
    refine ⟨fun t h => ?_, fun h => by simp at h⟩
    have hd := ((unmarshalMTrk_ok mc spare n c wf ht t).1 h).1
    rw [hbody', decodeBody_eq mc spare _ _ none hf (Or.inr (Or.inl ho))] at hd
    rcases loopItems_none mc 0 newContext (pre ++ [i]) (framedTrack_wf hf) hm with ⟨_, _, _, _, _, _, ⟨_, hx⟩ | ⟨_, hx⟩⟩ <;>
      rw [hx] at hd <;> cases hd

/-- A framed event that leaves no running status is a meta or system exclusive event, and conversely. -/
theorem C12_none_iff {rs : Option UInt8} {i : Item} {rs' : Option UInt8} (h : FramedItem 1 rs i rs') :
    rs' = none ↔ (∃ ty d, i.raw = .metaEvent ty d) ∨ ∃ s d, i.raw = .sysex s d := by
  obtain ⟨db, eb, hb, hq, hf⟩ := h
  generalize i.raw = raw at hf
  cases hf <;> simp

/-- Non-vacuity: a note on, an end of track, and then running status data. -/
example : FramedTrack 1 none [⟨0, .chan 0x90 [60, 64], [0, 0x90, 60, 64]⟩] (some 0x90) ∧
    FramedItem 1 (some 0x90) ⟨0, .metaEvent 1 [0x41], [0, 0xff, 1, 1, 0x41]⟩ none :=
  ⟨.cons (framedItem1 0 (by decide) (.full ⟨by decide, by decide⟩ (by decide))) .nil,
   framedItem1 0 (by decide) (.metaEvent (len := [1]) (quantity1 1 (by decide)))⟩

/-! ### C13 -/

/-- C66: a track body in the grammar midiasm uses (polyphonic pressure with one data byte, pitch bend most significant byte
first) whose events have in-range fields decodes to exactly these events with these delta times; the only exception is the
manufacturer ID 7F, which becomes 7E. -/
theorem C66_dialect_track_decodes (mc : MiddleC) (spare : Bytes) (n : Nat) (items : List Item) (rs' : Option UInt8)
    (h : FramedTrack 1 none items rs') (cs : List Content) (hm : meanings false (items.map Item.raw) = some cs)
    (c : Chunk) (wf : c.Wf) (ht : c.tag = tagMTrk) (hb : c.body = trackBytes items) :
    ∃ t, unmarshalMTrk mc spare n c.bytes = .ok t ∧ t.events.map (·.body.view) = cs.map asShown ∧
      t.events.map Event.delta = items.map Item.delta ∧ t.events.map Event.bytes = items.map Item.bytes ∧
      t.trackNumber = n := by
  obtain ⟨es, ctx, h1, h2, h3, h4, _, h5, _, _⟩ := decodeBody_tail mc spare items rs' [] h cs hm
  have hd := h5 (truncated_nil rs')
  rw [List.append_nil] at hd
  exact ⟨⟨tagMTrk, n, UInt32.ofNat c.body.length, c.bytes, es, ctx⟩,
    (unmarshalMTrk_ok mc spare n c wf ht _).2 ⟨by rw [hb]; exact hd, rfl, rfl, rfl, rfl⟩, h1, h2, h3, rfl⟩

theorem framed_dialect {rs rs' : Option UInt8} {raw : Raw} {bs : Bytes} (h : Framed 2 rs raw bs rs') (hp : ¬ IsPolyPressure raw) :
    Framed 1 rs raw bs rs' := by
  have hl : ∀ s : UInt8, s.toNat / 16 ≠ 10 → dataLen 2 s = dataLen 1 s := by
    intro s hs
    unfold dataLen
    split <;> first | rfl | omega
  cases h with
  | full h1 h2 => exact .full h1 (by rw [h2]; exact hl _ hp)
  | running h1 h2 h3 => exact .running h1 (by rw [h2]; exact hl _ hp) h3
  | metaEvent h => exact .metaEvent h
  | sysex h1 h2 => exact .sysex h1 h2

theorem framedTrack_dialect {rs rs' : Option UInt8} {items : List Item} (h : FramedTrack 2 rs items rs')
    (hp : ∀ i ∈ items, ¬ IsPolyPressure i.raw) : FramedTrack 1 rs items rs' := by
  induction h with
  | nil => exact .nil
  | cons hi _ ih =>
    obtain ⟨db, eb, h1, h2, h3⟩ := hi
    exact .cons ⟨db, eb, h1, h2, framed_dialect h3 (hp _ (by simp))⟩ (ih (fun i hi => hp i (by simp [hi])))

theorem meaning_standard (p : Bool) (r : Raw) (h : ¬ IsAsymmetricBend r) : standardMeaning p r = meaning p r := by
  unfold standardMeaning
  split
  · rename_i s a b
    split
    · rename_i hs
      simp only [IsAsymmetricBend, hs, true_and, Decidable.not_not] at h
      obtain ⟨rfl, ha⟩ := h
      simp only [meaning, chanMeaning, hs]
      congr 2
      omega
    · rfl
  · rfl

theorem meanings_standard (p : Bool) (raws : List Raw) (h : ∀ r ∈ raws, ¬ IsAsymmetricBend r) :
    standardMeanings p raws = meanings p raws := by
  induction raws generalizing p with
  | nil => rfl
  | cons r raws ih =>
    rw [standardMeanings, meanings, meaning_standard p r (h r (by simp)), ih _ (fun r hr => h r (by simp [hr]))]

/-- C13: a track body in the Standard MIDI File grammar whose events have in-range fields decodes to exactly these events with
these delta times.  Missing: polyphonic key pressure (false, C17), pitch bends with two different data bytes (false, C65) and
the manufacturer ID 7F (false, C22). -/
theorem C13_standard_track_decodes_partial (mc : MiddleC) (spare : Bytes) (n : Nat) (items : List Item) (rs' : Option UInt8)
    (h : FramedTrack 2 none items rs') (cs : List Content) (hm : standardMeanings false (items.map Item.raw) = some cs)
    (hpoly : ∀ i ∈ items, ¬ IsPolyPressure i.raw) (hbend : ∀ i ∈ items, ¬ IsAsymmetricBend i.raw)
    (h7f : ∀ x ∈ cs, manufacturerID x ≠ some [0x7f])
    (c : Chunk) (wf : c.Wf) (ht : c.tag = tagMTrk) (hb : c.body = trackBytes items) :
    ∃ t, unmarshalMTrk mc spare n c.bytes = .ok t ∧ t.events.map (·.body.view) = cs ∧
      t.events.map Event.delta = items.map Item.delta := by
  rw [meanings_standard] at hm
  · obtain ⟨t, h1, h2, h3, _⟩ := C66_dialect_track_decodes mc spare n items rs' (framedTrack_dialect h hpoly) cs hm c wf ht hb
    refine ⟨t, h1, ?_, h3⟩
    rw [h2]
    conv => rhs; rw [← List.map_id cs]
    exact List.map_congr_left (fun x hx => asShown_eq (h7f x hx))
  · intro r hr
    obtain ⟨i, hi, rfl⟩ := List.mem_map.1 hr
    exact hbend i hi

/-- Non-vacuity: a track with a track name, a note with running status, a two packet SysEx message, a symmetric pitch bend and an
end of track. -/
def sampleItems : List Item :=
  [⟨0, .metaEvent 3 [0x41], [0x00, 0xff, 0x03, 0x01, 0x41]⟩,
   ⟨0, .chan 0x93 [60, 64], [0x00, 0x93, 60, 64]⟩,
   ⟨96, .chan 0x93 [60, 0], [0x60, 60, 0]⟩,
   ⟨0, .sysex 0xf0 [0x41, 1, 2], [0x00, 0xf0, 0x03, 0x41, 1, 2]⟩,
   ⟨200, .sysex 0xf7 [3, 0xf7], [0x81, 0x48, 0xf7, 0x02, 3, 0xf7]⟩,
   ⟨0, .chan 0xe1 [0x40, 0x40], [0x00, 0xe1, 0x40, 0x40]⟩,
   ⟨0, .metaEvent 0x2f [], [0x80, 0x00, 0xff, 0x2f, 0x00]⟩]

theorem sampleItems_framed : FramedTrack 2 none sampleItems none := by
  refine .cons (rs' := none) ⟨[0x00], _, rfl, quantity1 0 (by decide), .metaEvent (len := [1]) (quantity1 1 (by decide))⟩
    (.cons (rs' := some 0x93) ⟨[0x00], _, rfl, quantity1 0 (by decide), .full ⟨by decide, by decide⟩ (by decide)⟩
    (.cons (rs' := some 0x93) ⟨[0x60], _, rfl, quantity1 0x60 (by decide), .running ⟨by decide, by decide⟩ (by decide) (by decide)⟩
    (.cons (rs' := none) ⟨[0x00], _, rfl, quantity1 0 (by decide), .sysex (len := [3]) (Or.inl rfl) (quantity1 3 (by decide))⟩
    (.cons (rs' := none) ⟨[0x81, 0x48], _, rfl, ⟨⟨[0x81], 0x48, rfl, by decide, by decide⟩, by decide⟩,
        .sysex (len := [2]) (Or.inr rfl) (quantity1 2 (by decide))⟩
    (.cons (rs' := some 0xe1) ⟨[0x00], _, rfl, quantity1 0 (by decide), .full ⟨by decide, by decide⟩ (by decide)⟩
    (.cons (rs' := none) ⟨[0x80, 0x00], _, rfl, ⟨⟨[0x80], 0x00, rfl, by decide, by decide⟩, by decide⟩,
        .metaEvent (len := [0]) (quantity1 0 (by decide))⟩ .nil))))))

example : standardMeanings false (sampleItems.map Item.raw) = some [.text 3 [0x41], .noteOn 3 60 64, .noteOn 3 60 0,
    .sysex [0x41] [1, 2] false, .continuation [3], .pitchBend 1 8256, .endOfTrack] := by decide +kernel

/-! ### C14 -/

/-- C14 is false, for every track and every cut point: a track body that ends in the middle of an event decodes exactly like the
body without the partial event. -/
theorem C14_truncated_track_reported_fails (mc : MiddleC) (spare : Bytes) (n : Nat) (items : List Item) (rs' : Option UInt8)
    (h : FramedTrack 1 none items rs') (cs : List Content) (hm : meanings false (items.map Item.raw) = some cs)
    (i : Item) (rs'' : Option UInt8) (hi : FramedItem 1 rs' i rs'') (cut : Nat) (hcut : cut < i.bytes.length)
    (c : Chunk) (wf : c.Wf) (ht : c.tag = tagMTrk) (hb : c.body = trackBytes items ++ i.bytes.take cut) :
    ∃ t, unmarshalMTrk mc spare n c.bytes = .ok t ∧ t.events.map (·.body.view) = cs.map asShown ∧
      t.events.map Event.delta = items.map Item.delta := by
  have htr : Truncated 1 rs' (i.bytes.take cut) :=
    ⟨i.bytes.drop cut, i, rs'', by simp; omega, hi, (List.take_append_drop cut i.bytes).symm⟩
  obtain ⟨es, ctx, h1, h2, h3, h4, _, h5, _, _⟩ := decodeBody_tail mc spare items rs' _ h cs hm
  exact ⟨⟨tagMTrk, n, UInt32.ofNat c.body.length, c.bytes, es, ctx⟩,
    (unmarshalMTrk_ok mc spare n c wf ht _).2 ⟨by rw [hb]; exact h5 htr, rfl, rfl, rfl, rfl⟩, h1, h2⟩

example : FramedTrack 1 none [⟨0, .chan 0x93 [60, 64], [0, 0x93, 60, 64]⟩] (some 0x93) ∧
    FramedItem 1 (some 0x93) ⟨0, .metaEvent 0x2f [], [0, 0xff, 0x2f, 0]⟩ none :=
  ⟨.cons (framedItem1 0 (by decide) (.full ⟨by decide, by decide⟩ (by decide))) .nil,
   framedItem1 0 (by decide) (.metaEvent (len := [0]) (quantity1 0 (by decide)))⟩

/-! ### C17 -/

/-- C17 is false for every channel, key and pressure: a polyphonic key pressure message followed by an end of track event decodes
to three pressure events, the first with the key as its pressure and the second delayed by the pressure, and no end of track. -/
theorem C17_poly_pressure_fails (mc : MiddleC) (spare : Bytes) (n : Nat) (ch key p : UInt8) (hch : ch.toNat < 16)
    (hk : key.toNat < 128) (hp : p.toNat < 128) :
    ∃ t, unmarshalMTrk mc spare n (Chunk.bytes ⟨tagMTrk, [0x00, UInt8.ofNat (0xa0 + ch.toNat), key, p, 0x00, 0xff, 0x2f, 0x00]⟩) = .ok t ∧
      t.events.map (·.body.view) = [.polyPressure ch.toNat none key.toNat, .polyPressure ch.toNat none 0, .polyPressure ch.toNat none 0] ∧
      t.events.map Event.delta = [0, p.toUInt32, 16303] := by
  have hs : (UInt8.ofNat (0xa0 + ch.toNat)).toNat = 0xa0 + ch.toNat := by simp; omega
  generalize UInt8.ofNat (0xa0 + ch.toNat) = s at hs
  have hst : IsChannelStatus s := ⟨by omega, by omega⟩
  have hdl : dataLen 1 s = 1 := by
    have : s.toNat / 16 = 10 := by omega
    simp [dataLen, this]
  obtain ⟨t, h1, h2, h3, _⟩ := C66_dialect_track_decodes mc spare n
    [⟨0, .chan s [key], [0x00, s, key]⟩, ⟨p.toUInt32, .chan s [0], [p, 0x00]⟩, ⟨16303, .chan s [0], [0xff, 0x2f, 0x00]⟩] (some s)
    (.cons (framedItem1 0 (by decide) (.full hst (by rw [hdl]; rfl)))
      (.cons (framedItem1 p hp (.running hst (by rw [hdl]; rfl) (by decide)))
        (.cons ⟨[0xff, 0x2f], [0x00], rfl, ⟨⟨[0xff], 0x2f, rfl, by decide, by decide⟩, by simp only; decide⟩,
          .running hst (by rw [hdl]; rfl) (by decide)⟩ .nil)))
    [.polyPressure ch.toNat none key.toNat, .polyPressure ch.toNat none 0, .polyPressure ch.toNat none 0]
    (by
      have e1 : s.toNat / 16 = 10 := by omega
      have e2 : s.toNat % 16 = ch.toNat := by omega
      have e3 : ∀ x : UInt8, x.toNat < 128 → chanMeaning s [x] = some (.polyPressure ch.toNat none x.toNat) := by
        intro x hx; simp only [chanMeaning, e1, e2, hx, if_true]
      simp [meanings, meaning, e3 key hk, e3 0 (by decide)])
    ⟨tagMTrk, [0x00, s, key, p, 0x00, 0xff, 0x2f, 0x00]⟩ ⟨rfl, by simp⟩ rfl rfl
  exact ⟨t, h1, by simpa [asShown] using h2, h3⟩

example : (5 : UInt8).toNat < 16 ∧ (60 : UInt8).toNat < 128 := by decide

/-! ### C65 -/

/-- C65 is false: a pitch bend is decoded with its first data byte as the most significant one, so the value differs from that of
the MIDI standard exactly when the two data bytes differ. -/
theorem C65_pitch_bend_byte_order_fails (mc : MiddleC) (spare : Bytes) (n : Nat) (ch lsb msb : UInt8) (hch : ch.toNat < 16)
    (hm : msb.toNat < 128) :
    ∃ t, unmarshalMTrk mc spare n (Chunk.bytes ⟨tagMTrk, [0x00, UInt8.ofNat (0xe0 + ch.toNat), lsb, msb]⟩) = .ok t ∧
      t.events.map (·.body.view) = [.pitchBend ch.toNat (lsb.toNat * 128 + msb.toNat)] ∧
      (lsb.toNat * 128 + msb.toNat = msb.toNat * 128 + lsb.toNat ↔ lsb = msb) := by
  have hs : (UInt8.ofNat (0xe0 + ch.toNat)).toNat = 0xe0 + ch.toNat := by simp; omega
  generalize UInt8.ofNat (0xe0 + ch.toNat) = s at hs
  have hst : IsChannelStatus s := ⟨by omega, by omega⟩
  have e1 : s.toNat / 16 = 14 := by omega
  have e2 : s.toNat % 16 = ch.toNat := by omega
  obtain ⟨t, h1, h2, h3, _⟩ := C66_dialect_track_decodes mc spare n
    [⟨0, .chan s [lsb, msb], [0x00, s, lsb, msb]⟩] (some s)
    (.cons (framedItem1 0 (by decide) (.full hst (by simp [dataLen, e1]))) .nil)
    [.pitchBend ch.toNat (lsb.toNat * 128 + msb.toNat)]
    (by simp only [List.map_cons, List.map_nil, meanings, meaning, chanMeaning, e1, e2, Nat.mod_eq_of_lt hm])
    ⟨tagMTrk, [0x00, s, lsb, msb]⟩ ⟨rfl, by simp⟩ rfl (by simp [trackBytes])
  refine ⟨t, h1, by simpa [asShown] using h2, ?_⟩
  constructor
  · intro h; apply u8_ext; omega
  · rintro rfl; rfl

/-- C65 holds for pitch bends with two equal data bytes (such as the centre position of many files, 40 40); missing: all other
pitch bends, for which the claim is false. -/
theorem C65_pitch_bend_byte_order_partial (mc : MiddleC) (spare : Bytes) (n : Nat) (ch b : UInt8) (hch : ch.toNat < 16)
    (hb : b.toNat < 128) :
    ∃ t, unmarshalMTrk mc spare n (Chunk.bytes ⟨tagMTrk, [0x00, UInt8.ofNat (0xe0 + ch.toNat), b, b]⟩) = .ok t ∧
      t.events.map (fun e => some e.body.view) = [standardMeaning false (.chan (UInt8.ofNat (0xe0 + ch.toNat)) [b, b])] := by
  obtain ⟨t, h1, h2, _⟩ := C65_pitch_bend_byte_order_fails mc spare n ch b b hch hb
  refine ⟨t, h1, ?_⟩
  have hs : (UInt8.ofNat (0xe0 + ch.toNat)).toNat = 0xe0 + ch.toNat := by simp; omega
  have := congrArg (List.map some) h2
  rw [List.map_map] at this
  rw [show (fun e : Event => some e.body.view) = some ∘ (fun e => e.body.view) from rfl, this]
  simp only [List.map_cons, List.map_nil, standardMeaning, hs]
  rw [if_pos (by omega)]
  congr 3
  omega

example : (3 : UInt8).toNat < 16 ∧ (0x40 : UInt8).toNat < 128 := by decide

/-! ### C45 -/

/-- C45, acceptance: in a track that decodes, an F0 event never occurs while an earlier message is unterminated, and an F7 event is
a continuation exactly while a message is unterminated and an escape otherwise. -/
theorem C45_sysex_sequencing (mc : MiddleC) (spare : Bytes) (n : Nat) (c : Chunk) (wf : c.Wf) (ht : c.tag = tagMTrk) (t : MTrk)
    (h : unmarshalMTrk mc spare n c.bytes = .ok t) :
    ∃ items rs', FramedTrack 1 none items rs' ∧ t.events.map Event.bytes = items.map Item.bytes ∧
      ∀ k i e, items[k]? = some i → t.events[k]? = some e →
        let pending := pendingAll false ((items.take k).map Item.raw)
        (∀ data, i.raw = .sysex 0xf0 data → pending = false ∧ ∃ m d single, e.body = .sysExMessage m d single) ∧
        (∀ data, i.raw = .sysex 0xf7 data → (pending = true → e.body.view = .continuation (unterminated data)) ∧
          (pending = false → e.body.view = .escape data)) := by
  obtain ⟨items, tail, rs', cs, hb, hf, htr, hm, _, hview, _, hbytes, _⟩ := track_decomposition mc spare n c wf ht t h
  refine ⟨items, rs', hf, hbytes, ?_⟩
  intro k i e hi he
  obtain ⟨x, hx1, hx2⟩ := meanings_get hm k i.raw (by simp [hi])
  have hv : e.body.view = asShown x := by
    have := congrArg (fun l => l[k]?) hview
    simp [he, hx1] at this
    exact this
  rw [← List.map_take] at hx2
  generalize hp : pendingAll false ((items.take k).map Item.raw) = pending at hx2
  refine ⟨fun data hd => ?_, fun data hd => ?_⟩
  · rw [hd] at hx2
    cases pending with
    | true =>
      exfalso
      match data with
      | [] => simp [meaning, sysexMeaning] at hx2
      | [_] => simp [meaning, sysexMeaning] at hx2
      | _ :: _ :: _ => simp [meaning, sysexMeaning] at hx2
    | false =>
      refine ⟨rfl, ?_⟩
      match data with
      | [] => simp [meaning, sysexMeaning] at hx2
      | [_] => simp [meaning, sysexMeaning] at hx2
      | id :: b :: d =>
        simp [meaning, sysexMeaning] at hx2
        subst hx2
        revert hv
        cases e.body <;> simp [Body.view, asShown]
  · rw [hd] at hx2
    refine ⟨fun hpt => ?_, fun hpf => ?_⟩
    · subst hpt
      simp [meaning, sysexMeaning] at hx2
      subst hx2
      exact hv
    · subst hpf
      simp [meaning, sysexMeaning] at hx2
      subst hx2
      exact hv

/-- C45, rejection: an F0 event after valid events while a message is unterminated makes the decoder return an error, whatever
follows. -/
theorem C45_second_message_rejected (mc : MiddleC) (spare : Bytes) (n : Nat) (pre : List Item) (i : Item) (rs' : Option UInt8)
    (h : FramedTrack 1 none (pre ++ [i]) rs') (hm : (meanings false (pre.map Item.raw)).isSome = true)
    (data : Bytes) (hi : i.raw = .sysex 0xf0 data) (hp : pendingAll false (pre.map Item.raw) = true) (rest : Bytes)
    (c : Chunk) (wf : c.Wf) (ht : c.tag = tagMTrk) (hb : c.body = trackBytes (pre ++ [i]) ++ rest) :
    unmarshalMTrk mc spare n c.bytes = .err .other := by
  rw [unmarshalMTrk_err mc spare n c wf ht, hb]
  have h2 : meaning (pendingAll false (pre.map Item.raw)) i.raw = none := by
    rw [hp, hi]
    match data with
    | [] => simp [meaning, sysexMeaning]
    | [_] => simp [meaning, sysexMeaning]
    | _ :: _ :: _ => simp [meaning, sysexMeaning]
  rcases decodeBody_stop mc spare pre i rs' rest h hm h2 with ⟨_, h3⟩ | ⟨h3, _⟩
  · exact h3
  · exfalso; apply h3; rw [hp, hi]; exact ⟨rfl, Or.inl rfl⟩

/-- Non-vacuity: an unterminated message followed by another one. -/
example : FramedTrack 1 none ([⟨0, .sysex 0xf0 [0x41, 1, 2], [0x00, 0xf0, 0x03, 0x41, 1, 2]⟩] ++
      [⟨0, .sysex 0xf0 [0x41, 0xf7], [0x00, 0xf0, 0x02, 0x41, 0xf7]⟩]) none ∧
    pendingAll false [.sysex 0xf0 [0x41, 1, 2]] = true ∧ (meanings false [.sysex 0xf0 [0x41, 1, 2]]).isSome = true :=
  ⟨.cons (rs' := none) (framedItem1 0 (by decide) (.sysex (len := [3]) (Or.inl rfl) (quantity1 3 (by decide))))
    (.cons (framedItem1 0 (by decide) (.sysex (len := [2]) (Or.inl rfl) (quantity1 2 (by decide)))) .nil), by decide, by decide⟩

end Midiasm
