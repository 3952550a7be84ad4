import Verif.Lemmas.Meaning
import Verif.Lemmas.Unique

/-!
The track loop on any input: it decodes the framed events in order and stops at the first thing that is not one.
-/

set_option linter.unusedSimpArgs false

namespace Midiasm
open Spec

/-- The events made from a list of framed items. -/
def loopItems (mc : MiddleC) : UInt32 → Context → List Item → Outcome (List Event × Context)
  | _, ctx, [] => .ok ([], ctx)
  | tick, ctx, i :: is => do
    let b ← bodyOutcome mc ctx.casio i.raw
    let (e, ctx) := applyContext mc (ctxAfter ctx i.raw) (mkEvent tick i b)
    let (es, ctx) ← loopItems mc (tick + i.delta) ctx is
    .ok (e :: es, ctx)

theorem applyContext_ctx (mc : MiddleC) (ctx : Context) (e : Event) :
    (applyContext mc ctx e).2.runningStatus = ctx.runningStatus ∧ (applyContext mc ctx e).2.casio = ctx.casio := by
  unfold applyContext
  split <;> simp [Context.useFlats, Context.useSharps, Context.bankSelect, Context.putNoteOn]
  · split <;> simp
  · constructor <;> (split <;> split <;> simp)

theorem applyContext_event (mc : MiddleC) (ctx : Context) (e : Event) :
    (applyContext mc ctx e).1.delta = e.delta ∧ (applyContext mc ctx e).1.tick = e.tick ∧
    (applyContext mc ctx e).1.bytes = e.bytes ∧ (applyContext mc ctx e).1.body.view = e.body.view := by
  unfold applyContext
  split <;> simp_all [Body.view]

theorem framed_rs {rs raw bs rs'} (h : Framed 1 rs raw bs rs') (ctx : Context) :
    GoodRS (ctxAfter ctx raw).runningStatus ∧ rsOf (ctxAfter ctx raw).runningStatus = rs' := by
  cases h with
  | full h1 h2 =>
    obtain ⟨h3, h4⟩ := h1
    exact ⟨Or.inr ⟨h3, h4⟩, rsOf_eq (by rw [u8_lt_80]; exact Nat.not_lt.2 h3)⟩
  | running h1 h2 _ =>
    obtain ⟨h3, h4⟩ := h1
    exact ⟨Or.inr ⟨h3, h4⟩, rsOf_eq (by rw [u8_lt_80]; exact Nat.not_lt.2 h3)⟩
  | metaEvent _ => exact ⟨Or.inl (by simp [ctxAfter]), by simp [ctxAfter, rsOf]⟩
  | sysex h _ => exact ⟨Or.inl (by simp [ctxAfter]), by simp [ctxAfter, rsOf]⟩

theorem ctxAfter_casio (ctx : Context) (raw : Raw) : (ctxAfter ctx raw).casio = pendingAfter ctx.casio raw := by
  cases raw <;> rfl

/-- The loop over a framed track followed by anything. -/
theorem trackLoop_append (mc : MiddleC) (spare : Bytes) (items : List Item) (tail : Bytes) (fuel : Nat) (tick : UInt32)
    (ctx : Context) (rs' : Option UInt8) (h : FramedTrack 1 (rsOf ctx.runningStatus) items rs') :
    trackLoop mc spare (items.length + fuel) (trackBytes items ++ tail) tick ctx =
      (loopItems mc tick ctx items >>= fun p =>
        trackLoop mc spare fuel tail (items.foldl (fun t i => t + i.delta) tick) p.2 >>= fun q =>
          .ok (p.1 ++ q.1, q.2)) := by
  induction items generalizing tick ctx with
  | nil =>
    simp only [trackBytes, List.map_nil, List.flatten_nil, List.nil_append, List.length_nil, Nat.zero_add, loopItems,
      Outcome.bind_ok, List.foldl_nil]
    cases trackLoop mc spare fuel tail tick ctx <;> rfl
  | cons i is ih =>
    cases h with
    | @cons _ rs1 _ _ _ hi his =>
      have hp := parseEvent_framed mc spare (trackBytes is ++ tail) tick ctx i rs1 hi
      obtain ⟨db, eb, hb, hq, hf⟩ := hi
      have hlen : (i :: is).length + fuel = (is.length + fuel) + 1 := by simp; omega
      have hbytes : trackBytes (i :: is) ++ tail = i.bytes ++ (trackBytes is ++ tail) := by simp [trackBytes]
      rw [hlen, hbytes, trackLoop, hp, loopItems]
      have herr := bodyOutcome_err mc ctx.casio i.raw
      cases hbo : bodyOutcome mc ctx.casio i.raw with
      | err e =>
        have := herr e hbo
        subst this
        rfl
      | panic => rfl
      | diverge => rfl
      | ok b =>
        simp only [Outcome.bind_ok]
        obtain ⟨hrs1, hrs2⟩ := framed_rs hf ctx
        obtain ⟨hc1, hc2⟩ := applyContext_ctx mc (ctxAfter ctx i.raw) (mkEvent tick i b)
        have := ih (tick + i.delta) (applyContext mc (ctxAfter ctx i.raw) (mkEvent tick i b)).2
          (by rw [hc1, hrs2]; exact his)
        have hd : (mkEvent tick i b).delta = i.delta := rfl
        rw [hd, this]
        cases loopItems mc (tick + i.delta) (applyContext mc (ctxAfter ctx i.raw) (mkEvent tick i b)).2 is with
        | ok p =>
          simp only [Outcome.bind_ok, List.foldl_cons]
          cases trackLoop mc spare fuel tail (is.foldl (fun t i => t + i.delta) (tick + i.delta)) p.2 <;> rfl
        | _ => rfl

/-- Framed items take at least two bytes. -/
theorem framedItem_length {polyLen rs i rs'} (h : FramedItem polyLen rs i rs') : 2 ≤ i.bytes.length := by
  obtain ⟨db, eb, hb, ⟨⟨init, last, rfl, _⟩, _⟩, hf⟩ := h
  rw [hb]
  generalize i.raw = raw at hf
  cases hf <;> simp <;> omega

/-- Every input splits into framed events and a tail that is not a framed event. -/
theorem split_track (rs : UInt8) (hrs : GoodRS rs) (inp : Bytes) :
    ∃ items tail rs', inp = trackBytes items ++ tail ∧ FramedTrack 1 (rsOf rs) items (rsOf rs') ∧ GoodRS rs' ∧
      items.length ≤ inp.length ∧
      (Truncated 1 (rsOf rs') tail ∨ Orphan (rsOf rs') tail ∨ SystemStatus tail) := by
  generalize hn : inp.length = n
  induction n using Nat.strongRecOn generalizing inp rs with
  | _ n ih =>
    have hc := parseEvent_cases .c3 [] 0 { newContext with runningStatus := rs } hrs inp
    simp only at hc
    rcases hc with ⟨i, rest, rs1, rfl, hi⟩ | ⟨h, _⟩ | ⟨h, _⟩ | ⟨h, _⟩
    · have hl := framedItem_length hi
      have hi' := hi
      obtain ⟨db, eb, hb, hq, hf⟩ := hi'
      obtain ⟨hg, hr⟩ := framed_rs hf newContext
      obtain ⟨items, tail, rs', rfl, hft, hg', hll, ht⟩ := ih rest.length (by simp at hn; omega)
        (ctxAfter newContext i.raw).runningStatus hg rest rfl
      refine ⟨i :: items, tail, rs', by simp [trackBytes], ?_, hg', ?_, ht⟩
      · rw [hr] at hft
        exact FramedTrack.cons hi hft
      · simp at hn hll ⊢; omega
    · exact ⟨[], inp, rs, by simp [trackBytes], FramedTrack.nil, hrs, by simp, Or.inl h⟩
    · exact ⟨[], inp, rs, by simp [trackBytes], FramedTrack.nil, hrs, by simp, Or.inr (Or.inl h)⟩
    · exact ⟨[], inp, rs, by simp [trackBytes], FramedTrack.nil, hrs, by simp, Or.inr (Or.inr h)⟩

theorem framedTrack_wf {rs items rs'} (h : FramedTrack 1 rs items rs') : ∀ i ∈ items, WfRaw i.raw := by
  induction h with
  | nil => simp
  | cons hi _ ih =>
    obtain ⟨db, eb, hb, hq, hf⟩ := hi
    intro j hj
    rcases List.mem_cons.1 hj with rfl | hj
    · exact wfRaw_of_framed hf
    · exact ih j hj

theorem framedTrack_append {rs rs1 rs' items items'} (h : FramedTrack 1 rs items rs1) (h' : FramedTrack 1 rs1 items' rs') :
    FramedTrack 1 rs (items ++ items') rs' := by
  induction h with
  | nil => exact h'
  | cons hi _ ih => exact .cons hi (ih h')

/-- The ticks the loop assigns: the 32-bit running sum before the event plus its delta time. -/
def loopTicks : UInt32 → List UInt32 → List UInt64
  | _, [] => []
  | t, d :: ds => (t.toUInt64 + d.toUInt64) :: loopTicks (t + d) ds

theorem loopItems_some (mc : MiddleC) (tick : UInt32) (ctx : Context) (items : List Item) (wf : ∀ i ∈ items, WfRaw i.raw)
    (cs : List Content) (h : meanings ctx.casio (items.map Item.raw) = some cs) :
    ∃ es c, loopItems mc tick ctx items = .ok (es, c) ∧ es.map (·.body.view) = cs.map asShown ∧
      es.map Event.delta = items.map Item.delta ∧ es.map Event.bytes = items.map Item.bytes ∧
      es.map Event.tick = loopTicks tick (items.map Item.delta) ∧
      c.casio = pendingAll ctx.casio (items.map Item.raw) := by
  induction items generalizing tick ctx cs with
  | nil =>
    simp [meanings] at h
    subst h
    exact ⟨[], ctx, rfl, rfl, rfl, rfl, rfl, rfl⟩
  | cons i is ih =>
    simp only [List.map_cons, meanings] at h
    split at h
    · rename_i c cs' hc hcs
      simp at h
      subst h
      obtain ⟨b, hb, hv⟩ := (body_meaning mc ctx.casio i.raw (wf i (by simp))).1 c hc
      obtain ⟨hx1, hx2⟩ := applyContext_ctx mc (ctxAfter ctx i.raw) (mkEvent tick i b)
      obtain ⟨he1, he2, he3, he4⟩ := applyContext_event mc (ctxAfter ctx i.raw) (mkEvent tick i b)
      have hcas : (applyContext mc (ctxAfter ctx i.raw) (mkEvent tick i b)).2.casio = pendingAfter ctx.casio i.raw := by
        rw [hx2, ctxAfter_casio]
      obtain ⟨es, c', h1, h2, h3, h4, h5, h6⟩ := ih (tick + i.delta) (applyContext mc (ctxAfter ctx i.raw) (mkEvent tick i b)).2
        (fun j hj => wf j (by simp [hj])) cs' (by rw [hcas]; exact hcs)
      refine ⟨(applyContext mc (ctxAfter ctx i.raw) (mkEvent tick i b)).1 :: es, c', ?_, ?_, ?_, ?_, ?_, ?_⟩
      · rw [loopItems, hb]
        simp only [Outcome.bind_ok, h1]
      · simp only [List.map_cons, h2, he4]
        have : (mkEvent tick i b).body = b := rfl
        rw [this, hv]
      · simp only [List.map_cons, h3, he1]; rfl
      · simp only [List.map_cons, h4, he3]; rfl
      · simp only [List.map_cons, h5, he2, loopTicks]; rfl
      · rw [h6, hcas]; rfl
    · simp at h

/-- The first event without a meaning decides how decoding fails. -/
theorem loopItems_none (mc : MiddleC) (tick : UInt32) (ctx : Context) (items : List Item) (wf : ∀ i ∈ items, WfRaw i.raw)
    (h : meanings ctx.casio (items.map Item.raw) = none) :
    ∃ pre i post, items = pre ++ i :: post ∧ (meanings ctx.casio (pre.map Item.raw)).isSome = true ∧
      meaning (pendingAll ctx.casio (pre.map Item.raw)) i.raw = none ∧
      ((RefusedSysEx (pendingAll ctx.casio (pre.map Item.raw)) i.raw ∧ loopItems mc tick ctx items = .err .other) ∨
       (¬ RefusedSysEx (pendingAll ctx.casio (pre.map Item.raw)) i.raw ∧ loopItems mc tick ctx items = .panic)) := by
  induction items generalizing tick ctx with
  | nil => simp [meanings] at h
  | cons i is ih =>
    cases hc : meaning ctx.casio i.raw with
    | none =>
      refine ⟨[], i, is, rfl, by simp [meanings], hc, ?_⟩
      rcases (body_meaning mc ctx.casio i.raw (wf i (by simp))).2 hc with ⟨h1, h2⟩ | ⟨h1, h2⟩
      · left; exact ⟨h1, by rw [loopItems, h2]; rfl⟩
      · right; exact ⟨h1, by rw [loopItems, h2]; rfl⟩
    | some c =>
      simp only [List.map_cons, meanings, hc] at h
      have hn : meanings (pendingAfter ctx.casio i.raw) (is.map Item.raw) = none := by
        cases hm : meanings (pendingAfter ctx.casio i.raw) (is.map Item.raw) with
        | none => rfl
        | some cs => rw [hm] at h; simp at h
      obtain ⟨b, hb, hv⟩ := (body_meaning mc ctx.casio i.raw (wf i (by simp))).1 c hc
      obtain ⟨hx1, hx2⟩ := applyContext_ctx mc (ctxAfter ctx i.raw) (mkEvent tick i b)
      have hcas : (applyContext mc (ctxAfter ctx i.raw) (mkEvent tick i b)).2.casio = pendingAfter ctx.casio i.raw := by
        rw [hx2, ctxAfter_casio]
      obtain ⟨pre, j, post, h1, h2, h3, h4⟩ := ih (tick + i.delta) (applyContext mc (ctxAfter ctx i.raw) (mkEvent tick i b)).2
        (fun j hj => wf j (by simp [hj])) (by rw [hcas]; exact hn)
      rw [hcas] at h2 h3 h4
      refine ⟨i :: pre, j, post, by rw [h1]; rfl, ?_, h3, ?_⟩
      · simp only [List.map_cons, meanings, hc]
        cases hm : meanings (pendingAfter ctx.casio i.raw) (pre.map Item.raw) with
        | none => rw [hm] at h2; simp at h2
        | some cs => rfl
      · rcases h4 with ⟨ha, hb'⟩ | ⟨ha, hb'⟩
        · left; exact ⟨ha, by rw [loopItems, hb]; simp only [Outcome.bind_ok]; rw [hb']; rfl⟩
        · right; exact ⟨ha, by rw [loopItems, hb]; simp only [Outcome.bind_ok]; rw [hb']; rfl⟩

/-- The tail that ends a track: what the loop returns there. -/
theorem trackLoop_tail (mc : MiddleC) (spare : Bytes) (fuel : Nat) (tail : Bytes) (tick : UInt32) (ctx : Context)
    (hrs : GoodRS ctx.runningStatus) :
    (Truncated 1 (rsOf ctx.runningStatus) tail → trackLoop mc spare (fuel + 1) tail tick ctx = .ok ([], ctx)) ∧
    (Orphan (rsOf ctx.runningStatus) tail → trackLoop mc spare (fuel + 1) tail tick ctx = .err .other) ∧
    (SystemStatus tail → trackLoop mc spare (fuel + 1) tail tick ctx = .panic) := by
  have hc := parseEvent_cases mc spare tick ctx hrs tail
  have key : (Truncated 1 (rsOf ctx.runningStatus) tail → parseEvent mc tail spare tick ctx = .err .eof) ∧
      (Orphan (rsOf ctx.runningStatus) tail → parseEvent mc tail spare tick ctx = .err .other) ∧
      (SystemStatus tail → parseEvent mc tail spare tick ctx = .panic) := by
    rcases hc with ⟨i, rest, rs1, rfl, hi⟩ | ⟨h, hp⟩ | ⟨h, hp⟩ | ⟨h, hp⟩
    · exact ⟨fun h => absurd h (not_truncated_of_framed hi),
        fun h => absurd h (not_orphan_of_framed (x := rest) (y := []) hi (by simp)),
        fun h => absurd h (not_system_of_framed (x := rest) (y := []) hi (by simp))⟩
    · exact ⟨fun _ => hp, fun h' => absurd h (not_truncated_of_orphan h'), fun h' => absurd h (not_truncated_of_system h')⟩
    · exact ⟨fun h' => absurd h' (not_truncated_of_orphan h), fun _ => hp, fun h' => absurd h (not_orphan_of_system h')⟩
    · exact ⟨fun h' => absurd h' (not_truncated_of_system h), fun h' => absurd h' (not_orphan_of_system h), fun _ => hp⟩
  refine ⟨fun h => ?_, fun h => ?_, fun h => ?_⟩
  · rw [trackLoop, key.1 h]
  · rw [trackLoop, key.2.1 h]
  · rw [trackLoop, key.2.2 h]

theorem loopItems_rs (mc : MiddleC) {rs : Option UInt8} {items : List Item} {rs' : Option UInt8} (h : FramedTrack 1 rs items rs')
    (tick : UInt32) (ctx : Context) (hg : GoodRS ctx.runningStatus) (hr : rsOf ctx.runningStatus = rs)
    (es : List Event) (c : Context) (hl : loopItems mc tick ctx items = .ok (es, c)) :
    GoodRS c.runningStatus ∧ rsOf c.runningStatus = rs' := by
  induction h generalizing tick ctx es c with
  | nil =>
    simp [loopItems] at hl
    rw [← hl.2]
    exact ⟨hg, hr⟩
  | @cons rs rs1 rs2 i is hi _ ih =>
    obtain ⟨db, eb, hb, hq, hf⟩ := hi
    obtain ⟨h1, h2⟩ := framed_rs hf ctx
    rw [loopItems] at hl
    cases hbo : bodyOutcome mc ctx.casio i.raw with
    | ok b =>
      rw [hbo] at hl
      simp only [Outcome.bind_ok] at hl
      obtain ⟨hx1, hx2⟩ := applyContext_ctx mc (ctxAfter ctx i.raw) (mkEvent tick i b)
      cases hrest : loopItems mc (tick + i.delta) (applyContext mc (ctxAfter ctx i.raw) (mkEvent tick i b)).2 is with
      | ok p =>
        rw [hrest] at hl
        simp at hl
        rw [← hl.2]
        exact ih (tick + i.delta) _ (by rw [hx1]; exact h1) (by rw [hx1]; exact h2) p.1 p.2 hrest
      | err e => rw [hrest] at hl; simp at hl
      | panic => rw [hrest] at hl; simp at hl
      | diverge => rw [hrest] at hl; simp at hl
    | err e => rw [hbo] at hl; simp at hl
    | panic => rw [hbo] at hl; simp at hl
    | diverge => rw [hbo] at hl; simp at hl

/-- Decoding a track body, as the decoder does. -/
def decodeBody (mc : MiddleC) (spare body : Bytes) : Outcome (List Event × Context) :=
  trackLoop mc spare (body.length + 1) body 0 newContext

theorem framedTrack_length {polyLen rs items rs'} (h : FramedTrack polyLen rs items rs') :
    2 * items.length ≤ (trackBytes items).length := by
  induction h with
  | nil => simp
  | cons hi _ ih =>
    have := framedItem_length hi
    simp [trackBytes] at ih ⊢
    omega

/-- The loop on any body, in terms of its split into framed events and a tail. -/
theorem decodeBody_eq (mc : MiddleC) (spare : Bytes) (items : List Item) (tail : Bytes) (rs' : Option UInt8)
    (h : FramedTrack 1 none items rs')
    (ht : Truncated 1 rs' tail ∨ Orphan rs' tail ∨ SystemStatus tail) :
    decodeBody mc spare (trackBytes items ++ tail) =
      loopItems mc 0 newContext items >>= fun p =>
        (trackLoop mc spare 1 tail (items.foldl (fun t i => t + i.delta) 0) p.2) >>= fun q => .ok (p.1 ++ q.1, q.2) := by
  have hlen : items.length ≤ (trackBytes items ++ tail).length := by
    have := framedTrack_length h
    simp; omega
  obtain ⟨f, hf⟩ : ∃ f, (trackBytes items ++ tail).length + 1 = items.length + (f + 1) :=
    ⟨(trackBytes items ++ tail).length - items.length, by omega⟩
  have hg0 : GoodRS newContext.runningStatus := Or.inl (by decide)
  have hr0 : rsOf newContext.runningStatus = none := rfl
  rw [decodeBody, hf, trackLoop_append mc spare items tail (f + 1) 0 newContext rs' (by rw [hr0]; exact h)]
  cases hl : loopItems mc 0 newContext items with
  | ok p =>
    simp only [Outcome.bind_ok]
    obtain ⟨hg, hr⟩ := loopItems_rs mc h 0 newContext hg0 hr0 p.1 p.2 hl
    have t1 := fun fuel => trackLoop_tail mc spare fuel tail (items.foldl (fun t i => t + i.delta) 0) p.2 hg
    rw [hr] at t1
    rcases ht with ht | ht | ht
    · rw [(t1 f).1 ht, (t1 0).1 ht]
    · rw [(t1 f).2.1 ht, (t1 0).2.1 ht]
    · rw [(t1 f).2.2 ht, (t1 0).2.2 ht]
  | _ => rfl

/-- The possible results of decoding any track body. -/
theorem decodeBody_cases (mc : MiddleC) (spare body : Bytes) :
    ∃ items tail rs', body = trackBytes items ++ tail ∧ FramedTrack 1 none items rs' ∧
      ((∃ cs es c, meanings false (items.map Item.raw) = some cs ∧ loopItems mc 0 newContext items = .ok (es, c) ∧
          es.map (·.body.view) = cs.map asShown ∧ es.map Event.delta = items.map Item.delta ∧
          es.map Event.bytes = items.map Item.bytes ∧ es.map Event.tick = loopTicks 0 (items.map Item.delta) ∧
          ((Truncated 1 rs' tail ∧ decodeBody mc spare body = .ok (es, c)) ∨
           (Orphan rs' tail ∧ decodeBody mc spare body = .err .other) ∨
           (SystemStatus tail ∧ decodeBody mc spare body = .panic))) ∨
       (∃ pre i post, items = pre ++ i :: post ∧ (meanings false (pre.map Item.raw)).isSome = true ∧
          meaning (pendingAll false (pre.map Item.raw)) i.raw = none ∧
          ((RefusedSysEx (pendingAll false (pre.map Item.raw)) i.raw ∧ decodeBody mc spare body = .err .other) ∨
           (¬ RefusedSysEx (pendingAll false (pre.map Item.raw)) i.raw ∧ decodeBody mc spare body = .panic)))) := by
  have hg0 : GoodRS newContext.runningStatus := Or.inl (by decide)
  obtain ⟨items, tail, rs', rfl, hft, hg', _, ht⟩ := split_track 0 (Or.inl (by decide)) body
  have hft' : FramedTrack 1 none items (rsOf rs') := hft
  have heq := decodeBody_eq mc spare items tail (rsOf rs') hft' ht
  have hwf := framedTrack_wf hft'
  refine ⟨items, tail, rsOf rs', rfl, hft', ?_⟩
  cases hm : meanings false (items.map Item.raw) with
  | some cs =>
    left
    obtain ⟨es, c, h1, h2, h3, h4, h5, h6⟩ := loopItems_some mc 0 newContext items hwf cs hm
    refine ⟨cs, es, c, rfl, h1, h2, h3, h4, h5, ?_⟩
    obtain ⟨hg, hr⟩ := loopItems_rs mc hft' 0 newContext hg0 rfl es c h1
    have t1 := trackLoop_tail mc spare 0 tail (items.foldl (fun t i => t + i.delta) 0) c hg
    rw [hr] at t1
    rw [heq, h1]
    simp only [Outcome.bind_ok]
    rcases ht with ht | ht | ht
    · left; refine ⟨ht, ?_⟩; rw [t1.1 ht]; simp
    · right; left; refine ⟨ht, ?_⟩; rw [t1.2.1 ht]; rfl
    · right; right; refine ⟨ht, ?_⟩; rw [t1.2.2 ht]; rfl
  | none =>
    right
    obtain ⟨pre, i, post, h1, h2, h3, h4⟩ := loopItems_none mc 0 newContext items hwf hm
    refine ⟨pre, i, post, h1, h2, h3, ?_⟩
    rcases h4 with ⟨ha, hb⟩ | ⟨ha, hb⟩
    · left; exact ⟨ha, by rw [heq, hb]; rfl⟩
    · right; exact ⟨ha, by rw [heq, hb]; rfl⟩

end Midiasm
