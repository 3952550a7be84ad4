import Verif.Lemmas.File

/-!
Track level consequences of `decodeBody_cases`.
-/

set_option linter.unusedSimpArgs false

namespace Midiasm
open Spec

theorem unmarshalMTrk_ok (mc : MiddleC) (spare : Bytes) (n : Nat) (c : Chunk) (wf : c.Wf) (ht : c.tag = tagMTrk) (t : MTrk) :
    unmarshalMTrk mc spare n c.bytes = .ok t ↔
      decodeBody mc spare c.body = .ok (t.events, t.context) ∧ t.tag = tagMTrk ∧ t.trackNumber = n ∧
      t.length = UInt32.ofNat c.body.length ∧ t.bytes = c.bytes := by
  rw [unmarshalMTrk_chunk mc spare n c wf ht]
  constructor
  · intro h
    cases hd : decodeBody mc spare c.body with
    | ok p =>
      rw [hd, Outcome.bind_ok] at h
      injection h with h
      subst h
      exact ⟨rfl, rfl, rfl, rfl, rfl⟩
    | err e => rw [hd] at h; cases h
    | panic => rw [hd] at h; cases h
    | diverge => rw [hd] at h; cases h
  · rintro ⟨h1, h2, h3, h4, h5⟩
    rw [h1, Outcome.bind_ok]
    obtain ⟨_, _, _, _, _, _⟩ := t
    simp only at *
    subst h2 h3 h4 h5
    rfl

theorem unmarshalMTrk_err (mc : MiddleC) (spare : Bytes) (n : Nat) (c : Chunk) (wf : c.Wf) (ht : c.tag = tagMTrk) (e : Err) :
    unmarshalMTrk mc spare n c.bytes = .err e ↔ decodeBody mc spare c.body = .err e := by
  rw [unmarshalMTrk_chunk mc spare n c wf ht]
  cases decodeBody mc spare c.body <;> simp

theorem unmarshalMTrk_panic (mc : MiddleC) (spare : Bytes) (n : Nat) (c : Chunk) (wf : c.Wf) (ht : c.tag = tagMTrk) :
    unmarshalMTrk mc spare n c.bytes = .panic ↔ decodeBody mc spare c.body = .panic := by
  rw [unmarshalMTrk_chunk mc spare n c wf ht]
  cases decodeBody mc spare c.body <;> simp

theorem pendingAll_append (p : Bool) (a b : List Raw) : pendingAll p (a ++ b) = pendingAll (pendingAll p a) b := by
  simp [pendingAll]

theorem meanings_append (p : Bool) (a b : List Raw) :
    meanings p (a ++ b) =
      match meanings p a, meanings (pendingAll p a) b with
      | some x, some y => some (x ++ y)
      | _, _ => none := by
  induction a generalizing p with
  | nil => simp [meanings, pendingAll]; cases meanings p b <;> rfl
  | cons r a ih =>
    simp only [List.cons_append, meanings, ih]
    have : pendingAll p (r :: a) = pendingAll (pendingAfter p r) a := rfl
    rw [this]
    cases meaning p r <;> cases meanings (pendingAfter p r) a <;> cases meanings (pendingAll (pendingAfter p r) a) b <;> rfl

theorem meanings_length {p : Bool} {raws : List Raw} {cs : List Content} (h : meanings p raws = some cs) :
    cs.length = raws.length := by
  induction raws generalizing p cs with
  | nil => simp [meanings] at h; subst h; rfl
  | cons r raws ih =>
    simp only [meanings] at h
    split at h
    · rename_i c cs' h1 h2
      injection h with h
      subst h
      simp [ih h2]
    · cases h

theorem meanings_get {p : Bool} {raws : List Raw} {cs : List Content} (h : meanings p raws = some cs) (k : Nat) (r : Raw)
    (hr : raws[k]? = some r) : ∃ c, cs[k]? = some c ∧ meaning (pendingAll p (raws.take k)) r = some c := by
  induction raws generalizing p cs k with
  | nil => simp at hr
  | cons r' raws ih =>
    simp only [meanings] at h
    split at h
    · rename_i c cs' h1 h2
      injection h with h
      subst h
      cases k with
      | zero => simp at hr; subst hr; exact ⟨c, by simp, by simpa [pendingAll] using h1⟩
      | succ k =>
        obtain ⟨c', h3, h4⟩ := ih h2 k (by simpa using hr)
        exact ⟨c', by simpa using h3, by simpa [pendingAll] using h4⟩
    · cases h

/-- The first event of a list that has no meaning decides how the loop stops. -/
theorem loopItems_stop (mc : MiddleC) (tick : UInt32) (ctx : Context) (pre : List Item) (i : Item)
    (wf : ∀ x ∈ pre ++ [i], WfRaw x.raw) (h1 : (meanings ctx.casio (pre.map Item.raw)).isSome = true)
    (h2 : meaning (pendingAll ctx.casio (pre.map Item.raw)) i.raw = none) :
    (RefusedSysEx (pendingAll ctx.casio (pre.map Item.raw)) i.raw ∧ loopItems mc tick ctx (pre ++ [i]) = .err .other) ∨
    (¬ RefusedSysEx (pendingAll ctx.casio (pre.map Item.raw)) i.raw ∧ loopItems mc tick ctx (pre ++ [i]) = .panic) := by
  have hn : meanings ctx.casio ((pre ++ [i]).map Item.raw) = none := by
    rw [List.map_append, meanings_append]
    cases hm : meanings ctx.casio (pre.map Item.raw) with
    | none => rfl
    | some x => simp [meanings, h2]
  obtain ⟨pre', i', post', he, h3, h4, h5⟩ := loopItems_none mc tick ctx (pre ++ [i]) wf hn
  have hpost : post' = [] := by
    cases hpl : post' with
    | nil => rfl
    | cons x xs =>
      exfalso
      subst hpl
      obtain ⟨ys, y, hy⟩ : ∃ ys y, x :: xs = ys ++ [y] :=
        ⟨(x :: xs).dropLast, (x :: xs).getLast (by simp), (List.dropLast_concat_getLast _).symm⟩
      rw [hy] at he
      have he' : pre ++ [i] = (pre' ++ i' :: ys) ++ [y] := by rw [he]; simp
      obtain ⟨e1, _⟩ := List.append_inj' he' rfl
      rw [e1, List.map_append, meanings_append] at h1
      rw [List.map_cons] at h1
      cases hm : meanings ctx.casio (pre'.map Item.raw) with
      | none => rw [hm] at h1; simp at h1
      | some z =>
        rw [hm] at h1
        simp only [meanings, h4] at h1
        simp at h1
  subst hpost
  obtain ⟨e1, e2⟩ := List.append_inj' he rfl
  injection e2 with e2
  subst e1 e2
  exact h5

/-- The decoder on framed events followed by an event without meaning and anything after it. -/
theorem decodeBody_stop (mc : MiddleC) (spare : Bytes) (pre : List Item) (i : Item) (rs' : Option UInt8) (rest : Bytes)
    (h : FramedTrack 1 none (pre ++ [i]) rs') (h1 : (meanings false (pre.map Item.raw)).isSome = true)
    (h2 : meaning (pendingAll false (pre.map Item.raw)) i.raw = none) :
    (RefusedSysEx (pendingAll false (pre.map Item.raw)) i.raw ∧
      decodeBody mc spare (trackBytes (pre ++ [i]) ++ rest) = .err .other) ∨
    (¬ RefusedSysEx (pendingAll false (pre.map Item.raw)) i.raw ∧
      decodeBody mc spare (trackBytes (pre ++ [i]) ++ rest) = .panic) := by
  have hlen := framedTrack_length h
  obtain ⟨f, hf⟩ : ∃ f, (trackBytes (pre ++ [i]) ++ rest).length + 1 = (pre ++ [i]).length + f :=
    ⟨(trackBytes (pre ++ [i]) ++ rest).length + 1 - (pre ++ [i]).length, by simp at hlen ⊢; omega⟩
  have happ := trackLoop_append mc spare (pre ++ [i]) rest f 0 newContext rs' h
  rw [decodeBody, hf, happ]
  rcases loopItems_stop mc 0 newContext pre i (framedTrack_wf h) h1 h2 with ⟨h3, h4⟩ | ⟨h3, h4⟩
  · exact Or.inl ⟨h3, by rw [h4]; rfl⟩
  · exact Or.inr ⟨h3, by rw [h4]; rfl⟩

/-- The decoder on framed events with meanings followed by any tail that is not an event. -/
theorem decodeBody_tail (mc : MiddleC) (spare : Bytes) (items : List Item) (rs' : Option UInt8) (tail : Bytes)
    (h : FramedTrack 1 none items rs') (cs : List Content) (hm : meanings false (items.map Item.raw) = some cs) :
    ∃ es c, es.map (·.body.view) = cs.map asShown ∧ es.map Event.delta = items.map Item.delta ∧
      es.map Event.bytes = items.map Item.bytes ∧ es.map Event.tick = loopTicks 0 (items.map Item.delta) ∧
      loopItems mc 0 newContext items = .ok (es, c) ∧
      (Truncated 1 rs' tail → decodeBody mc spare (trackBytes items ++ tail) = .ok (es, c)) ∧
      (Orphan rs' tail → decodeBody mc spare (trackBytes items ++ tail) = .err .other) ∧
      (SystemStatus tail → decodeBody mc spare (trackBytes items ++ tail) = .panic) := by
  obtain ⟨es, c, h1, h2, h3, h4, h5, _⟩ := loopItems_some mc 0 newContext items (framedTrack_wf h) cs hm
  have hg0 : GoodRS newContext.runningStatus := Or.inl (by decide)
  obtain ⟨hg, hr⟩ := loopItems_rs mc h 0 newContext hg0 rfl es c h1
  obtain ⟨t1, t2, t3⟩ := trackLoop_tail mc spare 0 tail (items.foldl (fun t i => t + i.delta) 0) c hg
  rw [hr] at t1 t2
  refine ⟨es, c, h2, h3, h4, h5, h1, fun ht => ?_, fun ht => ?_, fun ht => ?_⟩
  · rw [decodeBody_eq mc spare items tail rs' h (Or.inl ht), h1, Outcome.bind_ok, t1 ht]
    simp
  · rw [decodeBody_eq mc spare items tail rs' h (Or.inr (Or.inl ht)), h1, Outcome.bind_ok, t2 ht]
    rfl
  · rw [decodeBody_eq mc spare items tail rs' h (Or.inr (Or.inr ht)), h1, Outcome.bind_ok, t3 ht]
    rfl

/-- The empty string is a truncated event. -/
theorem truncated_nil (rs : Option UInt8) : Truncated 1 rs [] :=
  ⟨[0, 0xff, 0x2f, 0], ⟨0, .metaEvent 0x2f [], [0, 0xff, 0x2f, 0]⟩, none, by simp,
    ⟨[0], [0xff, 0x2f, 0], rfl, ⟨⟨[], 0, rfl, by simp, by decide⟩, by decide⟩,
      .metaEvent (len := [0]) (data := []) ⟨⟨[], 0, rfl, by simp, by decide⟩, by decide⟩⟩, rfl⟩

/-- Ticks when the total fits in 32 bits. -/
theorem loopTicks_sum (t : UInt32) (ds : List UInt32) (h : t.toNat + (ds.map UInt32.toNat).sum < 2 ^ 32) (k : Nat)
    (hk : k < ds.length) :
    ∃ x, (loopTicks t ds)[k]? = some x ∧ x.toNat = t.toNat + ((ds.take (k + 1)).map UInt32.toNat).sum := by
  induction ds generalizing t k with
  | nil => simp at hk
  | cons d ds ih =>
    simp only [List.map_cons, List.sum_cons] at h
    cases k with
    | zero => exact ⟨_, by simp [loopTicks]; rfl, by simp; omega⟩
    | succ k =>
      have e : (t + d).toNat = t.toNat + d.toNat := by
        rw [UInt32.toNat_add]; omega
      obtain ⟨x, h1, h2⟩ := ih (t + d) (by rw [e]; omega) k (by simpa using hk)
      exact ⟨x, by simpa [loopTicks] using h1, by rw [h2, e]; simp; omega⟩

theorem loopTicks_length (t : UInt32) (ds : List UInt32) : (loopTicks t ds).length = ds.length := by
  induction ds generalizing t with
  | nil => rfl
  | cons d ds ih => simp [loopTicks, ih]

/-- Exact ticks: the sum of the earlier delta times modulo 2^32, plus the event's own delta time. -/
theorem loopTicks_exact (t : UInt32) (ds : List UInt32) (k : Nat) (d : UInt32) (hd : ds[k]? = some d) :
    ∃ x, (loopTicks t ds)[k]? = some x ∧
      x.toNat = (t.toNat + ((ds.take k).map UInt32.toNat).sum) % 2 ^ 32 + d.toNat := by
  induction ds generalizing t k with
  | nil => simp at hd
  | cons d' ds ih =>
    cases k with
    | zero =>
      simp at hd
      subst hd
      refine ⟨_, by simp [loopTicks]; rfl, ?_⟩
      have := t.toNat_lt
      have := d'.toNat_lt
      simp; omega
    | succ k =>
      obtain ⟨x, h1, h2⟩ := ih (t + d') k (by simpa using hd)
      refine ⟨x, by simpa [loopTicks] using h1, ?_⟩
      rw [h2, UInt32.toNat_add]
      simp; omega

/-- Apart from the recorded bytes the result depends on the delta times and events only. -/
theorem loopItems_congr (mc : MiddleC) (tick : UInt32) (ctx : Context) (items items' : List Item)
    (h : items.map (fun i => (i.delta, i.raw)) = items'.map (fun i => (i.delta, i.raw))) :
    (∃ es es' c, loopItems mc tick ctx items = .ok (es, c) ∧ loopItems mc tick ctx items' = .ok (es', c) ∧
      es.map (fun e => (e.tick, e.delta, e.body)) = es'.map (fun e => (e.tick, e.delta, e.body))) ∨
    (∃ e, loopItems mc tick ctx items = .err e ∧ loopItems mc tick ctx items' = .err e) ∨
    (loopItems mc tick ctx items = .panic ∧ loopItems mc tick ctx items' = .panic) ∨
    (loopItems mc tick ctx items = .diverge ∧ loopItems mc tick ctx items' = .diverge) := by
  induction items generalizing tick ctx items' with
  | nil =>
    cases items' with
    | nil => exact Or.inl ⟨[], [], ctx, rfl, rfl, rfl⟩
    | cons => simp at h
  | cons i is ih =>
    cases items' with
    | nil => simp at h
    | cons i' is' =>
      obtain ⟨d, r, b⟩ := i
      obtain ⟨d', r', b'⟩ := i'
      simp only [List.map_cons, List.cons.injEq, Prod.mk.injEq] at h
      obtain ⟨⟨rfl, rfl⟩, h⟩ := h
      simp only [loopItems]
      cases bodyOutcome mc ctx.casio r with
      | ok body =>
        simp only [Outcome.bind_ok]
        have e1 : (applyContext mc (ctxAfter ctx r) (mkEvent tick ⟨d, r, b⟩ body)).2 =
            (applyContext mc (ctxAfter ctx r) (mkEvent tick ⟨d, r, b'⟩ body)).2 := by
          unfold applyContext; simp only [mkEvent]; cases body <;> rfl
        have e2 : (applyContext mc (ctxAfter ctx r) (mkEvent tick ⟨d, r, b⟩ body)).1.body =
            (applyContext mc (ctxAfter ctx r) (mkEvent tick ⟨d, r, b'⟩ body)).1.body := by
          unfold applyContext; simp only [mkEvent]; cases body <;> rfl
        obtain ⟨a1, a2, _⟩ := applyContext_event mc (ctxAfter ctx r) (mkEvent tick ⟨d, r, b⟩ body)
        obtain ⟨b1, b2, _⟩ := applyContext_event mc (ctxAfter ctx r) (mkEvent tick ⟨d, r, b'⟩ body)
        have e3 : (mkEvent tick ⟨d, r, b⟩ body).delta = (mkEvent tick ⟨d, r, b'⟩ body).delta := rfl
        have e4 : (mkEvent tick ⟨d, r, b⟩ body).tick = (mkEvent tick ⟨d, r, b'⟩ body).tick := rfl
        rw [e1]
        rcases ih (tick + d) _ is' h with ⟨es, es', c, h1, h2, h3⟩ | ⟨e, h1, h2⟩ | ⟨h1, h2⟩ | ⟨h1, h2⟩
        · refine Or.inl ⟨_, _, c, by rw [h1]; rfl, by rw [h2]; rfl, ?_⟩
          simp only [List.map_cons, h3, e2, a1, a2, b1, b2, e3, e4]
        · exact Or.inr (Or.inl ⟨e, by rw [h1]; rfl, by rw [h2]; rfl⟩)
        · exact Or.inr (Or.inr (Or.inl ⟨by rw [h1]; rfl, by rw [h2]; rfl⟩))
        · exact Or.inr (Or.inr (Or.inr ⟨by rw [h1]; rfl, by rw [h2]; rfl⟩))
      | err e => exact Or.inr (Or.inl ⟨e, rfl, rfl⟩)
      | panic => exact Or.inr (Or.inr (Or.inl ⟨rfl, rfl⟩))
      | diverge => exact Or.inr (Or.inr (Or.inr ⟨rfl, rfl⟩))

end Midiasm
