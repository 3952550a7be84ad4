import Verif.Props.SameFile

/-!
C178: when the events of an assembled file take place.
-/

set_option linter.unusedSimpArgs false

namespace Midiasm
open Spec

theorem entries_summed (offset : Int) (l : List (Spec.Item × Content)) : ∀ (past : List Content) (elapsed k : Nat) (e : Entry),
    (entries offset past elapsed l)[k]? = some e →
      e.tick = (elapsed + (((entries offset past elapsed l).take k).map Entry.delta).sum) % 2 ^ 32 + e.delta := by
  induction l with
  | nil => intro past elapsed k e h; cases h
  | cons x l ih =>
    obtain ⟨i, c⟩ := x
    intro past elapsed k e h
    cases k with
    | zero =>
      cases h
      simp
    | succ k =>
      simp only [entries, List.getElem?_cons_succ] at h
      rw [ih _ _ k e h]
      simp only [entries, List.take_succ_cons, List.map_cons, List.sum_cons, Nat.add_assoc]

/-- **C178.** An event takes place at the sum of the delta times up to it; of the sum of those before, 32 bits are kept. -/
theorem C178_ticks (offset : Int) (bytes : Bytes) (h : Header) (ts : List TrackEntry) (hf : FileSays offset bytes h ts) (t : TrackEntry) (ht : t ∈ ts)
    (k : Nat) (e : Entry) (he : t.events[k]? = some e) : e.tick = ((t.events.take k).map Entry.delta).sum % 2 ^ 32 + e.delta := by
  obtain ⟨i, hi⟩ := List.getElem?_of_mem ht
  obtain ⟨cs, tail, _, _, _, _, h5, h6, h7⟩ := hf
  have hi' : i < (cs.filter fun c => c.tag == tagMTrk).length := by
    rw [h6, ← h5]
    exact (List.getElem?_eq_some_iff.1 hi).1
  obtain ⟨items, tl, rs', ms, _, _, _, _, rfl⟩ := h7 i _ t (List.getElem?_eq_getElem hi') hi
  have := entries_summed offset (items.zip ms) [] 0 k e he
  rwa [Nat.zero_add] at this

/-- The sum of the delta times of events. -/
def lasts (es : List Event) : Nat := (es.map fun e => e.delta.toNat).sum

/-- **C178.** The events of an assembled file take place at the sums of the delta times that the input states. -/
theorem C178_assembled (i : Input) (h : Header) (ts : List (List Event)) (hs : i.States h ts) (hk : ∀ es ∈ ts, RecoverableTrack es) (b : Bytes)
    (hb : i.file = .ok b) (hlen : b.length < 2 ^ 32) (mc : MiddleC) :
    ∃ ts', FileSays (octaveOffset mc) b h ts' ∧ contentsOf id ts' = stated ts ∧
      ∀ (n : Nat) es, ts[n]? = some es → ∃ t, ts'[n]? = some t ∧
        ∀ (k : Nat) e, es[k]? = some e → ∃ e', t.events[k]? = some e' ∧ e'.content = e.body.view ∧ e'.tick = lasts (es.take k) % 2 ^ 32 + e.delta.toNat := by
  obtain ⟨x, a1, a2, _⟩ := input_file i h ts hs hk
  rw [hb] at a1
  injection a1 with a1
  subst a1
  obtain ⟨ts', f1, f2⟩ := a2 hlen mc
  refine ⟨ts', f1, f2, fun n es hn => ?_⟩
  have g := congrArg (fun l => l[n]?) f2
  simp only [contentsOf, stated, List.getElem?_map, hn, Option.map_some] at g
  cases ht : ts'[n]? with
  | none => rw [ht] at g; cases g
  | some t =>
    rw [ht] at g
    injection g with g
    refine ⟨t, rfl, fun k e he => ?_⟩
    have g1 := congrArg (fun l => l[k]?) g
    simp only [List.getElem?_map, he, Option.map_some] at g1
    cases hte : t.events[k]? with
    | none => rw [hte] at g1; cases g1
    | some e' =>
      rw [hte] at g1
      injection g1 with g1
      injection g1 with g1 g2
      refine ⟨e', rfl, g2, ?_⟩
      rw [C178_ticks _ b h ts' f1 t (List.mem_of_getElem? ht) k e' hte, g1]
      have g3 := congrArg (fun l => ((l.take k).map Prod.fst).sum) g
      simp only [List.map_take, List.map_map] at g3
      have e1 : (Prod.fst ∘ fun e : Entry => (e.delta, id e.content)) = Entry.delta := rfl
      have e2 : (Prod.fst ∘ fun e : Event => (e.delta.toNat, e.body.view)) = fun e => e.delta.toNat := rfl
      rw [e1, e2] at g3
      unfold lasts
      rw [List.map_take, List.map_take, g3]

/-- **C178.** Events replaced by others that last as long do not shift the events after them. -/
theorem C178_replaced (i i' : Input) (h h' : Header) (ts ts' : List (List Event)) (hs : i.States h ts) (hs' : i'.States h' ts')
    (hk : ∀ es ∈ ts, RecoverableTrack es) (hk' : ∀ es ∈ ts', RecoverableTrack es) (b b' : Bytes) (hb : i.file = .ok b) (hb' : i'.file = .ok b')
    (hlen : b.length < 2 ^ 32) (hlen' : b'.length < 2 ^ 32) (mc : MiddleC) (n n' : Nat) (old new later : List Event)
    (hn : ts[n]? = some (old ++ later)) (hn' : ts'[n']? = some (new ++ later)) (hlast : lasts old = lasts new) :
    ∃ us us', FileSays (octaveOffset mc) b h us ∧ FileSays (octaveOffset mc) b' h' us' ∧ ∃ t t', us[n]? = some t ∧ us'[n']? = some t' ∧
      ∀ k < later.length, ∃ e e', t.events[old.length + k]? = some e ∧ t'.events[new.length + k]? = some e' ∧ e.content = e'.content ∧ e.tick = e'.tick := by
  obtain ⟨us, f1, _, f3⟩ := C178_assembled i h ts hs hk b hb hlen mc
  obtain ⟨us', g1, _, g3⟩ := C178_assembled i' h' ts' hs' hk' b' hb' hlen' mc
  obtain ⟨t, t1, t2⟩ := f3 n _ hn
  obtain ⟨t', t1', t2'⟩ := g3 n' _ hn'
  refine ⟨us, us', f1, g1, t, t', t1, t1', fun k hlt => ?_⟩
  obtain ⟨e, e1, e2, e3⟩ := t2 (old.length + k) later[k] (by rw [List.getElem?_append_right (by omega), Nat.add_sub_cancel_left, List.getElem?_eq_getElem hlt])
  obtain ⟨e', e1', e2', e3'⟩ := t2' (new.length + k) later[k] (by rw [List.getElem?_append_right (by omega), Nat.add_sub_cancel_left, List.getElem?_eq_getElem hlt])
  refine ⟨e, e', e1, e1', e2.trans e2'.symm, ?_⟩
  rw [e3, e3']
  unfold lasts at *
  rw [List.take_length_add_append, List.take_length_add_append, List.map_append, List.map_append, List.sum_append, List.sum_append, hlast]

/-- C178: two notes and a longer one that last the same; the other hypotheses are met by the case beside C177. -/
example : lasts [⟨0, 48, [], .noteOff 1 ⟨60, "C4", "C4"⟩ 0⟩, ⟨0, 0, [], .noteOn 1 ⟨62, "D4", "D4"⟩ 64⟩, ⟨0, 48, [], .noteOff 1 ⟨62, "D4", "D4"⟩ 0⟩] =
    lasts [⟨0, 96, [], .noteOff 1 ⟨60, "C4", "C4"⟩ 0⟩] := by decide

end Midiasm
