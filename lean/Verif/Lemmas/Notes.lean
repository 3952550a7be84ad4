import Verif.Model.Notes
import Verif.Spec.Notes
import Verif.Spec.View
import Verif.Lemmas.Basic
import Mathlib.Data.List.Forall2

/-!
Pairing of note on and note off events (`buildNoteList`).
-/

set_option linter.unusedSimpArgs false

namespace Midiasm
open Spec

/-- The note started by event `s` is sounding just before event `i`. -/
def OpenAt (cs : List Content) (i ch key s : Nat) : Prop :=
  s < i ∧ (∃ c, cs[s]? = some c ∧ StartsNote c ch key) ∧ ¬ Sounding cs ch key s ∧
    ∀ m c, s < m → m < i → cs[m]? = some c → ¬ EndsNote c ch key

theorem starts_not_ends {c : Content} {ch key : Nat} (h : StartsNote c ch key) : ¬ EndsNote c ch key := by
  obtain ⟨v, hv, rfl⟩ := h
  rintro (⟨w, h⟩ | h | h)
  · cases h
  · injection h with _ _ h; omega
  · cases h

theorem openAt_unique {cs : List Content} {i ch key s s' : Nat} (h : OpenAt cs i ch key s) (h' : OpenAt cs i ch key s') : s = s' := by
  rcases Nat.lt_trichotomy s s' with hl | hl | hl
  · exact absurd ⟨s, hl, h.2.1, fun m c h1 h2 => h.2.2.2 m c h1 (Nat.lt_trans h2 h'.1)⟩ h'.2.2.1
  · exact hl
  · exact absurd ⟨s', hl, h'.2.1, fun m c h1 h2 => h'.2.2.2 m c h1 (Nat.lt_trans h2 h.1)⟩ h.2.2.1

theorem sounding_iff {cs : List Content} {ch key i : Nat} : Sounding cs ch key i ↔ ∃ s, OpenAt cs i ch key s := by
  constructor
  · rintro ⟨s, h1, h2, h3⟩
    induction s using Nat.strongRecOn with
    | _ s ih =>
      by_cases hs : Sounding cs ch key s
      · obtain ⟨s', k1, k2, k3⟩ := hs
        refine ih s' k1 (by omega) k2 (fun m c a b hc => ?_)
        rcases Nat.lt_trichotomy m s with hl | hl | hl
        · exact k3 m c a hl hc
        · subst hl
          obtain ⟨c', hc', hs'⟩ := h2
          rw [hc] at hc'
          injection hc' with hc'
          subst hc'
          exact starts_not_ends hs'
        · exact h3 m c hl b hc
      · exact ⟨s, h1, h2, hs, h3⟩
  · rintro ⟨s, h1, h2, _, h3⟩
    exact ⟨s, h1, h2, h3⟩

theorem isSpan_iff {cs : List Content} {p : Span} :
    IsSpan cs p ↔ OpenAt cs p.last p.ch p.key p.first ∧ ∃ c, cs[p.last]? = some c ∧ EndsNote c p.ch p.key := by
  constructor
  · rintro ⟨h1, h2, h3, h4, h5⟩
    exact ⟨⟨h3, h1, h2, h5⟩, h4⟩
  · rintro ⟨⟨h3, h1, h2, h5⟩, h4⟩
    exact ⟨h1, h2, h3, h4, h5⟩

theorem openAt_succ {cs : List Content} {i ch key s : Nat} {c : Content} (hc : cs[i]? = some c) :
    OpenAt cs (i + 1) ch key s ↔ (OpenAt cs i ch key s ∧ ¬ EndsNote c ch key) ∨
      (s = i ∧ StartsNote c ch key ∧ ¬ ∃ s, OpenAt cs i ch key s) := by
  rw [← sounding_iff]
  constructor
  · rintro ⟨h1, h2, h3, h4⟩
    by_cases hs : s = i
    · subst hs
      obtain ⟨c', hc', h2⟩ := h2
      rw [hc] at hc'
      injection hc' with hc'
      subst hc'
      exact Or.inr ⟨rfl, h2, h3⟩
    · exact Or.inl ⟨⟨by omega, h2, h3, fun m c a b => h4 m c a (by omega)⟩, h4 i c (by omega) (by omega) hc⟩
  · rintro (⟨⟨h1, h2, h3, h4⟩, h5⟩ | ⟨rfl, h1, h2⟩)
    · refine ⟨by omega, h2, h3, fun m c' a b hc' => ?_⟩
      by_cases hm : m = i
      · subst hm
        rw [hc] at hc'
        injection hc' with hc'
        subst hc'
        exact h5
      · exact h4 m c' a (by omega) hc'
    · exact ⟨by omega, ⟨c, hc, h1⟩, h2, fun m c' a b => by omega⟩

/-- The note number of a pending entry. -/
def pendingNote (p : NoteEvent) : Option UInt8 :=
  match p.body with
  | .noteOn _ n _ => some n.value
  | _ => none

theorem hasNote_iff (n : UInt8) (p : NoteEvent) : hasNote n p = true ↔ pendingNote p = some n := by
  unfold hasNote pendingNote
  cases p.body <;> simp

/-- What the pending notes are after `i` events. -/
structure PendingInv (all : List NoteEvent) (pending : Pending) (i : Nat) : Prop where
  sound : ∀ ch p, p ∈ pending ch → ∃ nv v s, p.body = .noteOn ch nv v ∧ ch ≤ 15 ∧ all[s]? = some p ∧
    OpenAt (all.map (·.body.view)) i ch.toNat nv.value.toNat s
  complete : ∀ ch key s, OpenAt (all.map (·.body.view)) i ch key s → ∃ (c : UInt8) (p : NoteEvent) (nv : NoteVal) (v : UInt8),
    c.toNat = ch ∧ nv.value.toNat = key ∧ p ∈ pending c ∧ p.body = .noteOn c nv v ∧ all[s]? = some p
  distinct : ∀ ch, (pending ch).Pairwise (fun p q => pendingNote p ≠ pendingNote q)

/-- The extracted note for a span. -/
def NoteFor (mc : MiddleC) (transposition : Int) (all : List NoteEvent) (p : Span) (x : Note) : Prop :=
  ∃ a b ch nv v, all[p.first]? = some a ∧ all[p.last]? = some b ∧ a.body = .noteOn ch nv v ∧ ch.toNat = p.ch ∧ nv.value.toNat = p.key ∧
    x = ⟨ch, transposeExtracted nv.value transposition, formatNoteWith mc a.scale (transposeExtracted nv.value transposition), v,
      a.tick, b.tick, a.at_, b.at_, wrap64 (b.at_ - a.at_)⟩

theorem view_starts {b : Body} {ch key : Nat} (h : StartsNote b.view ch key) : ∃ c nv v, b = .noteOn c nv v ∧ c.toNat = ch ∧
    nv.value.toNat = key ∧ v > 0 := by
  obtain ⟨v, hv, h⟩ := h
  cases b <;> simp only [Body.view] at h <;> try (cases h; done)
  rename_i c nv w
  injection h with h1 h2 h3
  refine ⟨c, nv, w, rfl, h1, h2, ?_⟩
  rw [gt_iff_lt, UInt8.lt_iff_toNat_lt, h3]
  exact hv

/-- What it takes for the loop to be right about the events from number `i` on. -/
def LoopOk (mc : MiddleC) (transposition : Int) (all : List NoteEvent) (i : Nat) (o : Outcome (List Note)) : Prop :=
  ∃ ns ps, o = .ok ns ∧ List.Forall₂ (NoteFor mc transposition all) ps ns ∧ ps.Nodup ∧
    (∀ p, p ∈ ps ↔ IsSpan (all.map (·.body.view)) p ∧ i ≤ p.last) ∧ ps.Pairwise EndsFirst

/-- Adding the spans that end at event `i`. -/
theorem loopOk_append {mc : MiddleC} {transposition : Int} {all : List NoteEvent} {i : Nat} {rest : Outcome (List Note)} {ns : List Note}
    {ps : List Span} (hr : LoopOk mc transposition all (i + 1) rest) (h1 : List.Forall₂ (NoteFor mc transposition all) ps ns) (h2 : ps.Nodup)
    (h3 : ∀ p, p ∈ ps ↔ IsSpan (all.map (·.body.view)) p ∧ p.last = i) (h4 : ps.Pairwise (fun a b => a.ch ≤ b.ch)) :
    LoopOk mc transposition all i (do let rest ← rest; .ok (ns ++ rest)) := by
  obtain ⟨ns', ps', rfl, g1, g2, g3, g4⟩ := hr
  refine ⟨ns ++ ns', ps ++ ps', rfl, List.rel_append h1 g1, ?_, ?_, ?_⟩
  · rw [List.nodup_append]
    refine ⟨h2, g2, fun a ha b hb hab => ?_⟩
    subst hab
    have := (h3 a).1 ha
    have := (g3 a).1 hb
    omega
  · intro p
    rw [List.mem_append, h3, g3]
    constructor
    · rintro (⟨a, b⟩ | ⟨a, b⟩)
      · exact ⟨a, by omega⟩
      · exact ⟨a, by omega⟩
    · rintro ⟨a, b⟩
      by_cases h : p.last = i
      · exact Or.inl ⟨a, h⟩
      · exact Or.inr ⟨a, by omega⟩
  · rw [List.pairwise_append]
    refine ⟨?_, g4, ?_⟩
    · refine h4.imp_of_mem ?_
      intro a b ha hb hab
      have h1 := ((h3 _).1 ha).2
      have h2 := ((h3 _).1 hb).2
      exact Or.inr ⟨by omega, hab⟩
    · intro a ha b hb
      have h1 := ((h3 _).1 ha).2
      have h2 := ((g3 _).1 hb).2
      exact Or.inl (by omega)

theorem loopOk_none {mc : MiddleC} {transposition : Int} {all : List NoteEvent} {i : Nat} {rest : Outcome (List Note)}
    (hr : LoopOk mc transposition all (i + 1) rest) (h3 : ∀ p, IsSpan (all.map (·.body.view)) p → p.last ≠ i) :
    LoopOk mc transposition all i rest := by
  obtain ⟨ns', ps', rfl, g1, g2, g3, g4⟩ := hr
  refine ⟨ns', ps', rfl, g1, g2, fun p => ?_, g4⟩
  rw [g3]
  constructor
  · rintro ⟨a, b⟩
    exact ⟨a, by omega⟩
  · rintro ⟨a, b⟩
    have := h3 p a
    exact ⟨a, by omega⟩

theorem isSpan_last {all : List NoteEvent} {i : Nat} {e : NoteEvent} (he : all[i]? = some e) (p : Span) :
    (IsSpan (all.map (·.body.view)) p ∧ p.last = i) ↔
      p.last = i ∧ OpenAt (all.map (·.body.view)) i p.ch p.key p.first ∧ EndsNote e.body.view p.ch p.key := by
  have hc : (all.map (·.body.view))[i]? = some e.body.view := by simp [he]
  rw [isSpan_iff]
  constructor
  · rintro ⟨⟨h1, c, h2, h3⟩, rfl⟩
    rw [hc] at h2
    injection h2 with h2
    subst h2
    exact ⟨rfl, h1, h3⟩
  · rintro ⟨rfl, h1, h2⟩
    exact ⟨⟨h1, _, hc, h2⟩, rfl⟩

theorem endNote_step (mc : MiddleC) (transposition : Int) {all : List NoteEvent} {pending : Pending} {i : Nat} {e : NoteEvent}
    (inv : PendingInv all pending i) (he : all[i]? = some e) (ch n : UInt8)
    (hends : ∀ ch' key', EndsNote e.body.view ch' key' ↔ ch' = ch.toNat ∧ key' = n.toNat)
    (hstart : ∀ ch' key', ¬ StartsNote e.body.view ch' key') :
    ∃ ns ps pending', endNote mc transposition pending ch n e = .ok (ns, pending') ∧
      List.Forall₂ (NoteFor mc transposition all) ps ns ∧ ps.Nodup ∧
      (∀ p, p ∈ ps ↔ IsSpan (all.map (·.body.view)) p ∧ p.last = i) ∧ ps.Pairwise (fun a b => a.ch ≤ b.ch) ∧ PendingInv all pending' (i + 1) := by
  have hc : (all.map (·.body.view))[i]? = some e.body.view := by simp [he]
  have hsucc : ∀ ch' key' s, OpenAt (all.map (·.body.view)) (i + 1) ch' key' s ↔
      OpenAt (all.map (·.body.view)) i ch' key' s ∧ ¬ (ch' = ch.toNat ∧ key' = n.toNat) := by
    intro ch' key' s
    rw [openAt_succ hc, hends]
    constructor
    · rintro (h | ⟨_, h, _⟩)
      · exact h
      · exact absurd h (hstart _ _)
    · exact Or.inl
  cases hf : (pending ch).find? (hasNote n) with
  | none =>
    have hnone : ∀ p ∈ pending ch, pendingNote p ≠ some n := by
      intro p hp h
      have := List.find?_eq_none.1 hf p hp
      rw [(hasNote_iff n p).2 h] at this
      exact this rfl
    have hno : ∀ s, ¬ OpenAt (all.map (·.body.view)) i ch.toNat n.toNat s := by
      intro s h
      obtain ⟨c, p, nv, v, h1, h2, h3, h4, _⟩ := inv.complete _ _ s h
      have e1 : c = ch := UInt8.toNat_inj.1 h1
      have e2 : nv.value = n := UInt8.toNat_inj.1 h2
      subst e1 e2
      exact hnone p h3 (by simp [pendingNote, h4])
    refine ⟨[], [], pending, by simp only [endNote, hf], .nil, .nil, ?_, .nil, ?_⟩
    · intro p
      rw [isSpan_last he, hends]
      constructor
      · intro h; cases h
      · rintro ⟨_, h1, h2, h3⟩
        rw [h2, h3] at h1
        exact absurd h1 (hno _)
    · refine ⟨?_, ?_, inv.distinct⟩
      · intro c p hp
        obtain ⟨nv, v, s, h1, h2, h3, h4⟩ := inv.sound c p hp
        refine ⟨nv, v, s, h1, h2, h3, (hsucc _ _ _).2 ⟨h4, ?_⟩⟩
        rintro ⟨k1, k2⟩
        rw [k1, k2] at h4
        exact hno _ h4
      · intro c key s h
        exact inv.complete c key s ((hsucc _ _ _).1 h).1
  | some p =>
    have hp : p ∈ pending ch := List.mem_of_find?_eq_some hf
    have hpn : pendingNote p = some n := (hasNote_iff n p).1 (List.find?_some hf)
    obtain ⟨nv, v, s, h1, h2, h3, h4⟩ := inv.sound ch p hp
    have hnv : nv.value = n := by simpa [pendingNote, h1] using hpn
    subst hnv
    refine ⟨[⟨ch, transposeExtracted nv.value transposition, formatNoteWith mc p.scale (transposeExtracted nv.value transposition), v,
      p.tick, e.tick, p.at_, e.at_, wrap64 (e.at_ - p.at_)⟩], [⟨ch.toNat, nv.value.toNat, s, i⟩],
      fun c => if c = ch then (pending c).filter (fun p => !hasNote nv.value p) else pending c, ?_, ?_, ?_, ?_, by simp, ?_⟩
    · simp only [endNote, hf, finishNote, h1, Outcome.bind_ok]
    · exact .cons ⟨p, e, ch, nv, v, h3, he, h1, rfl, rfl, rfl⟩ .nil
    · simp
    · intro q
      rw [isSpan_last he, hends, List.mem_singleton]
      constructor
      · rintro rfl
        exact ⟨rfl, h4, rfl, rfl⟩
      · rintro ⟨rfl, k1, k2, k3⟩
        have : q.first = s := by
          rw [k2, k3] at k1
          exact openAt_unique k1 h4
        cases q
        simp_all
    · refine ⟨?_, ?_, ?_⟩
      · intro c q hq
        have hq' : q ∈ pending c ∧ ¬ (c = ch ∧ pendingNote q = some nv.value) := by
          by_cases hcc : c = ch
          · subst hcc
            rw [if_pos rfl, List.mem_filter] at hq
            refine ⟨hq.1, ?_⟩
            rintro ⟨_, k⟩
            rw [(hasNote_iff _ _).2 k] at hq
            exact absurd hq.2 (by decide)
          · rw [if_neg hcc] at hq
            exact ⟨hq, fun k => hcc k.1⟩
        obtain ⟨nv', v', s', k1, k2, k3, k4⟩ := inv.sound c q hq'.1
        refine ⟨nv', v', s', k1, k2, k3, (hsucc _ _ _).2 ⟨k4, ?_⟩⟩
        rintro ⟨l1, l2⟩
        refine hq'.2 ⟨UInt8.toNat_inj.1 l1, ?_⟩
        simp only [pendingNote, k1, UInt8.toNat_inj.1 l2]
      · intro c key s' h
        obtain ⟨k1, k2⟩ := (hsucc _ _ _).1 h
        obtain ⟨c', q, nv', v', l1, l2, l3, l4, l5⟩ := inv.complete c key s' k1
        refine ⟨c', q, nv', v', l1, l2, ?_, l4, l5⟩
        by_cases hcc : c' = ch
        · rw [if_pos hcc, List.mem_filter]
          refine ⟨l3, ?_⟩
          have : ¬ hasNote nv.value q = true := by
            rw [hasNote_iff]
            simp only [pendingNote, l4, Option.some.injEq]
            intro hh
            exact k2 ⟨by rw [← l1, hcc], by rw [← l2, hh]⟩
          simpa using this
        · rw [if_neg hcc]; exact l3
      · intro c
        split
        · exact (inv.distinct c).filter _
        · exact inv.distinct c

/-- Channel and note number of a pending entry. -/
def entryKey (p : NoteEvent) : Option (UInt8 × UInt8) :=
  match p.body with
  | .noteOn ch n _ => some (ch, n.value)
  | _ => none

theorem finishNotes_step (mc : MiddleC) (transposition : Int) {all : List NoteEvent} {i : Nat} {e : NoteEvent} (he : all[i]? = some e)
    (l : List NoteEvent)
    (hl : ∀ p ∈ l, ∃ ch nv v s, p.body = .noteOn ch nv v ∧ all[s]? = some p ∧ OpenAt (all.map (·.body.view)) i ch.toNat nv.value.toNat s)
    (hd : l.Pairwise (fun p q => entryKey p ≠ entryKey q))
    (ho : l.Pairwise (fun p q => ∀ ch nv v ch' nv' v', p.body = .noteOn ch nv v → q.body = .noteOn ch' nv' v' → ch.toNat ≤ ch'.toNat)) :
    ∃ ns ps, finishNotes mc transposition e l = .ok ns ∧ List.Forall₂ (NoteFor mc transposition all) ps ns ∧ ps.Nodup ∧
      ps.Pairwise (fun a b => a.ch ≤ b.ch) ∧ ∀ q : Span, q ∈ ps ↔ q.last = i ∧ OpenAt (all.map (·.body.view)) i q.ch q.key q.first ∧
        ∃ p ∈ l, ∃ ch nv v, p.body = .noteOn ch nv v ∧ ch.toNat = q.ch ∧ nv.value.toNat = q.key := by
  induction l with
  | nil => exact ⟨[], [], rfl, .nil, .nil, .nil, by simp⟩
  | cons p l ih =>
    rw [List.pairwise_cons] at hd ho
    obtain ⟨ns, ps, h1, h2, h3, h5, h4⟩ := ih (fun q hq => hl q (by simp [hq])) hd.2 ho.2
    obtain ⟨ch, nv, v, s, k1, k2, k3⟩ := hl p (by simp)
    refine ⟨⟨ch, transposeExtracted nv.value transposition, formatNoteWith mc p.scale (transposeExtracted nv.value transposition), v,
      p.tick, e.tick, p.at_, e.at_, wrap64 (e.at_ - p.at_)⟩ :: ns, ⟨ch.toNat, nv.value.toNat, s, i⟩ :: ps, ?_, ?_, ?_, ?_, ?_⟩
    · simp only [finishNotes, finishNote, k1, h1, Outcome.bind_ok]
    · exact .cons ⟨p, e, ch, nv, v, k2, he, k1, rfl, rfl, rfl⟩ h2
    · rw [List.nodup_cons]
      refine ⟨fun hm => ?_, h3⟩
      obtain ⟨_, _, q, hq, ch', nv', v', l1, l2, l3⟩ := (h4 _).1 hm
      refine hd.1 q hq ?_
      simp only [entryKey, k1, l1, Option.some.injEq, Prod.mk.injEq]
      exact ⟨(UInt8.toNat_inj.1 l2).symm, (UInt8.toNat_inj.1 l3).symm⟩
    · rw [List.pairwise_cons]
      refine ⟨fun q hq => ?_, h5⟩
      obtain ⟨_, _, r, hr, ch', nv', v', l1, l2, _⟩ := (h4 _).1 hq
      rw [← l2]
      exact ho.1 r hr ch nv v ch' nv' v' k1 l1
    · intro q
      rw [List.mem_cons, h4]
      constructor
      · rintro (rfl | ⟨a, b, r, hr, c⟩)
        · exact ⟨rfl, k3, p, by simp, ch, nv, v, k1, rfl, rfl⟩
        · exact ⟨a, b, r, by simp [hr], c⟩
      · rintro ⟨a, b, r, hr, ch', nv', v', l1, l2, l3⟩
        rcases List.mem_cons.1 hr with rfl | hr
        · rw [k1] at l1
          injection l1 with m1 m2 m3
          subst m1 m2 m3
          left
          rw [← l2, ← l3] at b
          have := openAt_unique b k3
          cases q
          simp_all
        · exact Or.inr ⟨a, b, r, hr, ch', nv', v', l1, l2, l3⟩

theorem ofNat_toNat_le15 {ch : UInt8} (h : ch ≤ 15) : ∃ j, j ∈ List.range 16 ∧ UInt8.ofNat j = ch := by
  refine ⟨ch.toNat, ?_, UInt8.ofNat_toNat⟩
  rw [List.mem_range]
  have : ch.toNat ≤ 15 := UInt8.le_iff_toNat_le.1 h
  omega

theorem flush_step (mc : MiddleC) (ord : MapOrder) (k : Nat) (transposition : Int) {all : List NoteEvent} {pending : Pending} {i : Nat}
    {e : NoteEvent} (inv : PendingInv all pending i) (he : all[i]? = some e) (hb : e.body = .endOfTrack) :
    ∃ ns ps, finishNotes mc transposition e
        ((List.range 16).flatMap (fun i => ord.order k (UInt8.ofNat i) (pending (UInt8.ofNat i)))) = .ok ns ∧
      List.Forall₂ (NoteFor mc transposition all) ps ns ∧ ps.Nodup ∧
      (∀ p, p ∈ ps ↔ IsSpan (all.map (·.body.view)) p ∧ p.last = i) ∧ ps.Pairwise (fun a b => a.ch ≤ b.ch) ∧
      PendingInv all (fun c => if c ≤ 15 then [] else pending c) (i + 1) := by
  have hc : (all.map (·.body.view))[i]? = some e.body.view := by simp [he]
  have hv : e.body.view = .endOfTrack := by rw [hb]; rfl
  have hends : ∀ ch' key', EndsNote e.body.view ch' key' := fun _ _ => by rw [hv]; exact Or.inr (Or.inr rfl)
  have hstart : ∀ ch' key', ¬ StartsNote e.body.view ch' key' := by
    rintro _ _ ⟨v, _, h⟩
    rw [hv] at h
    cases h
  have hno : ∀ ch' key' s, ¬ OpenAt (all.map (·.body.view)) (i + 1) ch' key' s := by
    intro ch' key' s h
    rcases (openAt_succ hc).1 h with ⟨_, h⟩ | ⟨_, h, _⟩
    · exact h (hends _ _)
    · exact hstart _ _ h
  have hmem : ∀ p, p ∈ (List.range 16).flatMap (fun i => ord.order k (UInt8.ofNat i) (pending (UInt8.ofNat i))) ↔
      ∃ ch, ch ≤ 15 ∧ p ∈ pending ch := by
    intro p
    rw [List.mem_flatMap]
    constructor
    · rintro ⟨j, hj, hp⟩
      refine ⟨UInt8.ofNat j, ?_, (ord.perm _ _ _).mem_iff.1 hp⟩
      rw [List.mem_range] at hj
      rw [UInt8.le_iff_toNat_le, UInt8.toNat_ofNat']
      show j % 256 ≤ 15
      omega
    · rintro ⟨ch, h1, h2⟩
      obtain ⟨j, hj, rfl⟩ := ofNat_toNat_le15 h1
      exact ⟨j, hj, (ord.perm _ _ _).mem_iff.2 h2⟩
  obtain ⟨ns, ps, h1, h2, h3, h5, h4⟩ := finishNotes_step mc transposition he
    ((List.range 16).flatMap (fun i => ord.order k (UInt8.ofNat i) (pending (UInt8.ofNat i)))) (by
      intro p hp
      obtain ⟨ch, _, hp⟩ := (hmem p).1 hp
      obtain ⟨nv, v, s, k1, _, k3, k4⟩ := inv.sound ch p hp
      exact ⟨ch, nv, v, s, k1, k3, k4⟩) (by
      rw [List.pairwise_flatMap]
      constructor
      · intro j _
        rw [(ord.perm _ _ _).pairwise_iff (fun h => Ne.symm h)]
        have := inv.distinct (UInt8.ofNat j)
        refine this.imp_of_mem ?_
        intro a b ha hb' hab
        obtain ⟨nv, v, s, k1, _⟩ := inv.sound _ a ha
        obtain ⟨nv', v', s', k1', _⟩ := inv.sound _ b hb'
        intro h
        apply hab
        simp only [entryKey, k1, k1', Option.some.injEq, Prod.mk.injEq] at h
        simp only [pendingNote, k1, k1', h.2]
      · refine List.Pairwise.imp_of_mem ?_ List.nodup_range
        intro a b ha hb' hab p hp q hq h
        obtain ⟨nv, v, s, k1, _⟩ := inv.sound _ p ((ord.perm _ _ _).mem_iff.1 hp)
        obtain ⟨nv', v', s', k1', _⟩ := inv.sound _ q ((ord.perm _ _ _).mem_iff.1 hq)
        simp only [entryKey, k1, k1', Option.some.injEq, Prod.mk.injEq] at h
        have := congrArg UInt8.toNat h.1
        rw [UInt8.toNat_ofNat', UInt8.toNat_ofNat'] at this
        rw [List.mem_range] at ha hb'
        have e1 : a % 2 ^ 8 = a := Nat.mod_eq_of_lt (by omega)
        have e2 : b % 2 ^ 8 = b := Nat.mod_eq_of_lt (by omega)
        rw [e1, e2] at this
        exact hab this) (by
      rw [List.pairwise_flatMap]
      constructor
      · intro j _
        refine List.Pairwise.imp_of_mem (R := fun _ _ => True) ?_ (List.pairwise_of_forall fun _ _ => trivial)
        intro a b ha hb' _ ch nv v ch' nv' v' l1 l2
        obtain ⟨_, _, _, k1, _⟩ := inv.sound _ a ((ord.perm _ _ _).mem_iff.1 ha)
        obtain ⟨_, _, _, k1', _⟩ := inv.sound _ b ((ord.perm _ _ _).mem_iff.1 hb')
        rw [k1] at l1
        rw [k1'] at l2
        injection l1 with l1 _ _
        injection l2 with l2 _ _
        rw [← l1, ← l2]
        exact Nat.le_refl _
      · refine List.Pairwise.imp_of_mem ?_ List.pairwise_lt_range
        intro a b ha hb' hab p hp q hq ch nv v ch' nv' v' l1 l2
        obtain ⟨_, _, _, k1, _⟩ := inv.sound _ p ((ord.perm _ _ _).mem_iff.1 hp)
        obtain ⟨_, _, _, k1', _⟩ := inv.sound _ q ((ord.perm _ _ _).mem_iff.1 hq)
        rw [k1] at l1
        rw [k1'] at l2
        injection l1 with l1 _ _
        injection l2 with l2 _ _
        rw [← l1, ← l2, UInt8.toNat_ofNat', UInt8.toNat_ofNat']
        rw [List.mem_range] at ha hb'
        omega)
  refine ⟨ns, ps, h1, h2, h3, ?_, h5, ?_, ?_, ?_⟩
  · intro p
    rw [h4, isSpan_last he]
    constructor
    · rintro ⟨a, b, _⟩
      exact ⟨a, b, hends _ _⟩
    · rintro ⟨a, b, _⟩
      refine ⟨a, b, ?_⟩
      obtain ⟨c, q, nv, v, l1, l2, l3, l4, _⟩ := inv.complete _ _ _ b
      obtain ⟨_, _, _, _, hle, _⟩ := inv.sound c q l3
      exact ⟨q, (hmem q).2 ⟨c, hle, l3⟩, c, nv, v, l4, l1, l2⟩
  · intro c p hp
    split at hp
    · cases hp
    · rename_i hle
      obtain ⟨_, _, _, _, hle', _⟩ := inv.sound c p hp
      exact absurd hle' hle
  · intro c key s h
    exact absurd h (hno _ _ _)
  · intro c
    split
    · exact .nil
    · exact inv.distinct c

/-- An event that neither starts nor ends notes. -/
theorem skip_step {all : List NoteEvent} {pending : Pending} {i : Nat} {e : NoteEvent} (inv : PendingInv all pending i)
    (he : all[i]? = some e) (hends : ∀ ch key, ¬ EndsNote e.body.view ch key)
    (hstart : ∀ ch key, StartsNote e.body.view ch key → ∃ s, OpenAt (all.map (·.body.view)) i ch key s) :
    PendingInv all pending (i + 1) ∧ ∀ p, IsSpan (all.map (·.body.view)) p → p.last ≠ i := by
  have hc : (all.map (·.body.view))[i]? = some e.body.view := by simp [he]
  have hsucc : ∀ ch key s, OpenAt (all.map (·.body.view)) (i + 1) ch key s ↔ OpenAt (all.map (·.body.view)) i ch key s := by
    intro ch key s
    rw [openAt_succ hc]
    constructor
    · rintro (h | ⟨_, h, h'⟩)
      · exact h.1
      · exact absurd (hstart _ _ h) h'
    · intro h
      exact Or.inl ⟨h, hends _ _⟩
  refine ⟨⟨?_, ?_, inv.distinct⟩, ?_⟩
  · intro ch p hp
    obtain ⟨nv, v, s, h1, h2, h3, h4⟩ := inv.sound ch p hp
    exact ⟨nv, v, s, h1, h2, h3, (hsucc _ _ _).2 h4⟩
  · intro ch key s h
    exact inv.complete ch key s ((hsucc _ _ _).1 h)
  · intro p hp hl
    exact hends _ _ ((isSpan_last he p).1 ⟨hp, hl⟩).2.2

/-- A note on of a note that is not sounding. -/
theorem start_step {all : List NoteEvent} {pending : Pending} {i : Nat} {e : NoteEvent} (inv : PendingInv all pending i)
    (he : all[i]? = some e) (ch : UInt8) (nv : NoteVal) (v : UInt8) (hb : e.body = .noteOn ch nv v) (hv : v > 0) (hch : ch ≤ 15)
    (hany : (pending ch).any (hasNote nv.value) = false) :
    PendingInv all (fun c => if c = ch then pending c ++ [e] else pending c) (i + 1) ∧
      ∀ p, IsSpan (all.map (·.body.view)) p → p.last ≠ i := by
  have hc : (all.map (·.body.view))[i]? = some e.body.view := by simp [he]
  have hview : e.body.view = .noteOn ch.toNat nv.value.toNat v.toNat := by rw [hb]; rfl
  have hv' : 0 < v.toNat := UInt8.lt_iff_toNat_lt.1 hv
  have hends : ∀ ch key, ¬ EndsNote e.body.view ch key := by
    rw [hview]
    rintro c k (⟨w, h⟩ | h | h)
    · cases h
    · injection h with _ _ h; omega
    · cases h
  have hstart : ∀ c k, StartsNote e.body.view c k ↔ c = ch.toNat ∧ k = nv.value.toNat := by
    intro c k
    rw [hview]
    constructor
    · rintro ⟨w, _, h⟩
      injection h with h1 h2 h3
      exact ⟨h1.symm, h2.symm⟩
    · rintro ⟨rfl, rfl⟩
      exact ⟨_, hv', rfl⟩
  have hnone : ∀ p ∈ pending ch, pendingNote p ≠ some nv.value := by
    intro p hp h
    have := List.any_eq_false.1 hany p hp
    exact this ((hasNote_iff _ _).2 h)
  have hno : ¬ ∃ s, OpenAt (all.map (·.body.view)) i ch.toNat nv.value.toNat s := by
    rintro ⟨s, h⟩
    obtain ⟨c, p, nv', v', l1, l2, l3, l4, _⟩ := inv.complete _ _ s h
    have e1 := UInt8.toNat_inj.1 l1
    subst e1
    exact hnone p l3 (by simp only [pendingNote, l4, UInt8.toNat_inj.1 l2])
  refine ⟨⟨?_, ?_, ?_⟩, ?_⟩
  · intro c p hp
    have : (p = e ∧ c = ch) ∨ p ∈ pending c := by
      split at hp
      · rcases List.mem_append.1 hp with hp | hp
        · exact Or.inr hp
        · exact Or.inl ⟨List.mem_singleton.1 hp, by assumption⟩
      · exact Or.inr hp
    rcases this with ⟨rfl, rfl⟩ | hp
    · exact ⟨nv, v, i, hb, hch, he, (openAt_succ hc).2 (Or.inr ⟨rfl, (hstart _ _).2 ⟨rfl, rfl⟩, hno⟩)⟩
    · obtain ⟨nv', v', s, h1, h2, h3, h4⟩ := inv.sound c p hp
      exact ⟨nv', v', s, h1, h2, h3, (openAt_succ hc).2 (Or.inl ⟨h4, hends _ _⟩)⟩
  · intro c key s h
    rcases (openAt_succ hc).1 h with ⟨h, _⟩ | ⟨rfl, h, _⟩
    · obtain ⟨c', p, nv', v', l1, l2, l3, l4, l5⟩ := inv.complete c key s h
      refine ⟨c', p, nv', v', l1, l2, ?_, l4, l5⟩
      split
      · exact List.mem_append.2 (Or.inl l3)
      · exact l3
    · obtain ⟨rfl, rfl⟩ := (hstart _ _).1 h
      exact ⟨ch, e, nv, v, rfl, rfl, by simp, hb, he⟩
  · intro c
    split
    · rename_i hcc
      subst hcc
      rw [List.pairwise_append]
      refine ⟨inv.distinct _, by simp, ?_⟩
      intro a ha b hb'
      rw [List.mem_singleton] at hb'
      subst hb'
      have := hnone a ha
      simpa only [pendingNote, hb] using this
    · exact inv.distinct c
  · intro p hp hl
    exact hends _ _ ((isSpan_last he p).1 ⟨hp, hl⟩).2.2

theorem noteLoop_ok (mc : MiddleC) (ord : MapOrder) (transposition : Int) (all : List NoteEvent)
    (hch : ∀ e ∈ all, ∀ ch nv v, e.body = .noteOn ch nv v → ch ≤ 15) :
    ∀ (es : List NoteEvent) (i k : Nat) (pending : Pending), all.drop i = es → PendingInv all pending i →
      LoopOk mc transposition all i (noteLoop mc ord transposition k pending es) := by
  intro es
  induction es with
  | nil =>
    intro i k pending hd inv
    refine ⟨[], [], rfl, .nil, .nil, ?_, .nil⟩
    intro p
    constructor
    · intro h; cases h
    · rintro ⟨h1, h2⟩
      obtain ⟨_, c, h3, _⟩ := isSpan_iff.1 h1
      have := (List.getElem?_eq_some_iff.1 h3).1
      rw [List.length_map] at this
      rw [List.drop_eq_nil_iff] at hd
      omega
  | cons e es ih =>
    intro i k pending hd inv
    have he : all[i]? = some e := by
      have := congrArg (·[0]?) hd
      simpa using this
    have hd' : all.drop (i + 1) = es := by
      rw [← List.drop_drop, hd]; rfl
    have hmem : e ∈ all := List.mem_of_getElem? he
    have skip : (∀ ch key, ¬ EndsNote e.body.view ch key) →
        (∀ ch key, StartsNote e.body.view ch key → ∃ s, OpenAt (all.map (·.body.view)) i ch key s) →
        LoopOk mc transposition all i (noteLoop mc ord transposition k pending es) := by
      intro h1 h2
      obtain ⟨inv', hl⟩ := skip_step inv he h1 h2
      exact loopOk_none (ih (i + 1) k pending hd' inv') hl
    have ends : ∀ ch n, (∀ ch' key', EndsNote e.body.view ch' key' ↔ ch' = ch.toNat ∧ key' = n.toNat) →
        (∀ ch' key', ¬ StartsNote e.body.view ch' key') →
        LoopOk mc transposition all i (do
          let (ns, pending) ← endNote mc transposition pending ch n e
          let rest ← noteLoop mc ord transposition k pending es
          .ok (ns ++ rest)) := by
      intro ch n h1 h2
      obtain ⟨ns, ps, pending', g1, g2, g3, g4, g6, g5⟩ := endNote_step mc transposition inv he ch n h1 h2
      rw [g1]
      exact loopOk_append (ih (i + 1) k pending' hd' g5) g2 g3 g4 g6
    rw [noteLoop.eq_def]
    simp only
    cases hb : e.body with
    | noteOn ch nv v =>
      simp only
      have hview : e.body.view = .noteOn ch.toNat nv.value.toNat v.toNat := by rw [hb]; rfl
      split
      · rename_i hv
        split
        · rename_i hany
          apply skip
          · rw [hview]
            rintro c k (⟨w, h⟩ | h | h)
            · cases h
            · injection h with _ _ h
              have : 0 < v.toNat := UInt8.lt_iff_toNat_lt.1 hv
              omega
            · cases h
          · rintro c key ⟨w, _, h⟩
            rw [hview] at h
            injection h with h1 h2 _
            subst h1 h2
            obtain ⟨p, hp, hn⟩ := List.any_eq_true.1 hany
            obtain ⟨nv', v', s, l1, _, _, l4⟩ := inv.sound ch p hp
            have := (hasNote_iff _ _).1 hn
            simp only [pendingNote, l1, Option.some.injEq] at this
            rw [this] at l4
            exact ⟨s, l4⟩
        · rename_i hany
          have hle := hch e hmem ch nv v hb
          rw [if_neg (by rw [gt_iff_lt, UInt8.lt_iff_toNat_lt]; have := UInt8.le_iff_toNat_le.1 hle; omega)]
          obtain ⟨inv', hl⟩ := start_step inv he ch nv v hb hv hle (by simpa using hany)
          exact loopOk_none (ih (i + 1) k _ hd' inv') hl
      · rename_i hv
        have h0 : v.toNat = 0 := by
          rw [gt_iff_lt, UInt8.lt_iff_toNat_lt] at hv
          simpa using hv
        apply ends
        · intro c key
          rw [hview, h0]
          constructor
          · rintro (⟨w, h⟩ | h | h)
            · cases h
            · injection h with h1 h2 _; exact ⟨h1.symm, h2.symm⟩
            · cases h
          · rintro ⟨rfl, rfl⟩
            exact Or.inr (Or.inl rfl)
        · rintro c key ⟨w, hw, h⟩
          rw [hview] at h
          injection h with _ _ h
          omega
    | noteOff ch nv v =>
      simp only
      have hview : e.body.view = .noteOff ch.toNat nv.value.toNat v.toNat := by rw [hb]; rfl
      apply ends
      · intro c key
        rw [hview]
        constructor
        · rintro (⟨w, h⟩ | h | h)
          · injection h with h1 h2 _; exact ⟨h1.symm, h2.symm⟩
          · cases h
          · cases h
        · rintro ⟨rfl, rfl⟩
          exact Or.inl ⟨_, rfl⟩
      · rintro c key ⟨w, hw, h⟩
        rw [hview] at h
        cases h
    | endOfTrack =>
      simp only
      obtain ⟨ns, ps, g1, g2, g3, g4, g6, g5⟩ := flush_step mc ord k transposition inv he hb
      rw [g1]
      exact loopOk_append (ih (i + 1) (k + 1) _ hd' g5) g2 g3 g4 g6
    | _ =>
      simp only
      apply skip
      · rw [hb]
        rintro c key (⟨w, h⟩ | h | h) <;> (simp only [Body.view] at h; cases h)
      · rw [hb]
        rintro c key ⟨w, _, h⟩
        simp only [Body.view] at h
        cases h

/-- `buildNoteList`: the extracted notes are the spans of the event list, each once, in the order in which they end. -/
theorem buildNoteList_ok (mc : MiddleC) (ord : MapOrder) (transposition : Int) (all : List NoteEvent)
    (hch : ∀ e ∈ all, ∀ ch nv v, e.body = .noteOn ch nv v → ch ≤ 15) :
    LoopOk mc transposition all 0 (buildNoteList mc ord transposition all) := by
  refine noteLoop_ok mc ord transposition all hch all 0 0 _ rfl ⟨?_, ?_, fun _ => .nil⟩
  · intro _ _ h; cases h
  · intro _ _ _ h; exact absurd h.1 (by omega)

end Midiasm
