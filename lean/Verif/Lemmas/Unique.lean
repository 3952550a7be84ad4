import Verif.Lemmas.Frame
import Verif.Props.Vlq

/-!
The wire format is unambiguous: an input has at most one framed event as a prefix.
-/

namespace Midiasm
open Spec

theorem quantity_unique {p q x y : Bytes} {m n : Nat} (hp : Quantity p m) (hq : Quantity q n) (h : p ++ x = q ++ y) :
    p = q ∧ x = y ∧ m = n := by
  obtain ⟨h1, h2⟩ := terminated_prefix_unique hp.1 hq.1 h
  refine ⟨h1, h2, ?_⟩
  rw [← hp.2, ← hq.2, h1]

theorem framed_unique {k rs raw b rs1 raw' b' rs1' x y} (h : Framed k rs raw b rs1) (h' : Framed k rs raw' b' rs1')
    (e : b ++ x = b' ++ y) : raw = raw' ∧ b = b' ∧ x = y ∧ rs1 = rs1' := by
  cases h with
  | @full _ s d hs hl =>
    cases h' with
    | @full _ s' d' hs' hl' =>
      simp only [List.cons_append, List.cons.injEq] at e
      obtain ⟨rfl, e⟩ := e
      obtain ⟨rfl, rfl⟩ := List.append_inj e (by rw [hl, hl'])
      exact ⟨rfl, rfl, rfl, rfl⟩
    | running hs' hl' hd =>
      simp only [List.cons_append, List.cons.injEq] at e
      have := hs.1
      rw [e.1] at this
      omega
    | metaEvent _ =>
      simp only [List.cons_append, List.cons.injEq] at e
      have := hs.2
      rw [e.1] at this
      simp at this
    | sysex hs' _ =>
      simp only [List.cons_append, List.cons.injEq] at e
      have := hs.2
      rw [e.1] at this
      rcases hs' with rfl | rfl <;> simp at this
  | @running s d data hs hl hd =>
    cases h' with
    | full hs' hl' =>
      simp only [List.cons_append, List.cons.injEq] at e
      have := hs'.1
      rw [← e.1] at this
      omega
    | running hs' hl' hd' =>
      obtain ⟨h1, h2⟩ := List.append_inj e (by rw [hl, hl'])
      rw [h1]
      exact ⟨rfl, rfl, h2, rfl⟩
    | metaEvent _ =>
      simp only [List.cons_append, List.cons.injEq] at e
      rw [e.1] at hd
      simp at hd
    | sysex hs' _ =>
      simp only [List.cons_append, List.cons.injEq] at e
      rw [e.1] at hd
      rcases hs' with rfl | rfl <;> simp at hd
  | @metaEvent _ t len data hl =>
    cases h' with
    | full hs' hl' =>
      simp only [List.cons_append, List.cons.injEq] at e
      have := hs'.2
      rw [← e.1] at this
      simp at this
    | running hs' hl' hd' =>
      simp only [List.cons_append, List.cons.injEq] at e
      rw [← e.1] at hd'
      simp at hd'
    | metaEvent hl' =>
      simp only [List.cons_append, List.cons.injEq, List.append_assoc, true_and] at e
      obtain ⟨rfl, e⟩ := e
      obtain ⟨rfl, e, hn⟩ := quantity_unique hl hl' e
      obtain ⟨rfl, rfl⟩ := List.append_inj e hn
      exact ⟨rfl, rfl, rfl, rfl⟩
    | sysex hs' _ =>
      simp only [List.cons_append, List.cons.injEq] at e
      rcases hs' with rfl | rfl <;> simp at e
  | @sysex _ s len data hs hl =>
    cases h' with
    | full hs' hl' =>
      simp only [List.cons_append, List.cons.injEq] at e
      have := hs'.2
      rw [← e.1] at this
      rcases hs with rfl | rfl <;> simp at this
    | running hs' hl' hd' =>
      simp only [List.cons_append, List.cons.injEq] at e
      rw [← e.1] at hd'
      rcases hs with rfl | rfl <;> simp at hd'
    | metaEvent _ =>
      simp only [List.cons_append, List.cons.injEq] at e
      rcases hs with rfl | rfl <;> simp at e
    | sysex hs' hl' =>
      simp only [List.cons_append, List.cons.injEq, List.append_assoc] at e
      obtain ⟨rfl, e⟩ := e
      obtain ⟨rfl, e, hn⟩ := quantity_unique hl hl' e
      obtain ⟨rfl, rfl⟩ := List.append_inj e hn
      exact ⟨rfl, rfl, rfl, rfl⟩

theorem framedItem_unique {k rs i rs1 j rs1' x y} (h : FramedItem k rs i rs1) (h' : FramedItem k rs j rs1')
    (e : i.bytes ++ x = j.bytes ++ y) : i = j ∧ x = y ∧ rs1 = rs1' := by
  obtain ⟨d, r, b⟩ := i
  obtain ⟨d', r', b'⟩ := j
  obtain ⟨db, eb, hb, hq, hf⟩ := h
  obtain ⟨db', eb', hb', hq', hf'⟩ := h'
  simp only at hb hq hf hb' hq' hf' e
  subst hb hb'
  rw [List.append_assoc, List.append_assoc] at e
  obtain ⟨rfl, e, hd⟩ := quantity_unique hq hq' e
  obtain ⟨rfl, rfl, rfl, rfl⟩ := framed_unique hf hf' e
  obtain rfl := u32_ext hd
  exact ⟨rfl, rfl, rfl⟩

/-- The first byte of a framed event. -/
theorem framed_head {k rs raw b rs1 c r x} (h : Framed k rs raw b rs1) (e : b ++ x = c :: r) :
    (c.toNat < 0x80 → rs ≠ none) ∧ (c.toNat < 0xf0 ∨ c = 0xf0 ∨ c = 0xf7 ∨ c = 0xff) := by
  cases h with
  | full hs _ =>
    simp only [List.cons_append, List.cons.injEq] at e
    obtain ⟨h1, h2⟩ := hs
    rw [e.1] at h1 h2
    exact ⟨fun h => by omega, Or.inl h2⟩
  | running hs _ hd =>
    simp only [List.cons_append, List.cons.injEq] at e
    rw [e.1] at hd
    exact ⟨fun _ => by simp, Or.inl (by omega)⟩
  | metaEvent _ =>
    simp only [List.cons_append, List.cons.injEq] at e
    rw [← e.1]
    exact ⟨fun h => by simp at h, by simp⟩
  | sysex hs _ =>
    simp only [List.cons_append, List.cons.injEq] at e
    rw [← e.1]
    rcases hs with rfl | rfl
    · exact ⟨fun h => by simp at h, by simp⟩
    · exact ⟨fun h => by simp at h, by simp⟩

theorem framed_ne_nil {k rs raw rs1} (h : Framed k rs raw [] rs1) : False := by
  cases h

theorem framedItem_head {k rs i rs1 db c r x} (h : FramedItem k rs i rs1) (hd : Terminated db)
    (e : i.bytes ++ x = db ++ c :: r) :
    (c.toNat < 0x80 → rs ≠ none) ∧ (c.toNat < 0xf0 ∨ c = 0xf0 ∨ c = 0xf7 ∨ c = 0xff) := by
  obtain ⟨db', eb, hb, hq, hf⟩ := h
  rw [hb, List.append_assoc] at e
  obtain ⟨_, e⟩ := terminated_prefix_unique hq.1 hd e
  exact framed_head hf e

/-- No input is both framed and cut short. -/
theorem not_truncated_of_framed {k rs i rs1 rest} (h : FramedItem k rs i rs1) : ¬ Truncated k rs (i.bytes ++ rest) := by
  rintro ⟨ext, j, rs', hne, hj, e⟩
  rw [List.append_assoc] at e
  have := framedItem_unique (x := []) (y := rest ++ ext) hj h (by rw [List.append_nil]; exact e)
  have h2 := this.2.1
  simp at h2
  exact hne h2.2

theorem not_orphan_of_framed {k rs i rs1 inp x y} (h : FramedItem k rs i rs1) (e : i.bytes ++ x = inp ++ y) :
    ¬ Orphan rs inp := by
  rintro ⟨hrs, db, b, rest, rfl, hd, hb⟩
  rw [List.append_assoc] at e
  exact (framedItem_head h hd e).1 hb hrs

theorem not_system_of_framed {k rs i rs1 inp x y} (h : FramedItem k rs i rs1) (e : i.bytes ++ x = inp ++ y) :
    ¬ SystemStatus inp := by
  rintro ⟨db, b, rest, rfl, hd, hb1, hb2, hb3⟩
  rw [List.append_assoc] at e
  have := (framedItem_head h hd e).2
  rcases this with h | rfl | rfl | rfl
  · omega
  · simp at hb1
  · simp at hb3
  · simp at hb2

theorem not_truncated_of_orphan {k rs inp} (h : Orphan rs inp) : ¬ Truncated k rs inp := by
  rintro ⟨ext, j, rs', _, hj, e⟩
  exact not_orphan_of_framed (x := []) hj (by simpa using e) h

theorem not_truncated_of_system {k rs inp} (h : SystemStatus inp) : ¬ Truncated k rs inp := by
  rintro ⟨ext, j, rs', _, hj, e⟩
  exact not_system_of_framed (x := []) hj (by simpa using e) h

theorem not_orphan_of_system {rs inp} (h : SystemStatus inp) : ¬ Orphan rs inp := by
  rintro ⟨_, db, b, rest, e, hd, hb⟩
  obtain ⟨db', b', rest', e', hd', hb', _⟩ := h
  rw [e] at e'
  obtain ⟨_, e⟩ := terminated_prefix_unique hd hd' e'
  simp at e
  rw [e.1] at hb
  omega

end Midiasm
