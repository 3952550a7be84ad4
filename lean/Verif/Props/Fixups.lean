import Verif.Model.Fixups

/-!
Property C46: SysEx terminators restored by the assembler.
-/

set_option linter.unusedSimpArgs false

namespace Midiasm

/-- The event carries the first packet of a SysEx message. -/
def Body.IsMessage (b : Body) : Prop := ∃ m d s, b = .sysExMessage m d s
/-- The event carries a further packet of a SysEx message. -/
def Body.IsPacket (b : Body) : Prop := ∃ d e, b = .sysExContinuation d e

/-- The packet ends its SysEx message. -/
def Body.Terminated : Body → Prop
  | .sysExMessage _ _ s => s = true
  | .sysExContinuation _ e => e = true
  | _ => False

/-- The same event up to the terminator. -/
def Body.SameButTerminator (a b : Body) : Prop :=
  (∃ m d s s', a = .sysExMessage m d s ∧ b = .sysExMessage m d s') ∨
  (∃ d e e', a = .sysExContinuation d e ∧ b = .sysExContinuation d e') ∨ a = b

theorem isContinuation_iff (b : Body) : b.isContinuation = true ↔ b.IsPacket := by
  cases b <;> simp [Body.isContinuation, Body.IsPacket]

/-- What both loops do to one event, given its successor. -/
def fixOne (a : Event) (next : Option Event) : Event :=
  match next with
  | none => a
  | some b =>
      if b.body.isContinuation then a
      else match a.body with
        | .sysExMessage m d _ => { a with body := .sysExMessage m d true }
        | .sysExContinuation d _ => { a with body := .sysExContinuation d true }
        | _ => a

theorem fixMessages_cont (l : List Event) (i : Nat) :
    ((fixMessages l)[i]?.map (·.body.isContinuation)) = (l[i]?.map (·.body.isContinuation)) := by
  induction l generalizing i with
  | nil => rfl
  | cons a t ih =>
    cases t with
    | nil => rfl
    | cons b rest =>
      cases i with
      | zero =>
        simp only [fixMessages, List.getElem?_cons_zero, Option.map_some]
        cases hb : a.body <;> simp [hb] <;> split <;> simp [hb, Body.isContinuation]
      | succ i => simpa only [fixMessages, List.getElem?_cons_succ] using ih i

theorem fixMessages_get (l : List Event) (i : Nat) (a : Event) (ha : l[i]? = some a) :
    (fixMessages l)[i]? = some (match l[i + 1]?, a.body with
      | some b, .sysExMessage m d _ => if !b.body.isContinuation then { a with body := .sysExMessage m d true } else a
      | _, _ => a) := by
  induction l generalizing i with
  | nil => simp at ha
  | cons x t ih =>
    cases t with
    | nil =>
      cases i with
      | zero => simpa [fixMessages] using ha
      | succ i => simp at ha
    | cons b rest =>
      cases i with
      | zero =>
        simp only [List.getElem?_cons_zero, Option.some.injEq] at ha
        subst ha
        simp only [fixMessages, List.getElem?_cons_zero, List.getElem?_cons_succ]
        cases x.body <;> rfl
      | succ i =>
        simp only [fixMessages, List.getElem?_cons_succ] at ha ⊢
        exact ih i ha

theorem fixContinuations_get (l : List Event) (i : Nat) (a : Event) (ha : l[i]? = some a) :
    (fixContinuations l)[i]? = some (match l[i + 1]?, a.body with
      | some b, .sysExContinuation d _ => if !b.body.isContinuation then { a with body := .sysExContinuation d true } else a
      | _, _ => a) := by
  induction l generalizing i with
  | nil => simp at ha
  | cons x t ih =>
    cases t with
    | nil =>
      cases i with
      | zero => simpa [fixContinuations] using ha
      | succ i => simp at ha
    | cons b rest =>
      cases i with
      | zero =>
        simp only [List.getElem?_cons_zero, Option.some.injEq] at ha
        subst ha
        simp only [fixContinuations, List.getElem?_cons_zero, List.getElem?_cons_succ]
        cases x.body <;> rfl
      | succ i =>
        simp only [fixContinuations, List.getElem?_cons_succ] at ha ⊢
        exact ih i ha

theorem fixMessages_length (l : List Event) : (fixMessages l).length = l.length := by
  induction l with
  | nil => rfl
  | cons a t ih => cases t with
    | nil => rfl
    | cons b rest => simp only [fixMessages, List.length_cons] at ih ⊢; omega

theorem fixContinuations_length (l : List Event) : (fixContinuations l).length = l.length := by
  induction l with
  | nil => rfl
  | cons a t ih => cases t with
    | nil => rfl
    | cons b rest => simp only [fixContinuations, List.length_cons] at ih ⊢; omega

theorem fixups_get {es es' : List Event} (h : fixups es = .ok es') (i : Nat) (a : Event) (ha : es[i]? = some a) :
    es'[i]? = some (fixOne a es[i + 1]?) := by
  have he : es' = fixContinuations (fixMessages es) := by
    unfold fixups at h
    split at h
    · simp at h
    · simpa using h.symm
  subst he
  have h1 := fixMessages_get es i a ha
  have hc := fixMessages_cont es (i + 1)
  rw [fixContinuations_get _ i _ h1]
  congr 1
  cases hn : es[i + 1]? with
  | none =>
    rw [hn] at hc
    have : (fixMessages es)[i + 1]? = none := by simpa using hc
    rw [this]; rfl
  | some b =>
    rw [hn] at hc
    obtain ⟨b', hb', hcc⟩ : ∃ b', (fixMessages es)[i + 1]? = some b' ∧ b'.body.isContinuation = b.body.isContinuation := by
      cases hx : (fixMessages es)[i + 1]? with
      | none => rw [hx] at hc; simp at hc
      | some b' => rw [hx] at hc; exact ⟨b', rfl, by simpa using hc⟩
    rw [hb']
    simp only [fixOne]
    cases hb : a.body <;> cases hbb : b.body.isContinuation <;> simp [hb, hbb, hcc]

/-- **C73.** What the assembler does to a non-empty track: the number of events, their delta times, ticks and recorded bytes
stay; each event keeps its contents except for the terminator of SysEx packets; a SysEx packet followed by an event
that is not a continuation becomes terminated, one followed by a continuation or by nothing keeps its terminator.
On the empty track it panics. -/
theorem C73_fixups_exact (es : List Event) :
    (es = [] → fixups es = .panic) ∧
    (es ≠ [] → ∃ es', fixups es = .ok es' ∧ es'.length = es.length ∧
      ∀ (i : Nat) (e : Event), es[i]? = some e → ∃ e', es'[i]? = some e' ∧
        e'.tick = e.tick ∧ e'.delta = e.delta ∧ e'.bytes = e.bytes ∧ e.body.SameButTerminator e'.body ∧
        (∀ n, es[i + 1]? = some n → ¬ n.body.IsPacket → (e.body.IsMessage ∨ e.body.IsPacket) → e'.body.Terminated) ∧
        ((∀ n, es[i + 1]? = some n → n.body.IsPacket) → e'.body = e.body)) := by
  constructor
  · intro h; subst h; rfl
  · intro h
    obtain ⟨es', hes⟩ : ∃ es', fixups es = .ok es' := by
      unfold fixups; split
      · contradiction
      · exact ⟨_, rfl⟩
    refine ⟨es', hes, ?_, ?_⟩
    · have : es' = fixContinuations (fixMessages es) := by
        unfold fixups at hes; split at hes
        · simp at hes
        · simpa using hes.symm
      rw [this, fixContinuations_length, fixMessages_length]
    · intro i e he
      refine ⟨_, fixups_get hes i e he, ?_⟩
      cases hn : es[i + 1]? with
      | none => exact ⟨rfl, rfl, rfl, Or.inr (Or.inr rfl), by simp, fun _ => rfl⟩
      | some b =>
        simp only [fixOne]
        cases hc : b.body.isContinuation
        · have hnp : ¬ b.body.IsPacket := by rw [← isContinuation_iff]; simp [hc]
          cases hb : e.body <;> refine ⟨rfl, rfl, rfl, ?_, ?_, fun h => absurd (h b rfl) hnp⟩ <;>
            simp [hb, Body.SameButTerminator, Body.IsMessage, Body.IsPacket, Body.Terminated]
        · have hnp : b.body.IsPacket := (isContinuation_iff _).mp hc
          refine ⟨rfl, rfl, rfl, Or.inr (Or.inr rfl), ?_, fun _ => rfl⟩
          intro n h1 h2
          rw [Option.some.injEq] at h1
          subst h1
          exact absurd hnp h2

/-- **C46, partial.**  For a non-empty track in which no packet is marked as terminated beforehand (which is how packets are
read from text and JSON) and which does not end in a SysEx packet: each SysEx packet comes out terminated exactly when
the next event is not a continuation, and no other event changes.  Missing: empty tracks and tracks that
end in a SysEx packet, for which the property is false (`C46_fixups_fails`). -/
theorem C46_fixups_partial (es : List Event) (hne : es ≠ []) (hraw : ∀ e ∈ es, ¬ e.body.Terminated)
    (hlast : ∀ e, es.getLast? = some e → ¬ e.body.IsMessage ∧ ¬ e.body.IsPacket) :
    ∃ es', fixups es = .ok es' ∧ es'.length = es.length ∧
      ∀ (i : Nat) (e : Event), es[i]? = some e → ∃ e', es'[i]? = some e' ∧
        e'.tick = e.tick ∧ e'.delta = e.delta ∧ e'.bytes = e.bytes ∧ e.body.SameButTerminator e'.body ∧
        ((e.body.IsMessage ∨ e.body.IsPacket) →
          ∃ n, es[i + 1]? = some n ∧ (e'.body.Terminated ↔ ¬ n.body.IsPacket)) ∧
        (¬ (e.body.IsMessage ∨ e.body.IsPacket) → e' = e) := by
  obtain ⟨es', h1, h2, h3⟩ := (C73_fixups_exact es).2 hne
  refine ⟨es', h1, h2, ?_⟩
  intro i e he
  obtain ⟨e', g1, g2, g3, g4, g5, g6, g7⟩ := h3 i e he
  refine ⟨e', g1, g2, g3, g4, g5, ?_, ?_⟩
  · intro hs
    have hlt : i < es.length := by
      rcases Nat.lt_or_ge i es.length with h | h
      · exact h
      · rw [List.getElem?_eq_none h] at he; simp at he
    cases hn : es[i + 1]? with
    | none =>
      have hle : es.length ≤ i + 1 := List.getElem?_eq_none_iff.mp hn
      have : es.getLast? = some e := by
        rw [List.getLast?_eq_getElem?, ← he]; congr 1; omega
      have := hlast e this
      rcases hs with hs | hs
      · exact absurd hs this.1
      · exact absurd hs this.2
    | some n =>
      refine ⟨n, rfl, ?_, fun hp => g6 n hn hp hs⟩
      intro ht hp
      rw [g7 (fun m hm => by rw [hn] at hm; rw [← Option.some.inj hm]; exact hp)] at ht
      exact hraw e (List.mem_of_getElem? he) ht
  · intro hs
    have hb : e'.body = e.body := by
      rcases g5 with ⟨m, d, s, s', hh, _⟩ | ⟨d, x, x', hh, _⟩ | hh
      · exact absurd (Or.inl ⟨m, d, s, hh⟩) hs
      · exact absurd (Or.inr ⟨d, x, hh⟩) hs
      · exact hh.symm
    cases e; cases e'; simp_all

/-- A message in two packets, a message in one packet and an end of track. -/
def fixupsExample : List Event := [
  ⟨0, 0, [], .sysExMessage ⟨[0x43], "Japanese", "Yamaha"⟩ [1, 2] false⟩,
  ⟨0, 3, [], .sysExContinuation [3] false⟩,
  ⟨0, 0, [], .sysExMessage ⟨[0x43], "Japanese", "Yamaha"⟩ [4] false⟩,
  ⟨0, 0, [], .endOfTrack⟩]

/-- The hypotheses of `C46_fixups_partial` hold for a track with split and single SysEx messages. -/
example : fixupsExample ≠ [] ∧ (∀ e ∈ fixupsExample, ¬ e.body.Terminated) ∧
    (∀ e, fixupsExample.getLast? = some e → ¬ e.body.IsMessage ∧ ¬ e.body.IsPacket) ∧
    fixups fixupsExample = .ok [
      ⟨0, 0, [], .sysExMessage ⟨[0x43], "Japanese", "Yamaha"⟩ [1, 2] false⟩,
      ⟨0, 3, [], .sysExContinuation [3] true⟩,
      ⟨0, 0, [], .sysExMessage ⟨[0x43], "Japanese", "Yamaha"⟩ [4] true⟩,
      ⟨0, 0, [], .endOfTrack⟩] := by
  refine ⟨by simp [fixupsExample], ?_, ?_, by rfl⟩
  · intro e he
    simp only [fixupsExample, List.mem_cons, List.not_mem_nil, or_false] at he
    rcases he with he | he | he | he <;> subst he <;> simp [Body.Terminated]
  · intro e he
    simp [fixupsExample] at he
    subst he
    simp [Body.IsMessage, Body.IsPacket]

/-- **C46 is false** in general: an empty track makes the assembler panic, and for every last event that is a SysEx message the
terminator is missing although no continuation follows. -/
theorem C46_fixups_fails :
    fixups [] = .panic ∧
    ∀ (es : List Event) (e : Event) (m : Lib.Manufacturer) (d : Bytes), e.body = .sysExMessage m d false →
      ∃ es', fixups (es ++ [e]) = .ok es' ∧ es'[es.length]? = some e ∧ ¬ e.body.Terminated := by
  refine ⟨rfl, ?_⟩
  intro es e m d he
  obtain ⟨es', h1, h2, h3⟩ := (C73_fixups_exact (es ++ [e])).2 (by simp)
  refine ⟨es', h1, ?_, by rw [he]; simp [Body.Terminated]⟩
  have h0 : (es ++ [e])[es.length]? = some e := by simp
  have := fixups_get h1 es.length e h0
  rw [this]
  have : (es ++ [e])[es.length + 1]? = none := by simp
  rw [this]; rfl

end Midiasm
