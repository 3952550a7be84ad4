import Verif.Model.Pipeline
import Verif.Spec.Pipeline
import Mathlib.Logic.Relation

/-!
Properties C54, C55 and C78: the goroutines of the text assembler.
-/

set_option linter.unusedSimpArgs false

namespace Midiasm
open Spec

/-- `contains` is the substring test. -/
theorem contains_iff (s sub : Bytes) : contains s sub = true ↔ sub <:+: s := by
  induction s with
  | nil =>
    unfold contains
    rw [List.isEmpty_iff, List.infix_nil]
  | cons c rest ih =>
    unfold contains
    rw [Bool.or_eq_true, ih, List.isPrefixOf_iff_prefix, List.infix_cons_iff]

theorem isMThd_iff (l : Bytes) : isMThd l = true ↔ str "MThd" <:+: l := contains_iff _ _

theorem isTag_iff (l : Bytes) : isTag l = true ↔ Starts l := by
  unfold isTag Starts
  rw [Bool.or_eq_true, contains_iff, contains_iff]

/-! ### Sequential chunks -/

theorem chunkifyFrom_spec (rest : List Bytes) : ∀ (h : Bytes) (t : List Bytes), Starts h → (∀ x ∈ t, ¬ Starts x) →
    (chunkifyFrom (h :: t) rest).flatten = h :: t ++ rest ∧
    ∀ c ∈ chunkifyFrom (h :: t) rest, ∃ l t, c = l :: t ∧ Starts l ∧ ∀ x ∈ t, ¬ Starts x := by
  induction rest with
  | nil =>
    intro h t hh ht
    simp only [chunkifyFrom]
    rw [if_neg (by simp)]
    refine ⟨by simp, ?_⟩
    intro c hc
    rw [List.mem_singleton] at hc
    exact ⟨h, t, hc, hh, ht⟩
  | cons l rest ih =>
    intro h t hh ht
    simp only [chunkifyFrom]
    by_cases hl : isTag l = true
    · rw [if_pos hl]
      have hs := (isTag_iff l).mp hl
      obtain ⟨h1, h2⟩ := ih l [] hs (by simp)
      refine ⟨by rw [List.flatten_cons, h1]; simp, ?_⟩
      intro c hc
      rcases List.mem_cons.mp hc with hc | hc
      · exact ⟨h, t, hc, hh, ht⟩
      · exact h2 c hc
    · rw [if_neg hl]
      have hs : ¬ Starts l := fun hs => hl ((isTag_iff l).mpr hs)
      obtain ⟨h1, h2⟩ := ih h (t ++ [l]) hh (by
        intro x hx
        rcases List.mem_append.mp hx with hx | hx
        · exact ht x hx
        · rw [List.mem_singleton] at hx; subst hx; exact hs)
      rw [List.cons_append]
      exact ⟨by rw [h1]; simp, h2⟩

theorem chunkify_spec (lines : List Bytes) : Chunked lines (chunkify lines) := by
  induction lines with
  | nil => exact ⟨⟨[], by simp [chunkify], by simp, by simp [chunkify]⟩, by simp [chunkify]⟩
  | cons l rest ih =>
    unfold chunkify
    by_cases hl : isMThd l = true
    · rw [if_pos hl]
      have hm := (isMThd_iff l).mp hl
      obtain ⟨h1, h2⟩ := chunkifyFrom_spec rest l [] (Or.inl hm) (by simp)
      refine ⟨⟨[], by simp [h1], by simp, ?_⟩, h2⟩
      intro x hx
      rw [h1] at hx
      simp at hx
      rw [← hx]; exact hm
    · rw [if_neg hl]
      obtain ⟨⟨sk, a1, a2, a3⟩, a4⟩ := ih
      refine ⟨⟨l :: sk, by rw [List.cons_append, ← a1], ?_, a3⟩, a4⟩
      intro x hx
      rcases List.mem_cons.mp hx with hx | hx
      · subst hx; intro h; exact hl ((isMThd_iff x).mpr h)
      · exact a2 x hx

/-- The chunks of a text are unique. -/
theorem chunked_unique (lines : List Bytes) (c1 c2 : List (List Bytes)) (h1 : Chunked lines c1) (h2 : Chunked lines c2) : c1 = c2 := by
  obtain ⟨⟨s1, a1, a2, a3⟩, a4⟩ := h1
  obtain ⟨⟨s2, b1, b2, b3⟩, b4⟩ := h2
  have hflat : c1.flatten = c2.flatten := by
    clear a4 b4
    generalize c1.flatten = f1 at a1 a3
    generalize c2.flatten = f2 at b1 b3
    induction s1 generalizing lines s2 with
    | nil =>
      cases s2 with
      | nil => simp only [List.nil_append] at a1 b1; rw [← a1, ← b1]
      | cons x s2 =>
        exfalso
        rw [List.nil_append] at a1
        rw [a1] at b1
        have := a3 x (by rw [b1]; rfl)
        exact b2 x (by simp) this
    | cons x s1 ih =>
      cases s2 with
      | nil =>
        exfalso
        rw [List.nil_append] at b1
        rw [b1] at a1
        have := b3 x (by rw [a1]; rfl)
        exact a2 x (by simp) this
      | cons y s2 =>
        cases lines with
        | nil => simp at a1
        | cons l lines =>
          simp only [List.cons_append, List.cons.injEq] at a1 b1
          exact ih lines (fun x hx => a2 x (List.mem_cons_of_mem _ hx)) s2 (fun x hx => b2 x (List.mem_cons_of_mem _ hx)) a1.2 b1.2
  clear a1 a2 a3 b1 b2 b3
  induction c1 generalizing c2 with
  | nil =>
    cases c2 with
    | nil => rfl
    | cons d c2 =>
      obtain ⟨l, t, e, _⟩ := b4 d (by simp)
      subst e
      simp at hflat
  | cons c c1 ih =>
    obtain ⟨l, t, e, hs, ht⟩ := a4 c (by simp)
    subst e
    cases c2 with
    | nil => simp at hflat
    | cons d c2 =>
      obtain ⟨l', t', e', hs', ht'⟩ := b4 d (by simp)
      subst e'
      simp only [List.flatten_cons, List.cons_append, List.cons.injEq] at hflat
      obtain ⟨hl, hf⟩ := hflat
      have key : ∀ (t t' : List Bytes), (∀ x ∈ t, ¬ Starts x) → (∀ x ∈ t', ¬ Starts x) → t ++ c1.flatten = t' ++ c2.flatten →
          t = t' ∧ c1.flatten = c2.flatten := by
        intro t
        induction t with
        | nil =>
          intro t' _ h' hf
          cases t' with
          | nil => exact ⟨rfl, hf⟩
          | cons x t' =>
            exfalso
            cases c1 with
            | nil => simp at hf
            | cons d1 c1 =>
              obtain ⟨l1, t1, e1, hs1, _⟩ := a4 d1 (by simp)
              subst e1
              simp only [List.nil_append, List.flatten_cons, List.cons_append, List.cons.injEq] at hf
              rw [hf.1] at hs1
              exact h' x (by simp) hs1
        | cons y t ih2 =>
          intro t' h h' hf
          cases t' with
          | nil =>
            exfalso
            cases c2 with
            | nil => simp at hf
            | cons d1 c2 =>
              obtain ⟨l1, t1, e1, hs1, _⟩ := b4 d1 (by simp)
              subst e1
              simp only [List.nil_append, List.flatten_cons, List.cons_append, List.cons.injEq] at hf
              rw [← hf.1] at hs1
              exact h y (by simp) hs1
          | cons x t' =>
            simp only [List.cons_append, List.cons.injEq] at hf
            obtain ⟨e, r⟩ := ih2 t' (fun x hx => h x (by simp [hx])) (fun x hx => h' x (by simp [hx])) hf.2
            exact ⟨by rw [hf.1, e], r⟩
      obtain ⟨ht2, hf2⟩ := key t t' ht ht' hf
      rw [hl, ht2, ih c2 (fun c hc => a4 c (List.mem_cons_of_mem _ hc)) (fun c hc => b4 c (List.mem_cons_of_mem _ hc)) hf2]

/-! ### All interleavings of the pipeline -/

/-- Lines the scanner has not handed over yet. -/
def ScanState.pending : ScanState → List Bytes
  | .scanning r => r
  | .sending l r => l :: r
  | .done => []

/-- What the collected chunks will be in the end. -/
def Pipe.eventual (p : Pipe) : List (List Bytes) :=
  p.received ++
    match p.chunker with
    | .seek => chunkify p.scan.pending
    | .collect k => chunkifyFrom k p.scan.pending
    | .send k l => k :: chunkifyFrom [l] p.scan.pending
    | .final k => if k = [] then [] else [k]
    | .closing => []
    | .done => []

/-- The chunker has left its loops. -/
def ChunkState.late : ChunkState → Bool
  | .final _ | .closing | .done => true
  | _ => false

/-- Holds in every reachable state. -/
def Pipe.Inv (lines : List Bytes) (p : Pipe) : Prop :=
  p.eventual = chunkify lines ∧ (p.chunker.late = true → p.scan = .done) ∧ (p.finished = true → p.chunker = .done)

/-- Decreases with every step. -/
def Pipe.rank (p : Pipe) : Nat :=
  4 * (match p.scan with | .scanning r => 2 * r.length + 1 | .sending _ r => 2 * r.length + 2 | .done => 0) +
  (match p.chunker with | .seek => 5 | .send _ _ => 5 | .collect _ => 4 | .final _ => 3 | .closing => 2 | .done => 1) +
  (if p.finished then 0 else 1)

theorem pipe_rank {a b : Pipe} (h : PipeStep a b) : b.rank < a.rank := by
  cases h <;> simp [Pipe.rank] <;> omega

theorem pipe_inv {lines : List Bytes} {a b : Pipe} (h : PipeStep a b) (hi : a.Inv lines) : b.Inv lines := by
  obtain ⟨h1, h2, h3⟩ := hi
  cases h with
  | scan l r k c f => exact ⟨h1, fun hl => absurd (h2 hl) (by simp), h3⟩
  | scanEnd k c f =>
    refine ⟨?_, fun _ => rfl, h3⟩
    rw [← h1]; rfl
  | seekMiss l r c f hm =>
    refine ⟨?_, fun hl => absurd hl (by simp [ChunkState.late]), fun hf => absurd (h3 hf) (by simp)⟩
    rw [← h1]; simp [Pipe.eventual, ScanState.pending, chunkify, hm]
  | seekHit l r c f hm =>
    refine ⟨?_, fun hl => absurd hl (by simp [ChunkState.late]), fun hf => absurd (h3 hf) (by simp)⟩
    rw [← h1]; simp [Pipe.eventual, ScanState.pending, chunkify, hm]
  | seekEnd c f =>
    refine ⟨?_, fun _ => rfl, fun hf => absurd (h3 hf) (by simp)⟩
    rw [← h1]; simp [Pipe.eventual, ScanState.pending, chunkify, chunkifyFrom]
  | collectTag l r k c f ht =>
    refine ⟨?_, fun hl => absurd hl (by simp [ChunkState.late]), fun hf => absurd (h3 hf) (by simp)⟩
    rw [← h1]; simp [Pipe.eventual, ScanState.pending, chunkifyFrom, ht]
  | collectLine l r k c f ht =>
    refine ⟨?_, fun hl => absurd hl (by simp [ChunkState.late]), fun hf => absurd (h3 hf) (by simp)⟩
    rw [← h1]; simp [Pipe.eventual, ScanState.pending, chunkifyFrom, ht]
  | collectEnd k c f =>
    refine ⟨?_, fun _ => rfl, fun hf => absurd (h3 hf) (by simp)⟩
    rw [← h1]; simp [Pipe.eventual, ScanState.pending, chunkifyFrom]
  | send s k l c =>
    refine ⟨?_, fun hl => absurd hl (by simp [ChunkState.late]), fun hf => absurd hf (by simp)⟩
    rw [← h1]; simp [Pipe.eventual]
  | finalNone s c f =>
    refine ⟨?_, fun _ => h2 rfl, fun hf => absurd (h3 hf) (by simp)⟩
    rw [← h1]; simp [Pipe.eventual]
  | finalSome s k c hk =>
    refine ⟨?_, fun _ => h2 rfl, fun hf => absurd hf (by simp)⟩
    rw [← h1]; simp [Pipe.eventual, hk]
  | close s c f =>
    refine ⟨?_, fun _ => h2 rfl, fun hf => absurd (h3 hf) (by simp)⟩
    rw [← h1]; simp [Pipe.eventual]
  | finish s c =>
    refine ⟨?_, fun _ => h2 rfl, fun _ => rfl⟩
    rw [← h1]; simp [Pipe.eventual]

theorem pipe_stuck {lines : List Bytes} {p : Pipe} (hi : p.Inv lines) (hs : ∀ q, ¬ PipeStep p q) :
    p.scan = .done ∧ p.chunker = .done ∧ p.finished = true := by
  obtain ⟨s, k, c, f⟩ := p
  obtain ⟨_, h2, h3⟩ := hi
  simp only at h2 h3 ⊢
  cases s with
  | scanning r =>
    exfalso
    cases r with
    | nil => exact hs _ (.scanEnd k c f)
    | cons l r => exact hs _ (.scan l r k c f)
  | sending l r =>
    exfalso
    cases k with
    | seek =>
      cases hm : isMThd l with
      | true => exact hs _ (.seekHit l r c f hm)
      | false => exact hs _ (.seekMiss l r c f hm)
    | collect k =>
      cases hm : isTag l with
      | true => exact hs _ (.collectTag l r k c f hm)
      | false => exact hs _ (.collectLine l r k c f hm)
    | send k x =>
      cases f with
      | true => exact absurd (h3 rfl) (by simp)
      | false => exact hs _ (.send _ k x c)
    | final k => exact absurd (h2 rfl) (by simp)
    | closing => exact absurd (h2 rfl) (by simp)
    | done => exact absurd (h2 rfl) (by simp)
  | done =>
    cases k with
    | seek => exact absurd (.seekEnd c f) (hs _)
    | collect k => exact absurd (.collectEnd k c f) (hs _)
    | send k x =>
      cases f with
      | true => exact absurd (h3 rfl) (by simp)
      | false => exact absurd (.send _ k x c) (hs _)
    | final k =>
      by_cases hk : k = []
      · subst hk; exact absurd (.finalNone _ c f) (hs _)
      · cases f with
        | true => exact absurd (h3 rfl) (by simp)
        | false => exact absurd (.finalSome _ k c hk) (hs _)
    | closing => exact absurd (.close _ c f) (hs _)
    | done =>
      cases f with
      | true => exact ⟨rfl, rfl, rfl⟩
      | false => exact absurd (.finish _ c) (hs _)

/-- A run of `n` steps. -/
inductive PipeRun : Nat → Pipe → Pipe → Prop
  | nil (p) : PipeRun 0 p p
  | cons (n p q r) : PipeRun n p q → PipeStep q r → PipeRun (n + 1) p r

/-- **C54.** Whatever the interleaving of the goroutines: a run takes at most `8 * lines + 10` steps; when no step is possible any
more, both goroutines have returned, the reader has left its loop, and the chunks it has are the chunks of the text, which
are unique and are those of the sequential program. -/
theorem C54_pipeline (lines : List Bytes) (n : Nat) (p : Pipe) (h : PipeRun n (pipeStart lines) p) :
    n ≤ 8 * lines.length + 10 ∧
    ((∀ q, ¬ PipeStep p q) → p.scan = .done ∧ p.chunker = .done ∧ p.finished = true ∧ Chunked lines p.received ∧
      p.received = chunkify lines) := by
  have hr : p.Inv lines ∧ n + p.rank ≤ (pipeStart lines).rank := by
    generalize hp0 : pipeStart lines = p0 at h
    induction h with
    | nil =>
      subst hp0
      exact ⟨⟨rfl, by simp [pipeStart, ChunkState.late], by simp [pipeStart]⟩, by simp⟩
    | cons n p q r hrun hstep ih =>
      obtain ⟨ih1, ih2⟩ := ih hp0
      have := pipe_rank hstep
      exact ⟨pipe_inv hstep ih1, by omega⟩
  refine ⟨?_, ?_⟩
  · have : (pipeStart lines).rank = 8 * lines.length + 10 := by simp [pipeStart, Pipe.rank]; omega
    omega
  · intro hs
    obtain ⟨h1, h2, h3⟩ := pipe_stuck hr.1 hs
    have he := hr.1.1
    simp only [Pipe.eventual, h2, List.append_nil] at he
    exact ⟨h1, h2, h3, by rw [he]; exact chunkify_spec lines, he⟩

/-- A text with a comment, a header, two tracks and a blank line, and two different ways for its first steps. -/
example : chunkify [str "%% demo", str "MThd", str "MTrk 0", str "", str "MTrk 1"] =
      [[str "MThd"], [str "MTrk 0", str ""], [str "MTrk 1"]] ∧
    (∃ p, PipeRun 4 (pipeStart [str "MThd", str "MTrk 0", str "x"]) p ∧ p.scan = .scanning [str "x"] ∧
      ∃ q r, PipeStep p q ∧ PipeStep p r ∧ q ≠ r) := by
  refine ⟨by decide +kernel, ⟨.scanning [str "x"], .send [str "MThd"] (str "MTrk 0"), [], false⟩, ?_, rfl, ?_⟩
  · refine .cons _ _ _ _ (.cons _ _ _ _ (.cons _ _ _ _ (.cons _ _ _ _ (.nil _) (.scan _ _ _ _ _)) (.seekHit _ _ _ _ ?_))
      (.scan _ _ _ _ _)) (.collectTag _ _ _ _ _ ?_) <;> decide +kernel
  · exact ⟨_, _, .scan _ _ _ _ _, .send _ _ _ _, by simp⟩

/-! ### Feeding a track -/

/-- The lines after the first one that fails. -/
def unreadEvents (bad : Bytes → Bool) : List Bytes → List Bytes
  | [] => []
  | l :: r => if bad l then r else unreadEvents bad r

/-- The lines that are never received: those after the first failing line after the track tag. -/
def unread (bad : Bytes → Bool) : List Bytes → List Bytes
  | [] => []
  | l :: r => if isMTrk l then unreadEvents bad r else unread bad r

/-- Lines the goroutine still has to send. -/
def FeedState.left : FeedState → List Bytes
  | .feeding ls => ls
  | .done => []

/-- Holds in every reachable state. -/
def Feed.Inv (bad : Bytes → Bool) (chunk : List Bytes) (s : Feed) : Prop :=
  match s.parser, s.closed with
  | .seek, false => unread bad chunk = unread bad s.feeder.left
  | .events, false => unread bad chunk = unreadEvents bad s.feeder.left
  | .returning, false => unread bad chunk = s.feeder.left
  | .returned, true => unread bad chunk = s.feeder.left
  | .returned, false => ∃ x, unread bad chunk = x :: s.feeder.left
  | _, _ => False

/-- Decreases with every step. -/
def Feed.rank (s : Feed) : Nat :=
  (match s.feeder with | .feeding ls => ls.length + 1 | .done => 0) +
  (match s.parser with | .seek => 3 | .events => 2 | .returning => 1 | .returned => 0)

theorem feed_rank {bad : Bytes → Bool} {a b : Feed} (h : FeedStep bad a b) : b.rank < a.rank := by
  cases h <;> simp [Feed.rank]

theorem feed_inv {bad : Bytes → Bool} {chunk : List Bytes} {a b : Feed} (h : FeedStep bad a b) (hi : a.Inv bad chunk) :
    b.Inv bad chunk := by
  cases h with
  | seekMiss l r c hm => cases c <;> simp_all [Feed.Inv, FeedState.left, unread]
  | seekHit l r c hm => cases c <;> simp_all [Feed.Inv, FeedState.left, unread]
  | good l r c hb => cases c <;> simp_all [Feed.Inv, FeedState.left, unreadEvents]
  | fail l r c hb => cases c <;> simp_all [Feed.Inv, FeedState.left, unreadEvents]
  | seekEnd c => cases c <;> simp_all [Feed.Inv, FeedState.left, unread]
  | eventsEnd c => cases c <;> simp_all [Feed.Inv, FeedState.left, unreadEvents]
  | ret s => exact hi
  | closed l r p => cases p <;> simp_all [Feed.Inv, FeedState.left]
  | feedEnd p c => cases p <;> cases c <;> simp_all [Feed.Inv, FeedState.left]

/-- A run of `n` steps. -/
inductive FeedRun (bad : Bytes → Bool) : Nat → Feed → Feed → Prop
  | nil (p) : FeedRun bad 0 p p
  | cons (n p q r) : FeedRun bad n p q → FeedStep bad q r → FeedRun bad (n + 1) p r

/-- The start of parsing a track. -/
def feedStart (chunk : List Bytes) : Feed := ⟨.feeding chunk, .seek, false⟩

/-- **C78.** Whatever the interleaving: parsing a track takes at most `lines + 4` steps of the two goroutines; at the end the parser has
returned, and the helper goroutine has returned exactly when at most one line follows the failing line.  Otherwise it is
blocked forever, holding all but one of the lines that follow. -/
theorem C78_feeder_exact (bad : Bytes → Bool) (chunk : List Bytes) (n : Nat) (s : Feed) (h : FeedRun bad n (feedStart chunk) s) :
    n ≤ chunk.length + 4 ∧
    ((∀ q, ¬ FeedStep bad s q) → s.parser = .returned ∧
      (s.feeder = .done ↔ (unread bad chunk).length ≤ 1) ∧
      (1 < (unread bad chunk).length → s.feeder = .feeding ((unread bad chunk).drop 1))) := by
  have hr : s.Inv bad chunk ∧ n + s.rank ≤ (feedStart chunk).rank := by
    generalize hp0 : feedStart chunk = p0 at h
    induction h with
    | nil => subst hp0; exact ⟨rfl, by simp⟩
    | cons n p q r hrun hstep ih =>
      obtain ⟨ih1, ih2⟩ := ih hp0
      have := feed_rank hstep
      exact ⟨feed_inv hstep ih1, by omega⟩
  refine ⟨?_, ?_⟩
  · have : (feedStart chunk).rank = chunk.length + 4 := by simp [feedStart, Feed.rank]
    omega
  · intro hs
    obtain ⟨f, p, c⟩ := s
    have hi := hr.1
    cases p with
    | seek =>
      exfalso
      cases f with
      | done => exact hs _ (.seekEnd c)
      | feeding ls =>
        cases ls with
        | nil => exact hs _ (.feedEnd _ c)
        | cons l r =>
          cases hm : isMTrk l with
          | true => exact hs _ (.seekHit l r c hm)
          | false => exact hs _ (.seekMiss l r c hm)
    | events =>
      exfalso
      cases f with
      | done => exact hs _ (.eventsEnd c)
      | feeding ls =>
        cases ls with
        | nil => exact hs _ (.feedEnd _ c)
        | cons l r =>
          cases hm : bad l with
          | true => exact hs _ (.fail l r c hm)
          | false => exact hs _ (.good l r c hm)
    | returning =>
      exfalso
      cases c with
      | false => exact hs _ (.ret f)
      | true => exact hi
    | returned =>
      refine ⟨rfl, ?_⟩
      cases f with
      | feeding ls =>
        cases ls with
        | nil => exact absurd (.feedEnd _ c) (hs _)
        | cons l r =>
          cases c with
          | true => exact absurd (.closed l r _) (hs _)
          | false =>
            obtain ⟨x, hx⟩ := hi
            rw [hx]
            simp [FeedState.left]
      | done =>
        cases c with
        | true =>
          have : unread bad chunk = [] := hi
          rw [this]; simp
        | false =>
          obtain ⟨x, hx⟩ := hi
          rw [hx]
          simp [FeedState.left]

/-- **C55, partial.**  When at most one line follows the failing line, the helper goroutine returns in every interleaving.  Missing: it is
blocked forever when two or more lines follow (`C55_feeder_fails`). -/
theorem C55_feeder_partial (bad : Bytes → Bool) (chunk : List Bytes) (hu : (unread bad chunk).length ≤ 1) (n : Nat) (s : Feed)
    (h : FeedRun bad n (feedStart chunk) s) (hs : ∀ q, ¬ FeedStep bad s q) : s.parser = .returned ∧ s.feeder = .done := by
  obtain ⟨h1, h2, _⟩ := (C78_feeder_exact bad chunk n s h).2 hs
  exact ⟨h1, h2.mpr hu⟩

/-- A track whose second event fails, with one more line. -/
example : (unread (fun l => decide (l = str "bad")) [str "MTrk", str "ok", str "bad", str "ok"]).length ≤ 1 := by decide +kernel

/-- **C55 is false**: for every track in which an event line fails and two or more lines follow, every way to interleave the goroutines
ends with the helper goroutine blocked forever. -/
theorem C55_feeder_fails (bad : Bytes → Bool) (tag l x y : Bytes) (good rest : List Bytes) (ht : str "MTrk" <:+: tag)
    (hg : ∀ z ∈ good, bad z = false) (hl : bad l = true) :
    (∀ n s, FeedRun bad n (feedStart (tag :: good ++ l :: x :: y :: rest)) s → (∀ q, ¬ FeedStep bad s q) →
      s.parser = .returned ∧ s.feeder = .feeding (y :: rest)) ∧
    ∃ n s, FeedRun bad n (feedStart (tag :: good ++ l :: x :: y :: rest)) s ∧ ∀ q, ¬ FeedStep bad s q := by
  have hu : unread bad (tag :: good ++ l :: x :: y :: rest) = x :: y :: rest := by
    rw [List.cons_append, unread, if_pos (show isMTrk tag = true from (contains_iff _ _).mpr ht)]
    clear ht
    induction good with
    | nil => simp [unreadEvents, hl]
    | cons g good ih =>
      rw [List.cons_append, unreadEvents, hg g (by simp)]
      simp only [Bool.false_eq_true, if_false]
      exact ih (fun z hz => hg z (by simp [hz]))
  constructor
  · intro n s h hs
    obtain ⟨h1, _, h3⟩ := (C78_feeder_exact bad _ n s h).2 hs
    rw [hu] at h3
    exact ⟨h1, h3 (by simp)⟩
  · have hex : ∀ (k n : Nat) (s : Feed), s.rank ≤ k → FeedRun bad n (feedStart (tag :: good ++ l :: x :: y :: rest)) s →
        ∃ n s, FeedRun bad n (feedStart (tag :: good ++ l :: x :: y :: rest)) s ∧ ∀ q, ¬ FeedStep bad s q := by
      intro k
      induction k with
      | zero =>
        intro n s hk hrun
        exact ⟨n, s, hrun, fun q hq => by have := feed_rank hq; omega⟩
      | succ k ih =>
        intro n s hk hrun
        by_cases hq : ∃ q, FeedStep bad s q
        · obtain ⟨q, hq⟩ := hq
          have := feed_rank hq
          exact ih (n + 1) q (by omega) (.cons _ _ _ _ hrun hq)
        · exact ⟨n, s, hrun, fun q h => hq ⟨q, h⟩⟩
    exact hex _ 0 _ (Nat.le_refl _) (.nil _)

end Midiasm
