import Verif.Lemmas.File
import Verif.Spec.Streams

/-!
Reading from a reader that delivers its bytes in any pieces.
-/

set_option linter.unusedSimpArgs false

namespace Midiasm
open Spec

theorem Ended.yields {σ : Type} {R : Reader σ} {e : ReadErr} {s : σ} (h : Ended R e s) : Yields R e s [] := by
  obtain ⟨P, hs, hP⟩ := h
  refine .step ?_ ?_ ?_
  · intro n hn
    rw [(hP s hs n hn).1]
    simp
  · intro n hn h
    rw [(hP s hs n hn).2.1] at h
    cases h
  · intro n hn e' h
    rw [(hP s hs n hn).2.1] at h
    injection h with h
    exact ⟨h.symm, (hP s hs n hn).1, P, (hP s hs n hn).2.2, hP⟩

/-- The error of a read that is short of bytes. -/
def atEnd (e : ReadErr) (got : Bytes) : Err := if got ≠ [] ∧ e = .eof then .unexpectedEof else e.seen

theorem readAtLeast_yields {σ : Type} {R : Reader σ} {e : ReadErr} {s : σ} {bytes : Bytes} (h : Yields R e s bytes) :
    ∀ n got, ∃ f0,
      (n ≤ bytes.length → ∃ s', (∀ f, f0 ≤ f → readAtLeast R f s n got = .ok (got ++ bytes.take n, s')) ∧
        Yields R e s' (bytes.drop n)) ∧
      (bytes.length < n → ∀ f, f0 ≤ f → readAtLeast R f s n got = .err (atEnd e (got ++ bytes))) := by
  induction h with
  | @step s bytes h1 h2 h3 ih =>
    intro n got
    cases n with
    | zero =>
      refine ⟨0, fun _ => ⟨s, ?_, by simpa using Yields.step h1 h2 h3⟩, fun h => absurd h (by omega)⟩
      intro f _
      cases f <;> simp [readAtLeast]
    | succ n =>
      obtain ⟨hl, hp⟩ := h1 (n + 1) (by omega)
      obtain ⟨rest, hrest⟩ := hp
      cases he : (R.read s (n + 1)).2.1 with
      | none =>
        obtain ⟨f0, ih1, ih2⟩ := ih (n + 1) (by omega) he (n + 1 - (R.read s (n + 1)).1.length)
          (got ++ (R.read s (n + 1)).1)
        have hstep : ∀ f, readAtLeast R (f + 1) s (n + 1) got = readAtLeast R f (R.read s (n + 1)).2.2
            (n + 1 - (R.read s (n + 1)).1.length) (got ++ (R.read s (n + 1)).1) := by
          intro f
          rw [readAtLeast]
          generalize R.read s (n + 1) = r at he
          obtain ⟨b, o, s'⟩ := r
          simp only at he
          subst he
          rfl
        generalize (R.read s (n + 1)).1 = b at *
        subst hrest
        simp only [List.drop_left, List.length_append] at ih1 ih2 ⊢
        refine ⟨f0 + 1, ?_, ?_⟩
        · intro h
          obtain ⟨s', k1, k2⟩ := ih1 (by omega)
          refine ⟨s', ?_, ?_⟩
          · intro f hf
            obtain ⟨f, rfl⟩ : ∃ g, f = g + 1 := ⟨f - 1, by omega⟩
            rw [hstep, k1 f (by omega), List.append_assoc, List.take_append, List.take_of_length_le hl]
          · rw [List.drop_append, List.drop_of_length_le hl]
            exact k2
        · intro h f hf
          obtain ⟨f, rfl⟩ : ∃ g, f = g + 1 := ⟨f - 1, by omega⟩
          rw [hstep, ih2 (by omega) f (by omega), List.append_assoc]
      | some e' =>
        obtain ⟨rfl, hb, hend⟩ := h3 (n + 1) (by omega) e' he
        have hy := Ended.yields hend
        have hstep : ∀ f, readAtLeast R (f + 1) s (n + 1) got =
            if n + 1 - (R.read s (n + 1)).1.length = 0 then .ok (got ++ (R.read s (n + 1)).1, (R.read s (n + 1)).2.2)
            else if got ++ (R.read s (n + 1)).1 ≠ [] ∧ e' = .eof then .err .unexpectedEof
            else .err e'.seen := by
          intro f
          rw [readAtLeast]
          generalize R.read s (n + 1) = r at he
          obtain ⟨b, o, s'⟩ := r
          simp only at he
          subst he
          rfl
        rw [hb] at hstep hl
        refine ⟨1, ?_, ?_⟩
        · intro h
          refine ⟨(R.read s (n + 1)).2.2, ?_, ?_⟩
          · intro f hf
            obtain ⟨f, rfl⟩ : ∃ g, f = g + 1 := ⟨f - 1, by omega⟩
            rw [hstep, if_pos (by omega), List.take_of_length_le (by omega)]
          · rw [List.drop_of_length_le (by omega)]
            exact hy
        · intro h f hf
          obtain ⟨f, rfl⟩ : ∃ g, f = g + 1 := ⟨f - 1, by omega⟩
          rw [hstep, if_neg (by omega), atEnd]
          split <;> rfl

/-- What the error of a short read becomes when the reader ends with `e`. -/
def endsWith (e : ReadErr) (k : Err) : Err :=
  match e with
  | .eof => k
  | .wrapsEof => .eof
  | .other => .other

theorem atEnd_endsWith (e : ReadErr) (bytes : Bytes) :
    atEnd e bytes = endsWith e (if bytes.length = 0 then .eof else .unexpectedEof) := by
  cases bytes <;> cases e <;> rfl

theorem readFullFrom_yields {σ : Type} {R : Reader σ} {e : ReadErr} {s : σ} {bytes : Bytes} (h : Yields R e s bytes)
    (n : Nat) : ∃ f0,
      (∀ b r, readFull n bytes = .ok (b, r) → ∃ s', (∀ f, f0 ≤ f → readFullFrom R f s n = .ok (b, s')) ∧ Yields R e s' r) ∧
      (∀ k, readFull n bytes = .err k → ∀ f, f0 ≤ f → readFullFrom R f s n = .err (endsWith e k)) := by
  obtain ⟨f0, h1, h2⟩ := readAtLeast_yields h n []
  refine ⟨f0, ?_, ?_⟩
  · intro b r hr
    rw [readFull] at hr
    split at hr
    · rename_i hle
      injection hr with hr
      injection hr with hb hr
      subst hb hr
      obtain ⟨s', k1, k2⟩ := h1 hle
      exact ⟨s', fun f hf => by simpa [readFullFrom] using k1 f hf, k2⟩
    · split at hr <;> cases hr
  · intro k hr f hf
    rw [readFull] at hr
    split at hr
    · cases hr
    · rename_i hle
      rw [readFullFrom, h2 (by omega) f hf, List.nil_append, atEnd_endsWith]
      split at hr <;> injection hr with hr <;> subst hr <;> simp [*]

theorem nextChunkFrom_yields {σ : Type} {R : Reader σ} {e : ReadErr} {s : σ} {bytes : Bytes} (h : Yields R e s bytes) :
    ∃ f0,
      (∀ c r, nextChunk bytes = .ok (c, r) → ∃ s', (∀ f, f0 ≤ f → nextChunkFrom R f s = .ok (c, s')) ∧ Yields R e s' r) ∧
      (∀ k, nextChunk bytes = .err k → ∀ f, f0 ≤ f → nextChunkFrom R f s = .err (endsWith e k)) := by
  obtain ⟨f1, h1, h2⟩ := readFullFrom_yields h 8
  cases hr : readFull 8 bytes with
  | ok v =>
    obtain ⟨b, r⟩ := v
    obtain ⟨s1, k1, k2⟩ := h1 b r hr
    cases hn : beUint32 (b.drop 4) with
    | ok n =>
      obtain ⟨f2, h3, h4⟩ := readFullFrom_yields k2 n.toNat
      refine ⟨max f1 f2, ?_, ?_⟩
      · intro c r' hc
        rw [nextChunk, hr, Outcome.bind_ok] at hc
        simp only [hn, Outcome.bind_ok] at hc
        cases hr2 : readFull n.toNat r with
        | ok v =>
          obtain ⟨b2, r2⟩ := v
          rw [hr2, Outcome.bind_ok] at hc
          injection hc with hc
          injection hc with hc1 hc2
          subst hc1 hc2
          obtain ⟨s2, k3, k4⟩ := h3 b2 r2 hr2
          refine ⟨s2, ?_, k4⟩
          intro f hf
          rw [nextChunkFrom, k1 f (by omega), Outcome.bind_ok]
          simp only [hn, Outcome.bind_ok]
          rw [k3 f (by omega)]
          rfl
        | err k => rw [hr2] at hc; cases hc
        | panic => rw [hr2] at hc; cases hc
        | diverge => rw [hr2] at hc; cases hc
      · intro k hc f hf
        rw [nextChunk, hr, Outcome.bind_ok] at hc
        simp only [hn, Outcome.bind_ok] at hc
        rw [nextChunkFrom, k1 f (by omega), Outcome.bind_ok]
        simp only [hn, Outcome.bind_ok]
        cases hr2 : readFull n.toNat r with
        | ok v =>
          obtain ⟨b2, r2⟩ := v
          rw [hr2] at hc
          cases hc
        | err k' =>
          rw [hr2] at hc
          injection hc with hc
          subst hc
          rw [h4 k' hr2 f (by omega)]
          rfl
        | panic => rw [hr2] at hc; cases hc
        | diverge => rw [hr2] at hc; cases hc
    | err k =>
      exfalso
      generalize List.drop 4 b = l at hn
      rw [beUint32.eq_def] at hn
      split at hn <;> cases hn
    | panic =>
      exfalso
      have hb : b.length = 8 := by
        rw [readFull] at hr
        split at hr
        · injection hr with hr
          injection hr with hr _
          subst hr
          simp
          omega
        · split at hr <;> cases hr
      match b, hb with
      | [_, _, _, _, _, _, _, _], _ => simp [beUint32] at hn
    | diverge =>
      exfalso
      generalize List.drop 4 b = l at hn
      rw [beUint32.eq_def] at hn
      split at hn <;> cases hn
  | err k =>
    refine ⟨f1, ?_, ?_⟩
    · intro c r hc
      rw [nextChunk, hr] at hc
      cases hc
    · intro k' hc f hf
      rw [nextChunk, hr] at hc
      injection hc with hc
      subst hc
      rw [nextChunkFrom, h2 k hr f hf]
      rfl
  | panic =>
    rw [readFull] at hr
    split at hr
    · cases hr
    · split at hr <;> cases hr
  | diverge =>
    rw [readFull] at hr
    split at hr
    · cases hr
    · split at hr <;> cases hr

/-- The result of the chunk loop for whole chunks and a tail. -/
def loopEnd (e : ReadErr) (k : Err) (cs : List Bytes) : Outcome (List Bytes) :=
  match endsWith e k with
  | .eof => .ok cs
  | k => .err k

theorem loopEnd_cons (e : ReadErr) (k : Err) (c : Bytes) (cs : List Bytes) :
    (loopEnd e k cs >>= fun r => .ok (c :: r)) = loopEnd e k (c :: cs) := by
  rw [loopEnd, loopEnd]
  cases endsWith e k <;> rfl

theorem chunkLoopFrom_yields {σ : Type} {R : Reader σ} {e : ReadErr} (cs : List Chunk) (wf : ∀ c ∈ cs, c.Wf)
    {tail : Bytes} {k : Err} (hk : nextChunk tail = .err k) :
    ∀ {s : σ}, Yields R e s (fileBytes cs ++ tail) → ∃ f0, ∀ inner f, f0 ≤ inner → f0 ≤ f →
      chunkLoopFrom R inner f s = loopEnd e k (cs.map Chunk.bytes) := by
  induction cs with
  | nil =>
    intro s h
    obtain ⟨f0, _, h2⟩ := nextChunkFrom_yields h
    refine ⟨f0 + 1, ?_⟩
    intro inner f hi hf
    obtain ⟨f, rfl⟩ : ∃ g, f = g + 1 := ⟨f - 1, by omega⟩
    rw [chunkLoopFrom, h2 k (by simpa [fileBytes] using hk) inner (by omega), loopEnd]
    cases endsWith e k <;> rfl
  | cons c cs ih =>
    intro s h
    have hb : fileBytes (c :: cs) ++ tail = c.bytes ++ (fileBytes cs ++ tail) := by simp [fileBytes]
    rw [hb] at h
    obtain ⟨f1, h1, _⟩ := nextChunkFrom_yields h
    obtain ⟨s', k1, k2⟩ := h1 _ _ (nextChunk_chunk c (wf c (by simp)) _)
    obtain ⟨f2, h2⟩ := ih (fun c hc => wf c (by simp [hc])) k2
    refine ⟨f1 + f2 + 1, ?_⟩
    intro inner f hi hf
    obtain ⟨f, rfl⟩ : ∃ g, f = g + 1 := ⟨f - 1, by omega⟩
    rw [chunkLoopFrom, k1 inner (by omega)]
    simp only
    rw [h2 inner f (by omega) (by omega), List.map_cons]
    exact loopEnd_cons e k c.bytes (cs.map Chunk.bytes)

theorem pieces_one (e : ReadErr) (together : Bool) (p : Bytes) (n : Nat) : (pieces e together).read [p] n =
    if p.length ≤ n then (p, if together then some e else none, []) else (p.take n, none, [p.drop n]) := rfl

theorem pieces_more (e : ReadErr) (together : Bool) (p q : Bytes) (ps : List Bytes) (n : Nat) :
    (pieces e together).read (p :: q :: ps) n =
      if p.length ≤ n then (p, none, q :: ps) else (p.take n, none, p.drop n :: q :: ps) := rfl

/-- The reader of `pieces` delivers its pieces. -/
theorem pieces_yields (e : ReadErr) (together : Bool) (ps : List Bytes) :
    Yields (pieces e together) e ps ps.flatten := by
  have hend : Ended (pieces e together) e [] := ⟨(· = []), rfl, by
    rintro s rfl n _
    exact ⟨rfl, rfl, rfl⟩⟩
  have key : ∀ m (ps : List Bytes), ps.flatten.length + ps.length ≤ m → Yields (pieces e together) e ps ps.flatten := by
    intro m
    induction m with
    | zero =>
      intro ps hm
      match ps, hm with
      | [], _ => exact Ended.yields hend
    | succ m ih =>
      intro ps hm
      match ps, hm with
      | [], _ => exact Ended.yields hend
      | [p], hm =>
        refine .step ?_ ?_ ?_
        · intro n hn
          simp only [pieces_one, pieces_more]
          split
          · simpa
          · refine ⟨by simp; omega, ?_⟩
            simpa using List.take_prefix n p
        · intro n hn
          simp only [pieces_one, pieces_more]
          split
          · intro _
            have hy := Ended.yields hend
            simpa using hy
          · rename_i hlt
            intro _
            have hmin : min n p.length = n := by omega
            have := ih [p.drop n] (by simp at hm ⊢; omega)
            simpa [hmin] using this
        · intro n hn e'
          simp only [pieces_one, pieces_more]
          split
          · cases together
            · simp
            · simp
              intro h
              exact ⟨h.symm, hend⟩
          · simp
      | p :: q :: ps, hm =>
        refine .step ?_ ?_ ?_
        · intro n hn
          simp only [pieces_one, pieces_more]
          split
          · simpa
          · refine ⟨by simp; omega, ?_⟩
            exact List.IsPrefix.trans (List.take_prefix n p) (by simp)
        · intro n hn
          simp only [pieces_one, pieces_more]
          split
          · intro _
            have := ih (q :: ps) (by simp at hm ⊢; omega)
            simpa using this
          · rename_i hlt
            intro _
            have hmin : min n p.length = n := by omega
            have := ih (p.drop n :: q :: ps) (by simp at hm ⊢; omega)
            have hz : n - p.length = 0 := by omega
            simpa [hmin, List.drop_append, hz] using this
        · intro n hn e'
          simp only [pieces_one, pieces_more]
          split <;> simp
  exact key _ ps (Nat.le_refl _)

end Midiasm
