import Verif.Spec.Stalled
import Verif.Props.JsonStream
import Verif.Props.TextStreams

/-!
C142: readers that do not come to an end.
-/

set_option linter.unusedSimpArgs false

namespace Midiasm
open Spec

theorem idle_stays {σ : Type} {R : Reader σ} {s : σ} (h : Idle R s) {n : Nat} (hn : 0 < n) :
    (R.read s n).1 = [] ∧ (R.read s n).2.1 = none ∧ Idle R (R.read s n).2.2 := by
  obtain ⟨P, hs, hP⟩ := h
  obtain ⟨h1, h2, h3⟩ := hP s hs n hn
  exact ⟨h1, h2, P, h3, hP⟩

theorem stalls_neverFails {σ : Type} {R : Reader σ} {s : σ} {bytes : List UInt8} (h : Stalls R s bytes) : NeverFails R s := by
  refine ⟨fun s => ∃ bytes, Stalls R s bytes, ⟨bytes, h⟩, ?_⟩
  rintro s ⟨bytes, h⟩ n hn
  cases h with
  | idle h =>
    obtain ⟨_, h2, h3⟩ := idle_stays h hn
    exact ⟨h2, [], .idle h3⟩
  | step h1 h2 => exact ⟨(h1 n hn).2.2.2, _, h2 n hn⟩

/-! The decoder -/

theorem readAtLeast_never {σ : Type} {R : Reader σ} {P : σ → Prop} (hP : ∀ s, P s → ∀ n, 0 < n → (R.read s n).2.1 = none ∧ P (R.read s n).2.2) :
    ∀ (f : Nat) (s : σ) (n : Nat) (got : Bytes), P s →
      readAtLeast R f s n got = .diverge ∨ ∃ b s', readAtLeast R f s n got = .ok (b, s') ∧ P s' ∧ got.length + n ≤ b.length := by
  intro f
  induction f with
  | zero =>
    intro s n got hs
    cases n with
    | zero => exact Or.inr ⟨got, s, rfl, hs, Nat.le_refl _⟩
    | succ n => exact Or.inl rfl
  | succ f ih =>
    intro s n got hs
    cases n with
    | zero => exact Or.inr ⟨got, s, rfl, hs, Nat.le_refl _⟩
    | succ n =>
      obtain ⟨h1, h2⟩ := hP s hs (n + 1) (by omega)
      rw [readAtLeast]
      generalize R.read s (n + 1) = r at h1 h2
      obtain ⟨b, e, s'⟩ := r
      simp only at h1 h2
      subst h1
      rcases ih s' (n + 1 - b.length) (got ++ b) h2 with h | ⟨b', s'', h, h3, h4⟩
      · exact Or.inl h
      · refine Or.inr ⟨b', s'', h, h3, ?_⟩
        rw [List.length_append] at h4
        omega

theorem nextChunkFrom_never {σ : Type} {R : Reader σ} {P : σ → Prop} (hP : ∀ s, P s → ∀ n, 0 < n → (R.read s n).2.1 = none ∧ P (R.read s n).2.2)
    (f : Nat) (s : σ) (hs : P s) : nextChunkFrom R f s = .diverge ∨ ∃ c s', nextChunkFrom R f s = .ok (c, s') ∧ P s' := by
  unfold nextChunkFrom readFullFrom
  rcases readAtLeast_never hP f s 8 [] hs with h | ⟨b, s1, h, h1, h2⟩
  · rw [h]; exact Or.inl rfl
  · rw [h, Outcome.bind_ok]
    simp only
    have hb : ∃ n, beUint32 (b.drop 4) = .ok n := by
      rcases b with _ | ⟨b0, _ | ⟨b1, _ | ⟨b2, _ | ⟨b3, _ | ⟨b4, _ | ⟨b5, _ | ⟨b6, _ | ⟨b7, b⟩⟩⟩⟩⟩⟩⟩⟩ <;> simp only [List.length_cons, List.length_nil] at h2 <;> try omega
      exact ⟨_, rfl⟩
    obtain ⟨n, hn⟩ := hb
    rw [hn, Outcome.bind_ok]
    rcases readAtLeast_never hP f s1 n.toNat [] h1 with h | ⟨b', s2, h, h3, _⟩
    · rw [h]; exact Or.inl rfl
    · rw [h]; exact Or.inr ⟨_, s2, rfl, h3⟩

theorem chunkLoopFrom_never {σ : Type} {R : Reader σ} {P : σ → Prop} (hP : ∀ s, P s → ∀ n, 0 < n → (R.read s n).2.1 = none ∧ P (R.read s n).2.2)
    (g : Nat) : ∀ (f : Nat) (s : σ), P s → chunkLoopFrom R g f s = .diverge := by
  intro f
  induction f with
  | zero => intro s _; rfl
  | succ f ih =>
    intro s hs
    rw [chunkLoopFrom]
    rcases nextChunkFrom_never hP g s hs with h | ⟨c, s', h, h'⟩
    · rw [h]
    · rw [h]
      simp only
      rw [ih s' h']
      rfl

/-! The scanner: what it sees of a stalled reader is a reader that fails -/

/-- The reader that the scanner sees. -/
def patient {σ : Type} (R : Reader σ) : Reader σ where
  read s n := readSome R 100 s n

theorem readSome_length {σ : Type} (R : Reader σ) (n : Nat) : ∀ (loops : Nat) (s : σ),
    (readSome R loops s n).1.length ≤ n ∧ ((readSome R loops s n).2.1 = none → (readSome R loops s n).1 ≠ []) := by
  intro loops
  induction loops with
  | zero =>
    intro s
    rw [readSome_eq]
    split
    · simp
    · split
      · exact ⟨by simp only; omega, by simp⟩
      · split
        · rename_i h; exact ⟨by simp only; omega, fun _ => h⟩
        · simp
  | succ loops ih =>
    intro s
    rw [readSome_eq]
    split
    · simp
    · split
      · exact ⟨by simp only; omega, by simp⟩
      · split
        · rename_i h; exact ⟨by simp only; omega, fun _ => h⟩
        · exact ih _

theorem readSome_patient {σ : Type} (R : Reader σ) (s : σ) (n : Nat) : readSome (patient R) 100 s n = readSome R 100 s n := by
  obtain ⟨h1, h2⟩ := readSome_length R n 100 s
  rw [readSome_eq (patient R)]
  show (if n < (readSome R 100 s n).1.length then _ else _) = _
  rw [if_neg (by omega)]
  generalize hr : readSome R 100 s n = r at h1 h2
  obtain ⟨b, e, s'⟩ := r
  have hr' : (patient R).read s n = (b, e, s') := hr
  rw [hr']
  cases e with
  | some e => rfl
  | none =>
    simp only
    rw [if_pos (h2 rfl)]

theorem scanLoop_patient {σ : Type} (R : Reader σ) : ∀ (f : Nat) (st : Scanner) (s : σ), scanLoop (patient R) f st s = scanLoop R f st s := by
  intro f
  induction f with
  | zero => intro st s; rfl
  | succ f ih =>
    intro st s
    rw [scanLoop, scanLoop]
    simp only [readSome_patient, ih]

theorem readSome_idle {σ : Type} {R : Reader σ} {n : Nat} (hn : 0 < n) : ∀ (loops : Nat) {s : σ}, Idle R s →
    ∃ s', readSome R loops s n = ([], some .other, s') := by
  intro loops
  induction loops with
  | zero =>
    intro s h
    obtain ⟨h1, h2, h3⟩ := idle_stays h hn
    rw [readSome_eq, h1, h2]
    exact ⟨_, rfl⟩
  | succ loops ih =>
    intro s h
    obtain ⟨h1, h2, h3⟩ := idle_stays h hn
    rw [readSome_eq, h1, h2]
    exact ih h3

theorem stalls_feeds {σ : Type} {R : Reader σ} {s : σ} {bytes : List UInt8} (h : Stalls R s bytes) :
    Feeds (patient R) .other (some false) 0 s bytes := by
  induction h with
  | @idle s h =>
    have key : ∀ n, 0 < n → ∃ s', (patient R).read s n = ([], some .other, s') := fun n hn => readSome_idle hn 100 h
    refine .step ?_ ?_ ?_ ?_ ?_ ?_ <;> intro n hn <;> obtain ⟨s', hr⟩ := key n hn <;> rw [hr]
    · simp
    · intro h; cases h
    · intro h; cases h
    · intro h; cases h
    · intro h; cases h
    · intro e' h
      injection h with h
      exact ⟨h.symm, rfl, fun _ => rfl⟩
  | @step s bytes h1 h2 ih =>
    have key : ∀ n, 0 < n → (patient R).read s n = R.read s n := by
      intro n hn
      obtain ⟨k1, k2, k3, k4⟩ := h1 n hn
      show readSome R 100 s n = _
      rw [readSome_eq, if_neg (by omega), k4]
      simp only
      rw [if_pos k1]
      generalize R.read s n = r at k4
      obtain ⟨b, e, s'⟩ := r
      simp only at k4
      subst k4
      rfl
    refine .step ?_ ?_ ?_ ?_ ?_ ?_ <;> intro n hn <;> rw [key n hn] <;> obtain ⟨k1, k2, k3, k4⟩ := h1 n hn
    · exact ⟨k2, k3⟩
    · intro _ h; exact absurd h k1
    · intro _ h; exact absurd h k1
    · intro _ _; exact ih n hn
    · intro _ _ h; cases h
    · intro e' h; rw [k4] at h; cases h

/-! JSON -/

theorem readValueFrom_idle {σ : Type} {R : Reader σ} : ∀ (f : Nat) {s : σ} (cap : Nat) (buf : Bytes), Idle R s → buf.length ≤ cap →
    endsThere buf = false → readValueFrom R f s cap buf = .diverge := by
  intro f
  induction f with
  | zero => intros; rfl
  | succ f ih =>
    intro s cap buf h hcap hend
    have hpos : 0 < roomy cap buf.length - buf.length := by
      rcases roomy_pos cap buf.length with h | h
      · exact h
      · omega
    have hge : cap ≤ roomy cap buf.length := by unfold roomy; split <;> omega
    obtain ⟨h1, h2, h3⟩ := idle_stays h hpos
    rw [readValueFrom]
    generalize R.read s (roomy cap buf.length - buf.length) = r at h1 h2 h3
    obtain ⟨b, e, s'⟩ := r
    simp only at h1 h2 h3
    subst h1 h2
    simp only [List.append_nil, hend, Bool.false_eq_true, if_false]
    exact ih _ _ h3 (by omega) hend

theorem readValueFrom_stalls {σ : Type} {R : Reader σ} {s : σ} {bytes : Bytes} (h : Stalls R s bytes) :
    ∀ (cap : Nat) (buf : Bytes), buf.length ≤ cap → endsThere buf = false →
      (endsThere (buf ++ bytes) = true → ∃ f0, ∀ f, f0 ≤ f → ∃ p x, buf ++ bytes = p ++ x ∧ endsThere p = true ∧ readValueFrom R f s cap buf = .ok p) ∧
      (endsThere (buf ++ bytes) = false → ∀ f, readValueFrom R f s cap buf = .diverge) := by
  induction h with
  | @idle s h =>
    intro cap buf hcap hend
    rw [List.append_nil]
    exact ⟨fun hx => (by rw [hend] at hx; cases hx), fun _ f => readValueFrom_idle f cap buf h hcap hend⟩
  | @step s bytes h1 h2 ih =>
    intro cap buf hcap hend0
    have hpos : 0 < roomy cap buf.length - buf.length := by
      rcases roomy_pos cap buf.length with h | h
      · exact h
      · omega
    have hge : cap ≤ roomy cap buf.length := by unfold roomy; split <;> omega
    generalize hn : roomy cap buf.length - buf.length = n at hpos
    obtain ⟨_, hlen, ⟨t, ht⟩, he⟩ := h1 n hpos
    have hstep := ih n hpos
    cases hr : R.read s n with
    | mk b r2 =>
    cases r2 with
    | mk e' s' =>
    rw [hr] at hlen ht he hstep
    simp only at hlen ht he hstep
    subst he
    have hunf : ∀ f, readValueFrom R (f + 1) s cap buf =
        if endsThere (buf ++ b) then .ok (buf ++ b) else readValueFrom R f s' (roomy cap buf.length) (buf ++ b) := by
      intro f
      rw [readValueFrom, hn, hr]
    by_cases hend : endsThere (buf ++ b) = true
    · have hm := (endsThere_more hend t).2
      rw [List.append_assoc, ht] at hm
      refine ⟨fun _ => ⟨1, fun f hf => ?_⟩, fun hx => by rw [hm] at hx; cases hx⟩
      obtain ⟨f, rfl⟩ : ∃ f', f = f' + 1 := ⟨f - 1, by omega⟩
      rw [hunf, if_pos hend]
      exact ⟨buf ++ b, t, by rw [List.append_assoc, ht], hend, rfl⟩
    · rw [show bytes.drop b.length = t by rw [← ht, List.drop_left]] at hstep
      have := hstep (roomy cap buf.length) (buf ++ b) (by rw [List.length_append]; omega) (by simpa using hend)
      rw [List.append_assoc, ht] at this
      refine ⟨fun hx => ?_, fun hx f => ?_⟩
      · obtain ⟨f0, h0⟩ := this.1 hx
        refine ⟨f0 + 1, fun f hf => ?_⟩
        obtain ⟨f, rfl⟩ : ∃ f', f = f' + 1 := ⟨f - 1, by omega⟩
        rw [hunf, if_neg hend]
        exact h0 f (by omega)
      · cases f with
        | zero => rfl
        | succ f => rw [hunf, if_neg hend]; exact this.2 hx f

/-- C142, the part that holds: a reader that delivers nothing for ever makes assembling a text fail, whatever was delivered before; a JSON
document that was delivered completely is assembled. -/
theorem C142_stalled_partial (mc : MiddleC) (table : List (String × Lib.Manufacturer)) {σ : Type} (R : Reader σ) (s : σ) (text : List UInt8)
    (h : Stalls R s text) :
    (∃ f0, ∀ f, f0 ≤ f → assembleTextFrom table R f s = .err .other) ∧
    (BeginsComplete text → ∃ f0, ∀ f, f0 ≤ f → assembleJsonFrom mc R f s = assembleJsonText mc text) := by
  refine ⟨?_, fun hc => ?_⟩
  · obtain ⟨f0, h0⟩ := C131_text_read_failure table (patient R) .other (by decide) _ s text (stalls_feeds h)
    refine ⟨f0, fun f hf => ?_⟩
    rw [← h0 f hf]
    unfold assembleTextFrom readChunksFrom
    rw [scanLoop_patient]
  · obtain ⟨f0, h0⟩ := (readValueFrom_stalls h 0 [] (Nat.le_refl _) rfl).1 ((endsThere_iff _).mpr hc)
    refine ⟨f0, fun f hf => ?_⟩
    obtain ⟨p, x, e, hp, hr⟩ := h0 f hf
    rw [List.nil_append] at e
    subst e
    unfold assembleJsonFrom
    rw [hr, Outcome.bind_ok, assembleJsonText_ends hp]

/-- C142 is false: assembling JSON never ends if no document is complete. -/
theorem C142_stalled_fails (mc : MiddleC) {σ : Type} (R : Reader σ) (s : σ) (text : List UInt8) (h : Stalls R s text)
    (hc : ¬ BeginsComplete text) (f : Nat) : assembleJsonFrom mc R f s = .diverge := by
  have := (readValueFrom_stalls h 0 [] (Nat.le_refl _) rfl).2 (by
    rw [List.nil_append]
    cases hx : endsThere text with
    | false => rfl
    | true => exact absurd ((endsThere_iff _).mp hx) hc) f
  unfold assembleJsonFrom
  rw [this]
  rfl

/-- C142 is false: decoding never ends, whatever was delivered, as long as no read fails. -/
theorem C142_decoding_never_ends (mc : MiddleC) (spare : List UInt8) {σ : Type} (R : Reader σ) (s : σ) (h : NeverFails R s) (f : Nat) :
    decodeFrom mc spare R f s = .diverge := by
  obtain ⟨P, hs, hP⟩ := h
  unfold decodeFrom
  rw [chunkLoopFrom_never hP f f s hs]
  rfl

theorem stalled_stalls : ∀ (k : Nat) (bytes : List UInt8), bytes.length ≤ k → Stalls stalled bytes bytes := by
  intro k
  induction k with
  | zero =>
    intro bytes hk
    cases bytes with
    | nil => exact .idle ⟨fun s => s = [], rfl, by rintro s rfl n _; simp [stalled]⟩
    | cons => simp at hk
  | succ k ih =>
    intro bytes hk
    by_cases hb : bytes = []
    · subst hb; exact ih [] (by simp)
    · have hpos := List.length_pos_of_ne_nil hb
      refine .step (fun n hn => ?_) (fun n hn => ?_)
      · refine ⟨?_, ?_, ?_, rfl⟩
        · show bytes.take n ≠ []
          rw [← List.length_pos_iff, List.length_take]
          omega
        · show (bytes.take n).length ≤ n
          rw [List.length_take]; omega
        · exact List.take_prefix n bytes
      · show Stalls stalled (bytes.drop n) (bytes.drop (bytes.take n).length)
        have hd : bytes.drop (bytes.take n).length = bytes.drop n := by
          rw [List.length_take]
          rcases Nat.le_total n bytes.length with h | h
          · rw [Nat.min_eq_left h]
          · rw [Nat.min_eq_right h, List.drop_of_length_le (Nat.le_refl _), List.drop_of_length_le h]
        rw [hd]
        exact ih _ (by rw [List.length_drop]; omega)

/-- A text and a file followed by nothing for ever, and half a JSON document. -/
example : (∃ f0, ∀ f, f0 ≤ f → assembleTextFrom Lib.manufacturers stalled f writtenText = .err .other) ∧
    (∀ f, decodeFrom .c3 [] stalled f plainFile = .diverge) ∧
    (∃ f0, ∀ f, f0 ≤ f → assembleJsonFrom .c3 stalled f repeatedText = .ok repeatedFile) ∧
    ∀ f, assembleJsonFrom .c3 stalled f (repeatedText.take 500) = .diverge := by
  refine ⟨(C142_stalled_partial .c3 _ _ _ _ (stalled_stalls _ _ (Nat.le_refl _))).1,
    fun f => C142_decoding_never_ends _ _ _ _ (stalls_neverFails (stalled_stalls _ _ (Nat.le_refl _))) f, ?_, ?_⟩
  · obtain ⟨b, h1, h2⟩ := Outcome.of_test (o := assembleJsonText .c3 repeatedText) (p := fun b => decide (b = repeatedFile)) (by decide +kernel)
    obtain rfl := of_decide_eq_true h2
    rw [← h1]
    refine (C142_stalled_partial .c3 Lib.manufacturers _ _ _ (stalled_stalls _ _ (Nat.le_refl _))).2 ?_
    obtain ⟨a, s, rest, ms, k1, k2, k3, k4, _⟩ := C90_malformed_rejected .c3 _ _ h1
    exact ⟨a, s, rest, _, k1, k2, k3, k4, Or.inl ⟨ms, rfl⟩⟩
  · refine C142_stalled_fails .c3 _ _ _ (stalled_stalls _ _ (Nat.le_refl _)) ?_
    rw [← endsThere_iff]
    have : endsThere (repeatedText.take 500) = false := by decide +kernel
    rw [this]
    simp

end Midiasm
