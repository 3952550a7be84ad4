import Verif.Props.Blank
import Verif.Spec.OneTrack

/-!
C173: a change to the lines of one track of a text changes only the chunk of that track.
-/

set_option linter.unusedSimpArgs false

namespace Midiasm
open Spec

/-! ### Each text stands for one list of tracks only -/

theorem holds_unique {table : List (String × Lib.Manufacturer)} {ls : List Bytes} {es es' : List Event} (h : TrackHolds table ls es)
    (h' : TrackHolds table ls es') : es = es' := by
  induction h generalizing es' with
  | nil => cases h'; rfl
  | skip l ls es hl _ ih =>
    cases h' with
    | skip _ _ _ _ h => exact ih h
    | event _ _ _ _ h => exact absurd hl h
  | event l ls e es hl hr _ ih =>
    cases h' with
    | skip _ _ _ h => exact absurd h hl
    | event _ _ e' es' _ hr' h =>
      have h1 := (C132_line_means table l e).mpr hr
      rw [(C132_line_means table l e').mpr hr'] at h1
      injection h1 with h1
      rw [h1, ih h]

theorem terminators_unique {es a b : List Event} (h : TerminatorsRestored es a) (h' : TerminatorsRestored es b) : a = b := by
  have h1 := (fixups_iff es a).mpr h
  rw [(fixups_iff es b).mpr h'] at h1
  injection h1 with h1
  exact h1.symm

theorem headerLine_unique {l : Bytes} {f d f' d' : Nat} (hm : str "MThd" <:+: l) (h : HeaderLine l f d) (h' : HeaderLine l f' d') : f = f' ∧ d = d' := by
  obtain ⟨m, h1, h2⟩ := parseMThd_header l [] hm f d h
  obtain ⟨m', h3, h4⟩ := parseMThd_header l [] hm f' d' h'
  rw [h1] at h3
  injection h3 with h3
  subst h3
  have e1 := congrArg UInt16.toNat (h2.2.2.1.symm.trans h4.2.2.1)
  have e2 := congrArg UInt16.toNat (h2.2.2.2.2.symm.trans h4.2.2.2.2)
  obtain ⟨_, _, v1, _, v2, _⟩ := h
  obtain ⟨_, _, v3, _, v4, _⟩ := h'
  simp only [UInt16.toNat_ofNat'] at e1 e2 v1 v2 v3 v4
  omega

theorem holds_append {table : List (String × Lib.Manufacturer)} {a b : List Bytes} {es : List Event} (h : TrackHolds table (a ++ b) es) :
    ∃ x y, es = x ++ y ∧ TrackHolds table a x ∧ TrackHolds table b y := by
  induction a generalizing es with
  | nil => exact ⟨[], es, rfl, .nil, h⟩
  | cons l a ih =>
    cases h with
    | skip _ _ _ hl h =>
      obtain ⟨x, y, rfl, h1, h2⟩ := ih h
      exact ⟨x, y, rfl, .skip _ _ _ hl h1, h2⟩
    | event _ _ e es hl hr h =>
      obtain ⟨x, y, rfl, h1, h2⟩ := ih h
      exact ⟨e :: x, y, rfl, .event _ _ _ _ hl hr h1, h2⟩

theorem trackChunk_unique {es : List Event} (hr : ∀ e ∈ es, e.body.Ranged) {a b : Bytes} (h : TrackChunk es a) (h' : TrackChunk es b) : a = b := by
  have h1 := (encodeMTrk_iff es hr a).mpr h
  rw [(encodeMTrk_iff es hr b).mpr h'] at h1
  injection h1 with h1
  exact h1.symm

/-! ### Sections -/

theorem chunkifyFrom_start (b : List Bytes) : ∃ t ss, ∀ c, c ≠ [] → chunkifyFrom c b = (c ++ t) :: ss := by
  induction b with
  | nil => exact ⟨[], [], fun c hc => by rw [chunkifyFrom, if_neg hc, List.append_nil]⟩
  | cons l b ih =>
    by_cases hl : isTag l = true
    · exact ⟨[], chunkifyFrom [l] b, fun c hc => by rw [chunkifyFrom, if_pos hl, List.append_nil]⟩
    · obtain ⟨t, ss, h⟩ := ih
      exact ⟨l :: t, ss, fun c hc => by rw [chunkifyFrom, if_neg hl, h _ (by simp), List.append_assoc, List.singleton_append]⟩

theorem chunkifyFrom_skip {t : List Bytes} (ht : ∀ l ∈ t, ¬ Spec.Starts l) (c b : List Bytes) : chunkifyFrom c (t ++ b) = chunkifyFrom (c ++ t) b := by
  induction t generalizing c with
  | nil => rw [List.nil_append, List.append_nil]
  | cons l t ih =>
    have hl : ¬ isTag l = true := fun h => ht l (by simp) ((isTag_iff l).1 h)
    rw [List.cons_append, chunkifyFrom, if_neg hl, ih (fun x hx => ht x (by simp [hx])), List.append_assoc, List.singleton_append]

theorem sections_from (a b : List Bytes) : ∀ (x : Bytes) (c : List Bytes), ∃ s1 l c1 t2 s2, ∀ t, (∀ l ∈ t, ¬ Spec.Starts l) →
    chunkifyFrom (x :: c) (a ++ t ++ b) = s1 ++ (l :: (c1 ++ t ++ t2)) :: s2 := by
  induction a with
  | nil =>
    intro x c
    obtain ⟨t2, s2, h⟩ := chunkifyFrom_start b
    exact ⟨[], x, c, t2, s2, fun t ht => by rw [List.nil_append, chunkifyFrom_skip ht, h _ (by simp)]; rfl⟩
  | cons l a ih =>
    intro x c
    by_cases hl : isTag l = true
    · obtain ⟨s1, y, c1, t2, s2, h⟩ := ih l []
      exact ⟨(x :: c) :: s1, y, c1, t2, s2, fun t ht => by
        rw [List.cons_append, List.cons_append, chunkifyFrom, if_pos hl, h t ht]; rfl⟩
    · obtain ⟨s1, y, c1, t2, s2, h⟩ := ih x (c ++ [l])
      exact ⟨s1, y, c1, t2, s2, fun t ht => by
        rw [List.cons_append, List.cons_append, chunkifyFrom, if_neg hl, List.cons_append, h t ht]⟩

theorem sections_of (a b : List Bytes) : (∃ ss, ∀ t, (∀ l ∈ t, ¬ Spec.Starts l) → chunkify (a ++ t ++ b) = ss) ∨
    ∃ s1 l c1 t2 s2, ∀ t, (∀ l ∈ t, ¬ Spec.Starts l) → chunkify (a ++ t ++ b) = s1 ++ (l :: (c1 ++ t ++ t2)) :: s2 := by
  induction a with
  | nil =>
    refine .inl ⟨chunkify b, fun t ht => ?_⟩
    rw [List.nil_append]
    induction t with
    | nil => rfl
    | cons l t ih =>
      have hl : ¬ isMThd l = true := fun h => ht l (by simp) (.inl ((isMThd_iff l).1 h))
      rw [List.cons_append, chunkify, if_neg hl, ih (fun x hx => ht x (by simp [hx]))]
  | cons l a ih =>
    by_cases hl : isMThd l = true
    · obtain ⟨s1, y, c1, t2, s2, h⟩ := sections_from a b l []
      exact .inr ⟨s1, y, c1, t2, s2, fun t ht => by rw [List.cons_append, List.cons_append, chunkify, if_pos hl, h t ht]⟩
    · rcases ih with ⟨ss, h⟩ | ⟨s1, y, c1, t2, s2, h⟩
      · exact .inl ⟨ss, fun t ht => by rw [List.cons_append, List.cons_append, chunkify, if_neg hl, h t ht]⟩
      · exact .inr ⟨s1, y, c1, t2, s2, fun t ht => by rw [List.cons_append, List.cons_append, chunkify, if_neg hl, h t ht]⟩

/-! ### What sections stand for -/

theorem stands_nil {table : List (String × Lib.Manufacturer)} {h : Option Header} {ts : List (List Event)} (hs : Stands table [] h ts) :
    h = none ∧ ts = [] := by
  generalize e : ([] : List (List Bytes)) = ss at hs
  cases hs with
  | nil => exact ⟨rfl, rfl⟩
  | comment => simp at e
  | header => simp at e
  | track => simp at e

theorem stands_last {table : List (String × Lib.Manufacturer)} {ss : List (List Bytes)} {c : List Bytes} {h : Option Header} {ts : List (List Event)}
    (hs : Stands table (ss ++ [c]) h ts) : ∃ l t, c = l :: t ∧
      ((Comment l ∧ Stands table ss h ts) ∨
      (¬ Comment l ∧ str "MThd" <:+: l ∧ ∃ f d h0, HeaderLine l f d ∧ Stands table ss h0 ts ∧ h = some ⟨f, 0, d⟩) ∨
      (¬ Comment l ∧ ¬ str "MThd" <:+: l ∧ ∃ h0 ts0 es es', Stands table ss (some h0) ts0 ∧ TrackHolds table t es ∧ TerminatorsRestored es es' ∧
        h = some ⟨h0.format, (h0.tracks + 1) % 65536, h0.division⟩ ∧ ts = ts0 ++ [es'])) := by
  generalize e : ss ++ [c] = ss' at hs
  cases hs with
  | nil => simp at e
  | comment ss' _ _ l t h1 h2 =>
    obtain ⟨rfl, e2⟩ := List.append_inj' e rfl
    injection e2 with e2
    exact ⟨l, t, e2, .inl ⟨h2, h1⟩⟩
  | header ss' h0 _ l t f d h1 h2 h3 h4 =>
    obtain ⟨rfl, e2⟩ := List.append_inj' e rfl
    injection e2 with e2
    exact ⟨l, t, e2, .inr (.inl ⟨h2, h3, f, d, h0, h4, h1, rfl⟩)⟩
  | track ss' h0 ts0 l t es es' h1 h2 h3 h4 h5 h6 =>
    obtain ⟨rfl, e2⟩ := List.append_inj' e rfl
    injection e2 with e2
    exact ⟨l, t, e2, .inr (.inr ⟨h2, h3, h0, ts0, es, es', h1, h5, h6, rfl, rfl⟩)⟩

/-- The tracks are the same, except for one whose lines differ in the part stated. -/
def OneChanged (table : List (String × Lib.Manufacturer)) (t t' : List Bytes) (ts ts' : List (List Event)) : Prop :=
  ∃ before es es' after x y y' z, ts = before ++ es :: after ∧ ts' = before ++ es' :: after ∧ TrackHolds table t y ∧ TrackHolds table t' y' ∧
    TerminatorsRestored (x ++ y ++ z) es ∧ TerminatorsRestored (x ++ y' ++ z) es'

theorem stands_step {table : List (String × Lib.Manufacturer)} {ss ss' : List (List Bytes)} {P : List (List Event) → List (List Event) → Prop}
    (hP : ∀ a b e, P a b → P (a ++ [e]) (b ++ [e])) (ih : ∀ h h' ts ts', Stands table ss h ts → Stands table ss' h' ts' → h = h' ∧ P ts ts')
    {c : List Bytes} {h h' : Option Header} {ts ts' : List (List Event)} (hs : Stands table (ss ++ [c]) h ts) (hs' : Stands table (ss' ++ [c]) h' ts') :
    h = h' ∧ P ts ts' := by
  obtain ⟨l, t, rfl, h1⟩ := stands_last hs
  obtain ⟨_, _, e, h2⟩ := stands_last hs'
  injection e with e1 e2
  subst e1 e2
  rcases h1 with ⟨a1, a2⟩ | ⟨a1, a2, f, d, h0, a3, a4, rfl⟩ | ⟨a1, a2, h0, ts0, es, es', a3, a4, a5, rfl, rfl⟩
  · rcases h2 with ⟨b1, b2⟩ | ⟨b1, _⟩ | ⟨b1, _⟩
    · exact ih _ _ _ _ a2 b2
    · exact absurd a1 b1
    · exact absurd a1 b1
  · rcases h2 with ⟨b1, b2⟩ | ⟨b1, b2, f', d', h0', b3, b4, rfl⟩ | ⟨b1, b2, _⟩
    · exact absurd b1 a1
    · obtain ⟨rfl, rfl⟩ := headerLine_unique a2 a3 b3
      exact ⟨rfl, (ih _ _ _ _ a4 b4).2⟩
    · exact absurd a2 b2
  · rcases h2 with ⟨b1, b2⟩ | ⟨b1, b2, _⟩ | ⟨b1, b2, h0', ts0', fs, fs', b3, b4, b5, rfl, rfl⟩
    · exact absurd b1 a1
    · exact absurd b2 a2
    · have := holds_unique a4 b4
      subst this
      have := terminators_unique a5 b5
      subst this
      obtain ⟨e1, e2⟩ := ih _ _ _ _ a3 b3
      injection e1 with e1
      subst e1
      exact ⟨rfl, hP _ _ _ e2⟩

theorem stands_unique {table : List (String × Lib.Manufacturer)} (ss : List (List Bytes)) : ∀ (h h' : Option Header) (ts ts' : List (List Event)),
    Stands table ss h ts → Stands table ss h' ts' → h = h' ∧ ts = ts' := by
  induction ss using List.reverseRecOn with
  | nil =>
    intro h h' ts ts' hs hs'
    obtain ⟨rfl, rfl⟩ := stands_nil hs
    obtain ⟨rfl, rfl⟩ := stands_nil hs'
    exact ⟨rfl, rfl⟩
  | append_singleton ss c ih =>
    intro h h' ts ts' hs hs'
    exact stands_step (P := (· = ·)) (fun _ _ _ e => by rw [e]) ih hs hs'

theorem stands_changed {table : List (String × Lib.Manufacturer)} (s1 : List (List Bytes)) (l : Bytes) (c1 t t' t2 : List Bytes) (s2 : List (List Bytes)) :
    ∀ (h h' : Option Header) (ts ts' : List (List Event)), Stands table (s1 ++ (l :: (c1 ++ t ++ t2)) :: s2) h ts →
      Stands table (s1 ++ (l :: (c1 ++ t' ++ t2)) :: s2) h' ts' → h = h' ∧ (ts = ts' ∨ OneChanged table t t' ts ts') := by
  induction s2 using List.reverseRecOn with
  | nil =>
    intro h h' ts ts' hs hs'
    obtain ⟨_, _, e, h1⟩ := stands_last hs
    injection e with e1 e2
    subst e1 e2
    obtain ⟨_, _, e, h2⟩ := stands_last hs'
    injection e with e1 e2
    subst e1 e2
    rcases h1 with ⟨a1, a2⟩ | ⟨a1, a2, f, d, h0, a3, a4, rfl⟩ | ⟨a1, a2, h0, ts0, es, es', a3, a4, a5, rfl, rfl⟩
    · rcases h2 with ⟨b1, b2⟩ | ⟨b1, _⟩ | ⟨b1, _⟩
      · obtain ⟨e1, e2⟩ := stands_unique _ _ _ _ _ a2 b2
        exact ⟨e1, .inl e2⟩
      · exact absurd a1 b1
      · exact absurd a1 b1
    · rcases h2 with ⟨b1, b2⟩ | ⟨b1, b2, f', d', h0', b3, b4, rfl⟩ | ⟨b1, b2, _⟩
      · exact absurd b1 a1
      · obtain ⟨rfl, rfl⟩ := headerLine_unique a2 a3 b3
        exact ⟨rfl, .inl (stands_unique _ _ _ _ _ a4 b4).2⟩
      · exact absurd a2 b2
    · rcases h2 with ⟨b1, b2⟩ | ⟨b1, b2, _⟩ | ⟨b1, b2, h0', ts0', fs, fs', b3, b4, b5, rfl, rfl⟩
      · exact absurd b1 a1
      · exact absurd b2 a2
      · obtain ⟨e1, rfl⟩ := stands_unique _ _ _ _ _ a3 b3
        injection e1 with e1
        subst e1
        obtain ⟨x, z, rfl, k1, k2⟩ := holds_append a4
        obtain ⟨x, y, rfl, k3, k4⟩ := holds_append k1
        obtain ⟨x', z', rfl, k5, k6⟩ := holds_append b4
        obtain ⟨x', y', rfl, k7, k8⟩ := holds_append k5
        have := holds_unique k2 k6
        subst this
        have := holds_unique k3 k7
        subst this
        exact ⟨rfl, .inr ⟨ts0, es', fs', [], x, y, y', z, rfl, rfl, k4, k8, a5, b5⟩⟩
  | append_singleton s2 c ih =>
    intro h h' ts ts' hs hs'
    rw [← List.cons_append, ← List.append_assoc] at hs hs'
    refine stands_step (P := fun ts ts' => ts = ts' ∨ OneChanged table t t' ts ts') ?_ ih hs hs'
    rintro a b e (rfl | ⟨before, es, es', after, x, y, y', z, rfl, rfl, h⟩)
    · exact .inl rfl
    · exact .inr ⟨before, es, es', after ++ [e], x, y, y', z, by simp, by simp, h⟩

theorem trackChunks_unique {ts : List (List Event)} (hr : ∀ es ∈ ts, ∀ e ∈ es, e.body.Ranged) {a b : List Bytes} (h : List.Forall₂ TrackChunk ts a)
    (h' : List.Forall₂ TrackChunk ts b) : a = b := by
  induction h generalizing b with
  | nil => cases h'; rfl
  | cons h1 _ ih =>
    cases h' with
    | cons h2 h3 => rw [trackChunk_unique (hr _ (by simp)) h1 h2, ih (fun es hes => hr es (by simp [hes])) h3]

theorem forall2_middle {α β : Type} {R : α → β → Prop} {x : α} {a c : List α} {l : List β} (h : List.Forall₂ R (a ++ x :: c) l) :
    ∃ b y d, l = b ++ y :: d ∧ List.Forall₂ R a b ∧ R x y ∧ List.Forall₂ R c d := by
  induction a generalizing l with
  | nil =>
    cases h with
    | cons h1 h2 => exact ⟨[], _, _, rfl, .nil, h1, h2⟩
  | cons z a ih =>
    cases h with
    | cons h1 h2 =>
      obtain ⟨b, y, d, rfl, h3, h4, h5⟩ := ih h2
      exact ⟨_ :: b, y, d, rfl, .cons h1 h3, h4, h5⟩

/-! ### The property -/

/-- **C173.** Some lines of a text, none of which begins a chunk, are replaced by others, none of which does.  If the text is assembled to a file before
and after, either the file is the same or it differs only in the chunk of one track: the bytes before and after this chunk are the same, and so are the
events of the track outside the lines that are replaced. -/
theorem C173_one_track (table : List (String × Lib.Manufacturer)) (text text' : Bytes) (a t t' b : List Bytes) (hl : Lines text (a ++ t ++ b))
    (hl' : Lines text' (a ++ t' ++ b)) (ht : ∀ l ∈ t, ¬ Spec.Starts l) (ht' : ∀ l ∈ t', ¬ Spec.Starts l) (file file' : Bytes)
    (hf : assembleText table text = .ok file) (hf' : assembleText table text' = .ok file') :
    file = file' ∨ DifferInOne table t t' file file' := by
  obtain ⟨_, ls, secs, hd, ts, chunks, h1, h2, h3, h4, h5, rfl⟩ := (C135_assembled_file table text file).1 hf
  obtain ⟨_, ls', secs', hd', ts', chunks', g1, g2, g3, g4, g5, rfl⟩ := (C135_assembled_file table text' file').1 hf'
  have := lines_unique h1 hl
  subst this
  have := lines_unique g1 hl'
  subst this
  have := chunked_unique _ _ _ h2 (chunkify_spec _)
  subst this
  have := chunked_unique _ _ _ g2 (chunkify_spec _)
  subst this
  have key : some hd = some hd' ∧ (ts = ts' ∨ OneChanged table t t' ts ts') := by
    rcases sections_of a b with ⟨ss, h⟩ | ⟨s1, l, c1, t2, s2, h⟩
    · rw [h t ht] at h3
      rw [h t' ht'] at g3
      obtain ⟨e1, e2⟩ := stands_unique _ _ _ _ _ h3 g3
      exact ⟨e1, .inl e2⟩
    · rw [h t ht] at h3
      rw [h t' ht'] at g3
      exact stands_changed _ _ _ _ _ _ _ _ _ _ _ h3 g3
  obtain ⟨e, hk⟩ := key
  injection e with e
  subst e
  rcases hk with rfl | ⟨before, es, es', after, x, y, y', z, rfl, rfl, k1, k2, k3, k4⟩
  · exact .inl (by rw [trackChunks_unique (stands_ranged h3) h5 g5])
  · obtain ⟨p, c, q, rfl, m1, m2, m3⟩ := forall2_middle h5
    obtain ⟨p', c', q', rfl, n1, n2, n3⟩ := forall2_middle g5
    have hr := stands_ranged h3
    have := trackChunks_unique (fun es hes => hr es (by simp [hes])) m1 n1
    subst this
    have := trackChunks_unique (fun es hes => hr es (by simp [hes])) m3 n3
    subst this
    refine .inr ⟨hd, before, after, p, q, c, c', ?_, m1, m3, by simp, by simp, es, es', x, y, y', z, m2, n2, k1, k2, k3, k4⟩
    rw [h4, List.length_append, List.length_cons]
    omega

/-- **C173.** The same for the texts themselves: lines replaced between the beginnings of two lines. -/
theorem C173_lines_replaced (table : List (String × Lib.Manufacturer)) (a c c' b : Bytes) (ha : a = [] ∨ ∃ x, a = x ++ [10]) (hc : c = [] ∨ ∃ x, c = x ++ [10])
    (hc' : c' = [] ∨ ∃ x, c' = x ++ [10]) (t t' : List Bytes) (hl : Lines c t) (hl' : Lines c' t') (ht : ∀ l ∈ t, ¬ Spec.Starts l)
    (ht' : ∀ l ∈ t', ¬ Spec.Starts l) (file file' : Bytes) (hf : assembleText table (a ++ (c ++ b)) = .ok file)
    (hf' : assembleText table (a ++ (c' ++ b)) = .ok file') : file = file' ∨ DifferInOne table t t' file file' := by
  obtain ⟨ls, hls⟩ := short_lines ((C135_assembled_file table _ _).1 hf).1
  obtain ⟨la, lcb, rfl, h1, h2⟩ := lines_of_prefix hls ha
  obtain ⟨lc, lb, rfl, h3, h4⟩ := lines_of_prefix h2 hc
  have := lines_unique h3 hl
  subst this
  refine C173_one_track table _ _ la lc t' lb ?_ ?_ ht ht' file file' hf hf'
  · rw [List.append_assoc]
    exact hls
  · rw [List.append_assoc]
    exact lines_app h1 ha (lines_app hl' hc' h4)

/-- **C173.** The same with the program: the files of two runs. -/
theorem C173_two_runs (w w' : World) (args argv args' argv' : List Bytes) (s s' : List (Bytes × FlagValue)) (r r' : List Bytes)
    (hi : Invokes .assemble args argv) (hl : CommandLine (options .assemble) args s r)
    (hi' : Invokes .assemble args' argv') (hl' : CommandLine (options .assemble) args' s' r')
    (a c c' b : Bytes) (hr : r.headD [] ≠ []) (hrd : w.read (r.headD []) = some (a ++ (c ++ b))) (hext : extPath (r.headD []) ≠ str ".json")
    (hr' : r'.headD [] ≠ []) (hrd' : w'.read (r'.headD []) = some (a ++ (c' ++ b))) (hext' : extPath (r'.headD []) ≠ str ".json")
    (ha : a = [] ∨ ∃ x, a = x ++ [10]) (hc : c = [] ∨ ∃ x, c = x ++ [10]) (hc' : c' = [] ∨ ∃ x, c' = x ++ [10]) (t t' : List Bytes) (ht : Lines c t)
    (ht' : Lines c' t') (hn : ∀ l ∈ t, ¬ Spec.Starts l) (hn' : ∀ l ∈ t', ¬ Spec.Starts l) (out out' : Bytes) (ho : Output s out)
    (hcr : w.create out = true) (ho' : Output s' out') (hcr' : w'.create out' = true) (file file' : Bytes)
    (hf : assembleText Lib.manufacturers (a ++ (c ++ b)) = .ok file) (hf' : assembleText Lib.manufacturers (a ++ (c' ++ b)) = .ok file') :
    midiasm w argv = ⟨[(out, file)], [], .success⟩ ∧ midiasm w' argv' = ⟨[(out', file')], [], .success⟩ ∧
      (file = file' ∨ DifferInOne Lib.manufacturers t t' file file') := by
  refine ⟨?_, ?_, C173_lines_replaced Lib.manufacturers a c c' b ha hc hc' t t' ht ht' hn hn' file file' hf hf'⟩
  · rw [midiasm_runs hi hl, does_assemble hr hrd, if_neg hext, hf]
    exact save_ok_out ho hcr
  · rw [midiasm_runs hi' hl', does_assemble hr' hrd', if_neg hext', hf']
    exact save_ok_out ho' hcr'

/-! ### Example -/

/-- C173: a line of the first of two tracks is replaced; the file changes in one place. -/
example : ∃ a c c' b t t' file file', (∃ x, a = x ++ [10]) ∧ (∃ x, c = x ++ [10]) ∧ (∃ x, c' = x ++ [10]) ∧ Lines c t ∧ Lines c' t' ∧
    (∀ l ∈ t, ¬ Spec.Starts l) ∧ (∀ l ∈ t', ¬ Spec.Starts l) ∧ assembleText [] (a ++ (c ++ b)) = .ok file ∧ assembleText [] (a ++ (c' ++ b)) = .ok file' ∧
    file ≠ file' := by
  have no : ∀ l : Bytes, contains l (str "MThd") = false → contains l (str "MTrk") = false → ¬ Spec.Starts l := by
    intro l h1 h2 h
    rcases h with h | h
    · rw [(contains_iff _ _).2 h] at h1
      cases h1
    · rw [(contains_iff _ _).2 h] at h2
      cases h2
  obtain ⟨f, h1, h2⟩ := Outcome.of_test (o := assembleText [] (str "MThd format:1 metrical-time:96ppqn\nMTrk\n" ++ (str "delta:1 Tempo tempo:500000\n" ++
    str "delta:0 EndOfTrack\nMTrk\ndelta:0 EndOfTrack\n"))) (p := fun b => decide (b[22]? = some 1)) (by decide +kernel)
  obtain ⟨g, h3, h4⟩ := Outcome.of_test (o := assembleText [] (str "MThd format:1 metrical-time:96ppqn\nMTrk\n" ++ (str "delta:9 Tempo tempo:600000\n" ++
    str "delta:0 EndOfTrack\nMTrk\ndelta:0 EndOfTrack\n"))) (p := fun b => decide (b[22]? = some 9)) (by decide +kernel)
  refine ⟨_, _, _, _, [str "delta:1 Tempo tempo:500000"], [str "delta:9 Tempo tempo:600000"], f, g, ⟨str "MThd format:1 metrical-time:96ppqn\nMTrk", by decide +kernel⟩,
    ⟨str "delta:1 Tempo tempo:500000", by decide +kernel⟩, ⟨str "delta:9 Tempo tempo:600000", by decide +kernel⟩, ?_, ?_, ?_, ?_, h1, h3, ?_⟩
  · have := Lines.cons (str "delta:1 Tempo tempo:500000") [] [] (by decide +kernel) .nil
    rw [show chomp (str "delta:1 Tempo tempo:500000") = str "delta:1 Tempo tempo:500000" by decide +kernel] at this
    exact this
  · have := Lines.cons (str "delta:9 Tempo tempo:600000") [] [] (by decide +kernel) .nil
    rw [show chomp (str "delta:9 Tempo tempo:600000") = str "delta:9 Tempo tempo:600000" by decide +kernel] at this
    exact this
  · intro l hl
    rw [List.mem_singleton.1 hl]
    exact no _ (by decide +kernel) (by decide +kernel)
  · intro l hl
    rw [List.mem_singleton.1 hl]
    exact no _ (by decide +kernel) (by decide +kernel)
  · rintro rfl
    have e := (of_decide_eq_true h2).symm.trans (of_decide_eq_true h4)
    exact absurd e (by decide)

end Midiasm
