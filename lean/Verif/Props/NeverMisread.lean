import Verif.Props.LineImage
import Verif.Props.Unreadable

/-!
Property C114: an event of a disassembled file that is not a text is read as itself or refused.
-/

set_option linter.unusedSimpArgs false

namespace Midiasm
open Spec

/-! ### Where the fields of a match are -/

theorem matches_append (w v : List (Tok → Bool)) : ∀ s, Matches (w ++ v) s → ∃ s1 s2, s = s1 ++ s2 ∧ Matches w s1 ∧ Matches v s2 := by
  induction w with
  | nil => exact fun s h => ⟨[], s, rfl, trivial, h⟩
  | cons p w ih =>
    intro s h
    cases s with
    | nil => exact h.elim
    | cons t s =>
      obtain ⟨h1, h2⟩ := h
      obtain ⟨s1, s2, rfl, q1, q2⟩ := ih s h2
      exact ⟨t :: s1, s2, rfl, ⟨h1, q1⟩, q2⟩

/-- The last and the first byte of a word that was matched ignoring case. -/
theorem fold_last (w : Bytes) (b : UInt8) (hb : lower b = b ∧ b ≠ 107 ∧ b ≠ 115 ∧ ¬ (97 ≤ b ∧ b ≤ 122)) (s : List Tok)
    (h : Matches ((w ++ [b]).map foldTok) s) : ∃ r, s.flatten = r ++ [b] := by
  rw [List.map_append] at h
  obtain ⟨s1, s2, rfl, _, q⟩ := matches_append _ _ s h
  rw [List.flatten_append, fits_fold [b] (by simpa using hb) s2 q]
  exact ⟨_, rfl⟩

theorem fold_first (w : Bytes) (b : UInt8) (hb : lower b = b ∧ b ≠ 107 ∧ b ≠ 115 ∧ ¬ (97 ≤ b ∧ b ≤ 122)) (s : List Tok)
    (h : Matches (([b] ++ w).map foldTok) s) : ∃ r, s.flatten = b :: r := by
  rw [List.map_append] at h
  obtain ⟨s1, s2, rfl, q, _⟩ := matches_append _ _ s h
  rw [List.flatten_append, fits_fold [b] (by simpa using hb) s1 q]
  exact ⟨_, rfl⟩

/-- The note of a match is between a colon and a comma. -/
theorem note_place (tag : String) (line : Bytes) (gs : List Bytes) (h : findSubmatch (notePatternOf tag) line = some gs) :
    ∃ A x acc dg B, line = A ++ 58 :: (x :: (acc ++ [dg])) ++ 44 :: B ∧ keyTok [x] = true ∧ (acc = [] ∨ acc = str "♯" ∨ acc = str "♭") ∧
      48 ≤ dg.toNat ∧ dg.toNat ≤ 57 := by
  obtain ⟨a, u, v', o, hl, hr⟩ := findSubmatch_runs _ _ _ h
  unfold notePatternOf channelPattern at hr
  simp only [List.append_assoc] at hr
  obtain ⟨u0, v0, d', rfl, hq⟩ := runs_delta hr
  obtain ⟨u1, v1, c1, rfl, h1, hr⟩ := runs_append _ _ _ _ _ hq
  obtain ⟨_, rfl⟩ := runs_ilit _ h1
  obtain ⟨u2, v2, c2, rfl, h2, hr⟩ := runs_append _ _ _ _ _ hr
  obtain ⟨_, _, rfl⟩ := runs_plus h2
  obtain ⟨u3, v3, c3, rfl, h3, hr⟩ := runs_append _ _ _ _ _ hr
  obtain ⟨_, rfl⟩ := runs_ilit _ h3
  obtain ⟨u4, v4, c4, rfl, h4, hr⟩ := runs_append _ _ _ _ _ hr
  obtain ⟨_, _, rfl⟩ := runs_number h4
  obtain ⟨u5, v5, c5, rfl, h5, hr⟩ := runs_append _ _ _ _ _ hr
  obtain ⟨_, _, rfl⟩ := runs_plus h5
  obtain ⟨u6, v6, c6, rfl, h6, hr⟩ := runs_append _ _ _ _ _ hr
  obtain ⟨hnote, rfl⟩ := runs_ilit _ h6
  obtain ⟨u7, v7, c7, rfl, h7, hr⟩ := runs_append _ _ _ _ _ hr
  obtain ⟨w1, r1, e1, rfl, g1, h7⟩ := runs_cons h7
  obtain ⟨rfl, rfl⟩ := run_start g1
  obtain ⟨w2, r2, e2, rfl, g2, h7⟩ := runs_cons h7
  obtain ⟨tx, rfl, px, rfl⟩ := run_chr g2
  obtain ⟨w3, r3, e3, rfl, g3, h7⟩ := runs_cons h7
  obtain ⟨w4, r4, e4, rfl, g4, h7⟩ := runs_cons h7
  obtain ⟨td, rfl, pd, rfl⟩ := run_chr g4
  obtain ⟨w5, r5, e5, rfl, g5, h7⟩ := runs_cons h7
  obtain ⟨rfl, rfl⟩ := run_stop g5
  obtain ⟨rfl, rfl⟩ := runs_nil h7
  obtain ⟨u8, v8, c8, rfl, h8, hr⟩ := runs_append _ _ _ _ _ hr
  obtain ⟨x, rfl⟩ : ∃ x, tx = [x] := by
    unfold keyTok at px
    match tx, px with
    | [b], px => exact ⟨b, rfl⟩
  obtain ⟨dg, rfl, hdg⟩ := digitTok_byte pd
  have hacc : w3.flatten = [] ∨ w3.flatten = str "♯" ∨ w3.flatten = str "♭" := by
    rcases run_opt g3 with ⟨rfl, _⟩ | ⟨t, rfl, pt, _⟩
    · exact Or.inl rfl
    · right
      unfold accidentalTok at pt
      simpa using pt
  have hcomma : u8.flatten = [44] := by
    obtain ⟨f8, _⟩ := runs_chrs ((str ",").map foldTok) _ u8 c8 (by
      rw [List.map_map]; exact h8)
    exact fits_fold (str ",") (by decide +kernel) u8 f8
  obtain ⟨r6, e6⟩ := fold_last (str "note") 58 (by decide) u6 (by
    have : str "note" ++ [58] = str "note:" := by decide +kernel
    rw [this]; exact hnote)
  refine ⟨a.flatten ++ (u0.flatten ++ (u1.flatten ++ (u2.flatten ++ (u3.flatten ++ (u4.flatten ++ (u5.flatten ++ r6)))))), x, w3.flatten, dg,
    v8.flatten ++ v'.flatten, ?_, px, hacc, hdg⟩
  rw [← toks_flatten line, hl]
  simp only [List.flatten_append, hcomma, e6, List.append_assoc]
  simp

/-- The denominator of a match is between a slash and a comma, the number of thirty-seconds between blanks after a comma and a slash. -/
theorem time_place (line d n dd t b : Bytes) (h : findSubmatch timePattern line = some [d, n, dd, t, b]) :
    ∃ A M sp Z, line = A ++ 47 :: (dd ++ 44 :: (M ++ 44 :: (sp ++ (b ++ 47 :: Z)))) ∧ (∀ c ∈ sp, c ∈ ([9, 10, 12, 13, 32] : Bytes)) ∧
      (∀ c ∈ dd, 48 ≤ c.toNat ∧ c.toNat ≤ 57) ∧ (∀ c ∈ b, 48 ≤ c.toNat ∧ c.toNat ≤ 57) := by
  obtain ⟨a, u, v, o, hl, hr⟩ := findSubmatch_runs _ _ _ h
  unfold timePattern at hr
  simp only [List.append_assoc] at hr
  obtain ⟨u0, v0, d', hu0, hq⟩ := runs_delta hr
  clear hr
  subst hu0
  obtain ⟨u1, v1, c1, rfl, h1, hr⟩ := runs_append _ _ _ _ _ hq
  obtain ⟨_, rfl⟩ := runs_ilit _ h1
  obtain ⟨u2, v2, c2, rfl, h2, hr⟩ := runs_append _ _ _ _ _ hr
  obtain ⟨_, _, rfl⟩ := runs_plus h2
  obtain ⟨u3, v3, c3, rfl, h3, hr⟩ := runs_append _ _ _ _ _ hr
  obtain ⟨_, _, rfl⟩ := runs_number h3
  obtain ⟨u4, v4, c4, rfl, h4, hr⟩ := runs_append _ _ _ _ _ hr
  obtain ⟨f4, rfl⟩ := runs_ilit _ h4
  obtain ⟨u5, v5, c5, rfl, h5, hr⟩ := runs_append _ _ _ _ _ hr
  obtain ⟨t5, ts5, rfl, p5, q5, rfl⟩ := runs_group h5
  obtain ⟨u6, v6, c6, rfl, h6, hr⟩ := runs_append _ _ _ _ _ hr
  obtain ⟨f6, rfl⟩ := runs_ilit _ h6
  obtain ⟨u7, v7, c7, rfl, h7, hr⟩ := runs_append _ _ _ _ _ hr
  obtain ⟨_, rfl⟩ := runs_star h7
  obtain ⟨u8, v8, c8, rfl, h8, hr⟩ := runs_append _ _ _ _ _ hr
  obtain ⟨_, rfl⟩ := runs_ilit _ h8
  obtain ⟨u9, v9, c9, rfl, h9, hr⟩ := runs_append _ _ _ _ _ hr
  obtain ⟨_, _, rfl⟩ := runs_number h9
  obtain ⟨u10, v10, c10, rfl, h10, hr⟩ := runs_append _ _ _ _ _ hr
  obtain ⟨f10, rfl⟩ := runs_ilit _ h10
  obtain ⟨u11, v11, c11, rfl, h11, hr⟩ := runs_append _ _ _ _ _ hr
  obtain ⟨s11, rfl⟩ := runs_star h11
  obtain ⟨u12, v12, c12, rfl, h12, hr⟩ := runs_append _ _ _ _ _ hr
  obtain ⟨t12, ts12, rfl, p12, q12, rfl⟩ := runs_group h12
  obtain ⟨f13, he⟩ := runs_ilit _ hr
  injection he with he _
  simp only [List.nil_append, List.cons_append, List.cons.injEq, and_true] at he
  obtain ⟨_, _, rfl, _, rfl⟩ := he
  have e4 : u4.flatten = [47] := fits_fold (str "/") (by decide +kernel) u4 f4
  have e6 : u6.flatten = [44] := fits_fold (str ",") (by decide +kernel) u6 f6
  obtain ⟨r10, e10⟩ := fold_last (str " ticks per click") 44 (by decide) u10 (by
    have : str " ticks per click" ++ [44] = str " ticks per click," := by decide +kernel
    rw [this]; exact f10)
  obtain ⟨r13, e13⟩ := fold_first (str "32 per quarter") 47 (by decide) v12 (by
    have : [47] ++ str "32 per quarter" = str "/32 per quarter" := by decide +kernel
    rw [this]; exact f13)
  have one : ∀ lo hi (t : Tok), rangeTok lo hi t = true → 48 ≤ lo.toNat → hi.toNat ≤ 57 → ∀ c ∈ t, 48 ≤ c.toNat ∧ c.toNat ≤ 57 := by
    intro lo hi t ht h1 h2
    unfold rangeTok at ht
    split at ht
    · rename_i x
      rw [Bool.and_eq_true, decide_eq_true_eq, decide_eq_true_eq, UInt8.le_iff_toNat_le, UInt8.le_iff_toNat_le] at ht
      intro c hc
      rw [List.mem_singleton] at hc
      subst hc
      omega
    · cases ht
  refine ⟨a.flatten ++ (u0.flatten ++ (u1.flatten ++ (u2.flatten ++ u3.flatten))), u7.flatten ++ (u8.flatten ++ (u9.flatten ++ r10)), u11.flatten,
    r13 ++ v.flatten, ?_, spaces_flatten u11 s11, ?_, ?_⟩
  · rw [← toks_flatten line, hl]
    simp only [List.flatten_append, List.flatten_cons, e4, e6, e10, e13, List.append_assoc]
    simp
  · intro c hc
    rcases List.mem_append.mp hc with hc | hc
    · exact one _ _ _ p5 (by decide) (by decide) c hc
    · obtain ⟨y, hy, hcy⟩ := List.mem_flatten.mp hc
      obtain ⟨z, rfl, h1, h2⟩ := digitTok_byte (q5 y hy)
      rw [List.mem_singleton] at hcy
      subst hcy
      exact ⟨h1, h2⟩
  · intro c hc
    rcases List.mem_append.mp hc with hc | hc
    · exact one _ _ _ p12 (by decide) (by decide) c hc
    · obtain ⟨y, hy, hcy⟩ := List.mem_flatten.mp hc
      exact one _ _ _ (q12 y hy) (by decide) (by decide) c hcy

/-- The name of a match is between blanks and a comma. -/
theorem data_place (tag : String) (line d name s : Bytes) (h : findSubmatch (dataPattern tag) line = some [d, name, s]) :
    ∃ A c B, line = A ++ c :: name ++ 44 :: B ∧ c ∈ ([9, 10, 12, 13, 32] : Bytes) := by
  obtain ⟨a, u, v, o, hl, hr⟩ := findSubmatch_runs _ _ _ h
  unfold dataPattern at hr
  simp only [List.append_assoc] at hr
  obtain ⟨u0, v0, d', hu0, hq⟩ := runs_delta hr
  clear hr
  subst hu0
  obtain ⟨u1, v1, c1, rfl, h1, hr⟩ := runs_append _ _ _ _ _ hq
  obtain ⟨_, rfl⟩ := runs_ilit _ h1
  obtain ⟨u2, v2, c2, rfl, h2, hr⟩ := runs_append _ _ _ _ _ hr
  obtain ⟨p2, n2, rfl⟩ := runs_plus h2
  obtain ⟨u3, v3, c3, rfl, h3, hr⟩ := runs_append _ _ _ _ _ hr
  obtain ⟨w1, r1, e1, rfl, g1, h7⟩ := runs_cons h3
  obtain ⟨rfl, rfl⟩ := run_start g1
  obtain ⟨w2, r2, e2, rfl, g2, h7⟩ := runs_cons h7
  obtain ⟨w5, r5, e5, rfl, g5, h7⟩ := runs_cons h7
  obtain ⟨q3, rfl⟩ := run_star g2
  rw [eats_some] at g5
  obtain ⟨rfl, rfl⟩ := run_stop g5
  obtain ⟨rfl, rfl⟩ := runs_nil h7
  obtain ⟨u4, v4, c4, rfl, h4, hr⟩ := runs_append _ _ _ _ _ hr
  obtain ⟨f4, rfl⟩ := runs_ilit _ h4
  have e4 : u4.flatten = [44] := fits_fold (str ",") (by decide +kernel) u4 f4
  obtain ⟨rest, he⟩ := runs_groups hr
  simp only [Option.toList_some, List.nil_append, List.cons_append, List.cons.injEq, and_true] at he
  obtain ⟨_, rfl, _⟩ := he
  have hsp := spaces_flatten u2 p2
  have hne := spaces_ne p2 n2
  obtain ⟨q, c, hqc⟩ : ∃ q c, u2.flatten = q ++ [c] := by
    rcases List.eq_nil_or_concat u2.flatten with he | ⟨q, c, he⟩
    · exact absurd he hne
    · exact ⟨q, c, by simpa using he⟩
  refine ⟨a.flatten ++ (u0.flatten ++ (u1.flatten ++ q)), c, v4.flatten ++ v.flatten, ?_, hsp c (by rw [hqc]; simp)⟩
  rw [← toks_flatten line, hl]
  simp only [List.flatten_append, e4, hqc, List.append_assoc]
  simp

/-! ### Unique places -/

theorem first_place {x : UInt8} {a b p q : Bytes} (h : a ++ x :: b = p ++ x :: q) (ha : x ∉ a) (hp : x ∉ p) : a = p ∧ b = q := by
  induction a generalizing p with
  | nil =>
    cases p with
    | nil => injection h with _ h; exact ⟨rfl, h⟩
    | cons y p => injection h with h _; exact absurd (by simp [h]) hp
  | cons y a ih =>
    cases p with
    | nil => injection h with h _; exact absurd (by simp [h]) ha
    | cons z p =>
      injection h with h1 h2
      obtain ⟨h3, h4⟩ := ih h2 (fun hm => ha (by simp [hm])) (fun hm => hp (by simp [hm]))
      exact ⟨by rw [h1, h3], h4⟩

theorem last_place {x : UInt8} {a b p q : Bytes} (h : a ++ x :: b = p ++ x :: q) (hb : x ∉ b) (hq : x ∉ q) : a = p ∧ b = q := by
  have h' : b.reverse ++ x :: a.reverse = q.reverse ++ x :: p.reverse := by
    have := congrArg List.reverse h
    simpa using this
  obtain ⟨h1, h2⟩ := first_place h' (by simpa using hb) (by simpa using hq)
  exact ⟨List.reverse_injective h2, List.reverse_injective h1⟩

theorem two_places {x : UInt8} {a b c p q r : Bytes} (h : a ++ x :: (b ++ x :: c) = p ++ x :: (q ++ x :: r)) (hp : x ∉ p) (hq : x ∉ q) (hr : x ∉ r) :
    b = q := by
  have hcount := congrArg (List.count x) h
  simp only [List.count_append, List.count_cons_self, List.count_eq_zero.mpr hp, List.count_eq_zero.mpr hq, List.count_eq_zero.mpr hr] at hcount
  have ha : x ∉ a := List.count_eq_zero.mp (by omega)
  have hb : x ∉ b := List.count_eq_zero.mp (by omega)
  exact (first_place (first_place h ha hp).2 hb hq).1

theorem dec_digit {n : Nat} {c : UInt8} (h : c ∈ dec n) : 48 ≤ c.toNat ∧ c.toNat ≤ 57 := by
  have : ∀ c ∈ str "0123456789", 48 ≤ c.toNat ∧ c.toNat ≤ 57 := by decide +kernel
  exact this c (dec_alphabet n c h)

theorem dec_other {n : Nat} {c : UInt8} (h : ¬ (48 ≤ c.toNat ∧ c.toNat ≤ 57)) : c ∉ dec n := fun hc => h (dec_digit hc)

/-- What is before the fields of an event. -/
theorem line_head (pre : Bytes) (d : UInt32) (k : Nat) (b : Body) (hpre : ∀ c ∈ pre, c ∈ prefixAlphabet) (hb : shownFields b ≠ []) :
    ∃ H, lineOf pre d k b = (H ++ [32]) ++ shownFields b ∧ 44 ∉ H ∧ 47 ∉ H := by
  obtain ⟨gap, hg, hne, hbody⟩ := printBody_fields b
  obtain ⟨q, hq⟩ : ∃ q, gap = q ++ [32] := by
    rcases List.eq_nil_or_concat gap with he | ⟨q, c, he⟩
    · exact absurd (hne he) hb
    · have : c = 32 := hg c (by rw [he]; simp)
      exact ⟨q, by rw [he, this]; simp⟩
  have htags : ∀ kw ∈ keywords, 44 ∉ str kw ∧ 47 ∉ str kw := by decide +kernel
  have htag := htags b.tag (List.mem_of_getElem? (keywords_index b))
  have hno : ∀ x : UInt8, x = 44 ∨ x = 47 → x ∉ pre ++ (str "delta:" ++ (dec d.toNat ++ (List.replicate (k + 2) 32 ++ (hex2 (shownByte b) ++ ([32] ++ (str b.tag ++ q)))))) := by
    intro x hx
    simp only [List.mem_append, not_or]
    refine ⟨fun h => ?_, ?_, ?_, ?_, ?_, ?_, ?_, ?_⟩
    · have := hpre x h
      rcases hx with rfl | rfl <;> exact absurd this (by decide +kernel)
    · rcases hx with rfl | rfl <;> decide +kernel
    · apply dec_other
      rcases hx with rfl | rfl <;> decide
    · intro h
      have := List.eq_of_mem_replicate h
      rcases hx with rfl | rfl <;> exact absurd this (by decide)
    · rcases hx with rfl | rfl
      · exact all8 (P := fun b => 44 ∉ hex2 b) (by decide +kernel) _
      · exact all8 (P := fun b => 47 ∉ hex2 b) (by decide +kernel) _
    · rcases hx with rfl | rfl <;> decide
    · rcases hx with rfl | rfl
      · exact htag.1
      · exact htag.2
    · intro h
      have := hg x (by rw [hq]; simp [h])
      rcases hx with rfl | rfl <;> exact absurd this (by decide)
  refine ⟨_, ?_, hno 44 (Or.inl rfl), hno 47 (Or.inr rfl)⟩
  unfold lineOf
  rw [hbody, hq]
  simp only [List.append_assoc]

/-! ### The three kinds of lines that can be refused -/

theorem note_range (flats : Prop) (name : String) (n : UInt8) (x dg : UInt8) (acc : Bytes) (hn : Names flats 1 name n.toNat)
    (h : str name = x :: (acc ++ [dg])) (hx : keyTok [x] = true) (hacc : acc = [] ∨ acc = str "♯" ∨ acc = str "♭") : 12 ≤ n ∧ n ≤ 131 := by
  obtain ⟨p, rfl, hp, _, _⟩ := hn
  have hlt := n.toNat_lt
  have ht : ∀ p ∈ pitchNames, ∀ o : Fin 22, o.val = 0 ∨ 10 < o.val →
      ((str (p ++ toString ((o.val : Int) - 1))).reverse.drop 1).head? ∈ ([45, 48, 49, 50, 51, 52, 53, 54, 55, 56, 57] : Bytes).map some := by
    decide +kernel
  have hm := pitchClass_mem p _ hp
  have hin : 1 ≤ n.toNat / 12 ∧ n.toNat / 12 ≤ 10 := by
    by_cases ho : n.toNat / 12 = 0 ∨ 10 < n.toNat / 12
    · exfalso
      have h1 := ht p hm ⟨n.toNat / 12, by omega⟩ ho
      simp only at h1
      rw [h] at h1
      have s1 : str "♯" = [226, 153, 175] := by decide +kernel
      have s2 : str "♭" = [226, 153, 173] := by decide +kernel
      rcases hacc with rfl | rfl | rfl
      · simp only [List.nil_append, List.reverse_cons, List.reverse_nil, List.cons_append, List.drop_succ_cons, List.drop_zero, List.head?_cons] at h1
        have : ∀ x : UInt8, keyTok [x] = true → some x ∉ ([45, 48, 49, 50, 51, 52, 53, 54, 55, 56, 57] : Bytes).map some := all8 (by decide +kernel)
        exact this x hx h1
      · rw [s1] at h1; simp at h1
      · rw [s2] at h1; simp at h1
    · omega
  constructor
  · rw [UInt8.le_iff_toNat_le]; show 12 ≤ _; omega
  · rw [UInt8.le_iff_toNat_le]; show _ ≤ 131; omega

/-- A note line that is read has a one digit octave. -/
theorem note_refused (tag : String) (pre : Bytes) (d : UInt32) (k : Nat) (b : Body) (hpre : ∀ c ∈ pre, c ∈ prefixAlphabet) (ch v : UInt8) (n : NoteVal)
    (hb : b = .noteOn ch n v ∨ b = .noteOff ch n v) (flats : Prop) (hn : Names flats 1 n.name n.value.toNat) (gs : List Bytes)
    (hf : findSubmatch (notePatternOf tag) (lineOf pre d k b) = some gs) : 12 ≤ n.value ∧ n.value ≤ 131 := by
  have hfields : shownFields b =
      str "channel:" ++ (pad 2 (dec ch.toNat) ++ ([32] ++ (str "note:" ++ (str n.name ++ (str ", velocity:" ++ dec v.toNat))))) := by
    rcases hb with hb | hb <;> rw [hb] <;> rfl
  have hne : str "channel:" ≠ [] := by decide +kernel
  obtain ⟨H, hl, h44, h47⟩ := line_head pre d k b hpre (by rw [hfields]; simp [hne])
  obtain ⟨A, x, acc, dg, B, h1, hx, hacc, _⟩ := note_place tag _ _ hf
  have hchars : ∀ c ∈ str n.name, c ∈ noteAlphabet ∧ c ≠ 44 ∧ c ≠ 58 := by
    obtain ⟨p, hp1, hp, _, _⟩ := hn
    have hlt := n.value.toNat_lt
    have ht : ∀ p ∈ pitchNames, ∀ o : Fin 22, ∀ c ∈ str (p ++ toString ((o.val : Int) - 1)), c ∈ noteAlphabet ∧ c ≠ 44 ∧ c ≠ 58 := by
      decide +kernel
    rw [hp1]
    exact ht p (pitchClass_mem p _ hp) ⟨n.value.toNat / 12, by omega⟩
  have e1 : str ", velocity:" = 44 :: str " velocity:" := by decide +kernel
  have e2 : str "note:" = str "note" ++ [58] := by decide +kernel
  have hline : lineOf pre d k b = ((H ++ [32] ++ (str "channel:" ++ (pad 2 (dec ch.toNat) ++ ([32] ++ str "note")))) ++ 58 :: str n.name) ++
      44 :: (str " velocity:" ++ dec v.toNat) := by
    rw [hl, hfields, e1, e2]
    simp only [List.append_assoc, List.cons_append, List.nil_append]
  rw [hline] at h1
  have hd44 : ∀ m, 44 ∉ dec m := fun m => dec_other (by decide)
  have hcomma := split_unique h1.symm (by
    obtain ⟨j, hj⟩ := pad_eq 2 (dec ch.toNat)
    rw [hj]
    simp only [List.mem_append, List.mem_cons, not_or]
    refine ⟨⟨⟨h44, by decide⟩, by decide +kernel, ⟨hd44 _, fun h => absurd (List.eq_of_mem_replicate h) (by decide)⟩, by decide, by decide +kernel⟩, by decide,
      fun h => (hchars 44 h).2.1 rfl⟩) (by
    simp only [List.mem_append, not_or]
    exact ⟨by decide +kernel, hd44 _⟩)
  have s1 : str "♯" = [226, 153, 175] := by decide +kernel
  have s2 : str "♭" = [226, 153, 173] := by decide +kernel
  have hx58 : x ≠ 58 := by rintro rfl; revert hx; decide
  have hdg : dg ≠ 58 := by rename_i hdg; rintro rfl; exact absurd hdg.2 (by decide)
  have hsame := (last_place hcomma (by
    simp only [List.mem_cons, List.mem_append, List.not_mem_nil, or_false, not_or]
    refine ⟨fun h => hx58 h.symm, ?_, fun h => hdg h.symm⟩
    rcases hacc with rfl | rfl | rfl
    · simp
    · rw [s1]; decide
    · rw [s2]; decide) (fun h => (hchars 58 h).2.2 rfl)).2
  exact note_range flats n.name n.value x dg acc hn hsame.symm hx hacc

/-- A time signature line that is read has numbers the pattern accepts. -/
theorem time_refused (pre : Bytes) (dt : UInt32) (k : Nat) (hpre : ∀ c ∈ pre, c ∈ prefixAlphabet) (n d c t : UInt8) (gs : List Bytes)
    (hf : findSubmatch timePattern (lineOf pre dt k (.timeSignature n d c t)) = some gs) (hg : ∃ g1 g2 g3 g4 g5, gs = [g1, g2, g3, g4, g5]) :
    1 ≤ d ∧ t ≠ 0 ∧ (10 ≤ t → t % 10 ≠ 9) ∧ (100 ≤ t → t / 10 % 10 ≠ 9) := by
  obtain ⟨g1, g2, dd, g4, b, rfl⟩ := hg
  have e0 : str "/" = [47] := by decide +kernel
  have e1 : str ", " = [44, 32] := by decide +kernel
  have e2 : str " ticks per click, " = str " ticks per click" ++ [44, 32] := by decide +kernel
  have e3 : str "/32 per quarter" = 47 :: str "32 per quarter" := by decide +kernel
  obtain ⟨H, hl, h44, h47⟩ := line_head pre dt k (.timeSignature n d c t) hpre (by simp [shownFields, e0])
  obtain ⟨A, M, sp, Z, h1, hsp, hdd, hb⟩ := time_place _ _ _ _ _ _ hf
  have hline : lineOf pre dt k (.timeSignature n d c t) = (H ++ [32] ++ dec n.toNat) ++ 47 ::
      ((dec d.toNat ++ 44 :: ((32 :: dec c.toNat ++ str " ticks per click") ++ 44 :: (32 :: dec t.toNat))) ++ 47 :: str "32 per quarter") := by
    rw [hl]
    simp only [shownFields, e0, e1, e2, e3, List.append_assoc, List.cons_append, List.nil_append]
  rw [hline] at h1
  have hdig : ∀ m (x : UInt8), ¬ (48 ≤ x.toNat ∧ x.toNat ≤ 57) → x ∉ dec m := fun m x hx => dec_other hx
  have h1' : A ++ 47 :: ((dd ++ 44 :: (M ++ 44 :: (sp ++ b))) ++ 47 :: Z) = (H ++ [32] ++ dec n.toNat) ++ 47 ::
      ((dec d.toNat ++ 44 :: ((32 :: dec c.toNat ++ str " ticks per click") ++ 44 :: (32 :: dec t.toNat))) ++ 47 :: str "32 per quarter") := by
    rw [h1]
    simp only [List.append_assoc, List.cons_append]
  have hmid := two_places h1' (by
      simp only [List.mem_append, not_or]
      exact ⟨⟨h47, by decide⟩, hdig _ _ (by decide)⟩) (by
      simp only [List.mem_append, List.mem_cons, not_or]
      exact ⟨hdig _ _ (by decide), by decide, ⟨⟨by decide, hdig _ _ (by decide)⟩, by decide +kernel⟩, by decide, by decide, hdig _ _ (by decide)⟩) (by decide +kernel)
  have hden := (first_place hmid (fun h => absurd (hdd 44 h) (by decide)) (hdig _ _ (by decide))).1
  have hmid2 : (dd ++ 44 :: M) ++ 44 :: (sp ++ b) = (dec d.toNat ++ 44 :: (32 :: dec c.toNat ++ str " ticks per click")) ++ 44 :: (32 :: dec t.toNat) := by
    simpa only [List.append_assoc, List.cons_append] using hmid
  have hlast := (last_place hmid2 (by
      simp only [List.mem_append, not_or]
      exact ⟨fun h => absurd (hsp 44 h) (by decide), fun h => absurd (hb 44 h) (by decide)⟩) (by
      simp only [List.mem_cons, not_or]
      exact ⟨by decide, hdig _ _ (by decide)⟩)).2
  have hbt : b = dec t.toNat := by
    have hno : ∀ x : UInt8, x ∈ ([9, 10, 12, 13, 32] : Bytes) → ¬ (48 ≤ x.toNat ∧ x.toNat ≤ 57) := all8 (by decide +kernel)
    cases sp with
    | nil =>
      simp only [List.nil_append] at hlast
      exact absurd (hb 32 (by rw [hlast]; simp)) (by decide)
    | cons s0 sp =>
      injection hlast with _ hlast
      cases sp with
      | nil => exact hlast
      | cons s1 sp =>
        exfalso
        exact hno s1 (hsp s1 (by simp)) (dec_digit (n := t.toNat) (by rw [← hlast]; simp))
  have hd0 := (time_fields _ _ _ _ _ _ hf).2
  have hb0 := time_beats _ _ _ _ _ _ hf
  rw [hden] at hd0
  rw [hbt] at hb0
  have k1 : ∀ den : UInt8, (dec den.toNat).head? ≠ some 48 → 1 ≤ den := all8 (by decide +kernel)
  exact ⟨k1 d hd0, beats_shape t hb0.1 hb0.2⟩

/-- The name of no built-in manufacturer ends like that of the unknown one. -/
theorem builtin_known : ∀ e ∈ Lib.manufacturers, (str "<unknown>").isSuffixOf (str e.2.name) = false := by decide +kernel

/-- The line of an unknown manufacturer is not read. -/
theorem unknown_refused (table : List (String × Lib.Manufacturer)) (htab : ∀ e, e ∈ table → e ∈ Lib.manufacturers) (tag : String) (pre : Bytes)
    (dt : UInt32) (k : Nat) (b : Body) (hpre : ∀ c ∈ pre, c ∈ prefixAlphabet) (data : Bytes) (hb : shownFields b = str "<unknown>" ++ (str ", " ++ hexString data))
    (d name s : Bytes) (hf : findSubmatch (dataPattern tag) (lineOf pre dt k b) = some [d, name, s]) (m : Lib.Manufacturer) :
    findManufacturer table name ≠ .ok m := by
  intro hm
  obtain ⟨⟨key, hmem⟩, hname⟩ := findManufacturer_mem hm
  have hne : str "<unknown>" ≠ [] := by decide +kernel
  have e1 : str ", " = [44, 32] := by decide +kernel
  obtain ⟨H, hl, h44, _⟩ := line_head pre dt k b hpre (by rw [hb]; simp [hne])
  obtain ⟨A, c, B, h1, hc⟩ := data_place tag _ _ _ _ hf
  have hline : lineOf pre dt k b = ((H ++ [32]) ++ str "<unknown>") ++ 44 :: (32 :: hexString data) := by
    rw [hl, hb, e1]
    simp only [List.append_assoc, List.cons_append, List.nil_append]
  rw [hline] at h1
  have hhex : 44 ∉ hexString data := fun h => absurd (hexString_alphabet data 44 h) (by decide +kernel)
  have hcomma := split_unique h1.symm (by
      simp only [List.mem_append, not_or]
      exact ⟨⟨h44, by decide⟩, by decide +kernel⟩) (by
      simp only [List.mem_cons, not_or]
      exact ⟨by decide, hhex⟩)
  have hsuf : str "<unknown>" <:+ name := by
    have hcomma' : (A ++ [c]) ++ name = (H ++ [32]) ++ str "<unknown>" := by simpa using hcomma
    rcases List.append_eq_append_iff.mp hcomma' with ⟨z, h1, h2⟩ | ⟨z, h1, h2⟩
    · exact ⟨z, h2.symm⟩
    · rcases List.eq_nil_or_concat z with hz | ⟨q, y, hz⟩
      · subst hz
        simp only [List.nil_append] at h2
        exact ⟨[], by simp [h2]⟩
      · exfalso
        have hy : y = c := by
          rw [hz] at h1
          have h1' : A ++ [c] = (H ++ [32] ++ q) ++ [y] := by simpa using h1
          exact (List.singleton_inj.mp (List.append_inj_right' h1' rfl)).symm
        have : c ∈ str "<unknown>" := by rw [h2, hz, hy]; simp
        have hno : ∀ c ∈ ([9, 10, 12, 13, 32] : Bytes), c ∉ str "<unknown>" := by decide +kernel
        exact hno c hc this
  have := builtin_known _ (htab _ hmem)
  rw [hname] at this
  rw [List.isSuffixOf_iff_suffix.mpr hsuf] at this
  cases this

theorem parseDelta_err (s : Bytes) : (∃ v, parseDelta s = .ok v) ∨ parseDelta s = .err .other := by
  unfold parseDelta parseUint
  split
  · exact Or.inr rfl
  · split
    · split
      · exact Or.inl ⟨_, rfl⟩
      · exact Or.inr rfl
    · exact Or.inr rfl

theorem findManufacturer_err (table : List (String × Lib.Manufacturer)) (s : Bytes) :
    (∃ v, findManufacturer table s = .ok v) ∨ findManufacturer table s = .err .other := by
  unfold findManufacturer
  split
  · exact Or.inl ⟨_, rfl⟩
  · exact Or.inr rfl

theorem unknown_free : ∀ kw ∈ keywords, contains (str "<unknown>") (str kw) = false := by decide +kernel

/-- C114: the line printed for an event of a decoded file, other than a text, is read as that event or refused; it is never taken for
another event, and reading it neither crashes nor hangs. -/
theorem C114_never_misread (table : List (String × Lib.Manufacturer)) (htab : ∀ e, e ∈ table ↔ e ∈ Lib.manufacturers) (spare file : Bytes) (smf : SMF)
    (hd : decode .c3 spare file = .ok smf) (t : MTrk) (ht : t ∈ smf.tracks) (e : Event) (he : e ∈ t.events) (hno : ∀ k s, e.body ≠ .text k s)
    (line : Bytes) (hp : printEvent e = .ok line) :
    readEvent table line = .ok ⟨0, e.delta, [], e.body.asRead⟩ ∨ readEvent table line = .err .other := by
  by_cases hr : e.body.Readable table
  · exact Or.inl (C80_line_reads_back table e line hp hr)
  right
  have hmade := decoded_made hd t ht e he
  have hnamed := decoded_named hd t ht e he
  obtain ⟨pre, k, hpre, rfl⟩ := printEvent_lineOf e line hp
  have hword : ∀ kw ∈ keywords.take (caseIndex e.body), Word kw := fun kw hk => words kw (List.mem_append_left _ (List.mem_of_mem_take hk))
  have hnotes : ∀ ch n v, e.body = .noteOn ch n v ∨ e.body = .noteOff ch n v → readEvent table (lineOf pre e.delta k e.body) = .err .other := by
    intro ch n v hb
    obtain ⟨flats, hn⟩ := hnamed ch v n hb
    have hnone : ∀ tag, findSubmatch (notePatternOf tag) (lineOf pre e.delta k e.body) = none := by
      intro tag
      cases hf : findSubmatch (notePatternOf tag) (lineOf pre e.delta k e.body) with
      | none => rfl
      | some gs =>
        exfalso
        obtain ⟨q1, q2⟩ := note_refused tag pre e.delta k e.body hpre ch v n hb flats hn gs hf
        rcases hb with hb | hb <;> rw [hb] at hr hmade <;> exact hr ⟨hmade.1, hmade.2, q1, q2, flats, hn⟩
    rw [readEvent_line table pre e.delta k e.body hpre]
    · rcases hb with hb | hb
      · rw [hb] at hnone ⊢
        simp only [readerOf, readNoteOn, hnone]
        rfl
      · rw [hb] at hnone ⊢
        simp only [readerOf, readNoteOff, hnone]
        rfl
    · intro kw hk
      have hfields : shownFields e.body =
          str "channel:" ++ (pad 2 (dec ch.toNat) ++ ([32] ++ (str "note:" ++ (str n.name ++ (str ", velocity:" ++ dec v.toNat))))) := by
        rcases hb with hb | hb <;> rw [hb] <;> rfl
      rw [hfields]
      refine contains_note ch v n.name ?_ kw (hword kw hk)
      obtain ⟨p, hp1, hp, _, _⟩ := hn
      have hlt := n.value.toNat_lt
      have ht : ∀ p ∈ pitchNames, ∀ o : Fin 22, ∀ c ∈ str (p ++ toString ((o.val : Int) - 1)), c ∈ noteAlphabet := by
        decide +kernel
      rw [hp1]
      exact ht p (pitchClass_mem p _ hp) ⟨n.value.toNat / 12, by omega⟩
  cases hb : e.body with
  | text k s => exact absurd hb (hno k s)
  | noteOn ch n v => rw [← hb]; exact hnotes ch n v (Or.inl hb)
  | noteOff ch n v => rw [← hb]; exact hnotes ch n v (Or.inr hb)
  | timeSignature n d c q =>
    rw [hb] at hr hmade hword
    rw [readEvent_line table pre e.delta k _ hpre]
    · simp only [readerOf]
      unfold readTimeSignature
      split
      · rename_i g1 g2 g3 g4 g5 hf
        exfalso
        obtain ⟨q1, q2⟩ := time_refused pre e.delta k hpre n d c q _ hf ⟨_, _, _, _, _, rfl⟩
        exact hr ⟨q1, hmade, q2⟩
      · rfl
    · intro kw hk
      exact contains_low _ (app_low (dec_low _) (app_low (by decide +kernel) (app_low (dec_low _) (app_low (by decide +kernel) (app_low (dec_low _)
        (app_low (by decide +kernel) (app_low (dec_low _) (by decide +kernel)))))))) kw (hword kw hk)
  | sequencerSpecific m data =>
    rw [hb] at hr hmade hword
    obtain ⟨id, hid⟩ := hmade
    have hunk : m.name = "<unknown>" := by
      by_contra hx
      rw [hid] at hx
      obtain ⟨f1, f2⟩ := builtin_findable table htab id hx
      exact hr (by rw [hid]; exact ⟨f1, fun l r hlr x hx => f2 x (by rw [hlr]; simp [hx])⟩)
    have hfields : shownFields (.sequencerSpecific m data) = str "<unknown>" ++ (str ", " ++ hexString data) := by
      simp only [shownFields, hunk]
    rw [readEvent_line table pre e.delta k _ hpre]
    · simp only [readerOf]
      unfold readSequencerSpecific
      split
      · rename_i g1 g2 g3 hf
        have hx := unknown_refused table (fun e => (htab e).1) _ pre e.delta k _ hpre data hfields _ _ _ hf
        rcases parseDelta_err g1 with ⟨v, hv⟩ | hv
        · rcases findManufacturer_err table g2 with ⟨m', hm'⟩ | hm'
          · exact absurd hm' (hx m')
          · rw [hv, hm']; rfl
        · rw [hv]; rfl
      · rfl
    · intro kw hk
      rw [hfields, contains_data _ _ kw (hword kw hk)]
      exact unknown_free kw (List.mem_of_mem_take hk)
  | sysExMessage m data single =>
    rw [hb] at hr hmade hword
    obtain ⟨id, hid⟩ := hmade
    have hunk : m.name = "<unknown>" := by
      by_contra hx
      rw [hid] at hx
      obtain ⟨f1, f2⟩ := builtin_findable table htab id hx
      exact hr (by rw [hid]; exact ⟨f1, fun l r hlr x hx => f2 x (by rw [hlr]; simp [hx])⟩)
    have hfields : shownFields (.sysExMessage m data single) = str "<unknown>" ++ (str ", " ++ hexString data) := by
      simp only [shownFields, hunk]
    rw [readEvent_line table pre e.delta k _ hpre]
    · simp only [readerOf]
      unfold readSysExMessage
      split
      · rename_i g1 g2 g3 hf
        have hx := unknown_refused table (fun e => (htab e).1) _ pre e.delta k _ hpre data hfields _ _ _ hf
        rcases parseDelta_err g1 with ⟨v, hv⟩ | hv
        · rcases findManufacturer_err table g2 with ⟨m', hm'⟩ | hm'
          · exact absurd hm' (hx m')
          · rw [hv, hm']; rfl
        · rw [hv]; rfl
      · rfl
    · intro kw hk
      rw [hfields, contains_data _ _ kw (hword kw hk)]
      exact unknown_free kw (List.mem_of_mem_take hk)
  | sequenceNumber n => rw [hb] at hr; exact absurd trivial hr
  | endOfTrack => rw [hb] at hr; exact absurd trivial hr
  | tempo n => rw [hb] at hr; exact absurd trivial hr
  | sysExContinuation _ _ => rw [hb] at hr; exact absurd trivial hr
  | sysExEscape _ => rw [hb] at hr; exact absurd trivial hr
  | _ => rw [hb] at hr hmade; exact absurd hmade hr

end Midiasm
