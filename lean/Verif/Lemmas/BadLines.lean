import Verif.Lemmas.Fate

/-!
Which lines make reading an event panic or loop.
-/

set_option linter.unusedSimpArgs false

namespace Midiasm
open Spec

theorem spaces_flatten (ts : List Tok) (h : ∀ t ∈ ts, spaceTok t = true) : ∀ c ∈ ts.flatten, c ∈ ([9, 10, 12, 13, 32] : Bytes) := by
  intro b hb
  obtain ⟨t, ht, hbt⟩ := List.mem_flatten.mp hb
  have hs := h t ht
  unfold spaceTok at hs
  split at hs
  · rename_i x
    rw [List.mem_singleton] at hbt
    subst hbt
    exact all8 (P := fun b => reSpace b = true → b ∈ ([9, 10, 12, 13, 32] : Bytes)) (by decide +kernel) b hs
  · cases hs

theorem spaces_ne {ts : List Tok} (h : ∀ t ∈ ts, spaceTok t = true) (hn : ts ≠ []) : ts.flatten ≠ [] := by
  cases ts with
  | nil => exact absurd rfl hn
  | cons t ts =>
    have := h t (by simp)
    intro he
    rw [List.flatten_cons, List.append_eq_nil_iff] at he
    rw [he.1] at this
    cases this

/-- Inversion of the start of a pattern. -/
theorem runs_delta {is : List Item} {s : List Tok} {x : Caps} (h : Runs (deltaPattern ++ is) ⟨[], none⟩ s x) :
    ∃ u v d, s = u ++ v ∧ Runs is ⟨[d], none⟩ v x := by
  unfold deltaPattern at h
  simp only [List.append_assoc] at h
  obtain ⟨u1, v1, c1, rfl, h1, h⟩ := runs_append _ _ _ _ _ h
  obtain ⟨_, rfl⟩ := runs_ilit _ h1
  obtain ⟨u2, v2, c2, rfl, h2, h⟩ := runs_append _ _ _ _ _ h
  obtain ⟨_, _, rfl⟩ := runs_number h2
  obtain ⟨u3, v3, c3, rfl, h3, h⟩ := runs_append _ _ _ _ _ h
  obtain ⟨_, rfl⟩ := runs_star h3
  exact ⟨u1 ++ (u2 ++ u3), v3, _, by simp, h⟩

/-- The denominator of a time signature is in the line. -/
theorem time_fields (line d n dd t b : Bytes) (h : findSubmatch timePattern line = some [d, n, dd, t, b]) :
    str "/" ++ (dd ++ str ",") <:+: line ∧ dd.head? ≠ some 48 := by
  obtain ⟨a, u, v, o, hl, hr⟩ := findSubmatch_runs _ _ _ h
  unfold timePattern at hr
  simp only [List.append_assoc] at hr
  obtain ⟨u0, v0, d', hu0, hq⟩ := runs_delta hr
  clear hr
  subst hu0
  obtain ⟨u1, v1, c1, rfl, h1, hr⟩ := runs_append _ _ _ _ _ hq
  obtain ⟨_, rfl⟩ := runs_ilit _ h1
  obtain ⟨u2, v2, c2, rfl, h2, hr⟩ := runs_append _ _ _ _ _ hr
  obtain ⟨_, _, rfl⟩ := runs_plus h2
  obtain ⟨u3, v3, c3, rfl, h3, hr⟩ := runs_append _ _ _ _ _ hr
  obtain ⟨_, _, rfl⟩ := runs_number h3
  obtain ⟨u4, v4, c4, rfl, h4, hr⟩ := runs_append _ _ _ _ _ hr
  obtain ⟨f4, rfl⟩ := runs_ilit _ h4
  obtain ⟨u5, v5, c5, rfl, h5, hr⟩ := runs_append _ _ _ _ _ hr
  obtain ⟨t5, ts5, rfl, p5, q5, rfl⟩ := runs_group h5
  obtain ⟨u6, v6, c6, rfl, h6, hr⟩ := runs_append _ _ _ _ _ hr
  obtain ⟨f6, rfl⟩ := runs_ilit _ h6
  obtain ⟨u7, v7, c7, rfl, h7, hr⟩ := runs_append _ _ _ _ _ hr
  obtain ⟨_, rfl⟩ := runs_star h7
  obtain ⟨u8, v8, c8, rfl, h8, hr⟩ := runs_append _ _ _ _ _ hr
  obtain ⟨_, rfl⟩ := runs_ilit _ h8
  obtain ⟨u9, v9, c9, rfl, h9, hr⟩ := runs_append _ _ _ _ _ hr
  obtain ⟨_, _, rfl⟩ := runs_number h9
  obtain ⟨u10, v10, c10, rfl, h10, hr⟩ := runs_append _ _ _ _ _ hr
  obtain ⟨_, rfl⟩ := runs_ilit _ h10
  obtain ⟨u11, v11, c11, rfl, h11, hr⟩ := runs_append _ _ _ _ _ hr
  obtain ⟨_, rfl⟩ := runs_star h11
  obtain ⟨u12, v12, c12, rfl, h12, hr⟩ := runs_append _ _ _ _ _ hr
  obtain ⟨t12, ts12, rfl, _, _, rfl⟩ := runs_group h12
  obtain ⟨_, he⟩ := runs_ilit _ hr
  injection he with he _
  simp only [List.nil_append, List.cons_append, List.cons.injEq, and_true] at he
  obtain ⟨_, _, rfl, _, _⟩ := he
  have e4 : u4.flatten = str "/" := fits_fold (str "/") (by decide +kernel) u4 f4
  have e6 : u6.flatten = str "," := fits_fold (str ",") (by decide +kernel) u6 f6
  constructor
  · rw [← toks_flatten line, hl, ← e4, ← e6]
    simp only [List.flatten_append, List.flatten_cons, List.append_assoc]
    exact ⟨a.flatten ++ (u0.flatten ++ (u1.flatten ++ (u2.flatten ++ u3.flatten))), _, by simp only [List.append_assoc]; rfl⟩
  · unfold rangeTok at p5
    split at p5
    · rename_i x
      simp only [List.cons_append, List.nil_append, List.head?_cons, ne_eq, Option.some.injEq]
      intro he
      subst he
      revert p5
      decide
    · cases p5

theorem run_groups {i : Item} {c : Caps} {s : List Tok} {x : Caps} (h : Run i c s x) : ∃ r, x.groups = c.groups ++ r := by
  have eat : ∀ (c : Caps) (t : Tok), (c.eat t).groups = c.groups := by
    intro c t
    unfold Caps.eat
    split <;> rfl
  have eats : ∀ (ts : List Tok) (c : Caps), (c.eats ts).groups = c.groups := by
    intro ts
    induction ts with
    | nil => intro c; rfl
    | cons t ts ih => intro c; exact (ih _).trans (eat c t)
  cases h with
  | chr t _ => exact ⟨[], by simp [eat]⟩
  | star ts _ => exact ⟨[], by simp [eats]⟩
  | none => exact ⟨[], by simp⟩
  | one t _ => exact ⟨[], by simp [eat]⟩
  | left ts _ => exact ⟨[], by simp [eats]⟩
  | right ts _ => exact ⟨[], by simp [eats]⟩
  | start => exact ⟨[], by simp⟩
  | stop => exact ⟨_, rfl⟩

/-- Groups are only added. -/
theorem runs_groups {is : List Item} {c : Caps} {s : List Tok} {x : Caps} (h : Runs is c s x) : ∃ r, x.groups = c.groups ++ r := by
  induction h with
  | nil => exact ⟨[], by simp⟩
  | cons h1 _ ih =>
    obtain ⟨r1, e1⟩ := run_groups h1
    obtain ⟨r2, e2⟩ := ih
    exact ⟨r1 ++ r2, by rw [e2, e1, List.append_assoc]⟩

/-- The numbers of a match. -/
theorem runs_columns (gs : List Bytes) : ∀ (is : List Item) (g : List Bytes) (s : List Tok) (x : Caps), gs.length ≥ 1 →
    is = number ++ (List.replicate (gs.length - 1) (plus spaceTok ++ number)).flatten → Runs is ⟨g, none⟩ s x → x.groups = g ++ gs →
    ∀ ns, List.Forall₂ Numeral gs ns → Columns ns s.flatten := by
  induction gs with
  | nil => intro is g s x h; simp at h
  | cons a gs ih =>
    intro is g s x _ his hr hx ns hn
    cases hn with
    | cons ha hn =>
      rename_i n ns
      subst his
      cases gs with
      | nil =>
        cases hn
        simp only [List.length_cons, List.length_nil, Nat.zero_add, Nat.sub_self, List.replicate_zero, List.flatten_nil, List.append_nil] at hr
        obtain ⟨_, _, rfl⟩ := runs_number hr
        have he : s.flatten = a := by simpa using hx
        rw [he]
        exact ha
      | cons b gs =>
        cases hn with
        | cons hb hn =>
          rename_i m ns
          obtain ⟨u, v, c, rfl, h1, h2⟩ := runs_append _ _ _ _ _ hr
          obtain ⟨_, _, rfl⟩ := runs_number h1
          simp only [List.length_cons, Nat.add_sub_cancel, List.replicate_succ, List.flatten_cons, List.append_assoc] at h2
          obtain ⟨w, v, c, rfl, h3, h4⟩ := runs_append _ _ _ _ _ h2
          obtain ⟨w1, w2, rfl⟩ := runs_plus h3
          obtain ⟨r, hg⟩ := runs_groups h4
          have hsame : [u.flatten] ++ r = a :: b :: gs := by
            rw [hg, List.append_assoc] at hx
            exact List.append_cancel_left hx
          simp only [List.cons_append, List.nil_append, List.cons.injEq] at hsame
          obtain ⟨rfl, rfl⟩ := hsame
          refine ⟨u.flatten, w.flatten, v.flatten, by simp, ha, spaces_ne w1 w2, spaces_flatten w w1, ?_⟩
          exact ih _ _ v x (by simp) (by simp) h4 hg _ (.cons hb hn)

/-- The numbers of an SMPTE offset are in the line. -/
theorem smpte_fields (line d h m s r f ff : Bytes) (hf : findSubmatch smptePattern line = some [d, h, m, s, r, f, ff]) (ns : List Nat)
    (hn : List.Forall₂ Numeral [h, m, s, r, f, ff] ns) : ∃ t, Columns ns t ∧ t <:+: line := by
  obtain ⟨a, u, v, o, hl, hr⟩ := findSubmatch_runs _ _ _ hf
  unfold smptePattern at hr
  simp only [List.append_assoc] at hr
  obtain ⟨u0, v0, d', hu0, hq⟩ := runs_delta hr
  clear hr
  subst hu0
  obtain ⟨u1, v1, c1, rfl, h1, hr⟩ := runs_append _ _ _ _ _ hq
  obtain ⟨_, rfl⟩ := runs_ilit _ h1
  obtain ⟨u2, v2, c2, rfl, h2, hr⟩ := runs_append _ _ _ _ _ hr
  obtain ⟨_, _, rfl⟩ := runs_plus h2
  obtain ⟨q, hg⟩ := runs_groups hr
  simp only [List.cons_append, List.nil_append, List.cons.injEq] at hg
  obtain ⟨rfl, _⟩ := hg
  refine ⟨v2.flatten, runs_columns [h, m, s, r, f, ff] _ [d] v2 _ (by simp) (by simp [List.replicate]) hr (by simp) ns hn, ?_⟩
  rw [← toks_flatten line, hl]
  simp only [List.flatten_append, List.append_assoc]
  exact ⟨a.flatten ++ (u0.flatten ++ (u1.flatten ++ u2.flatten)), v.flatten, by simp only [List.append_assoc]⟩

theorem smpte_fate (line : Bytes) : Fate (∃ h m s r f ff t, Columns [h, m, s, r, f, ff] t ∧ t <:+: line ∧ (24 < h ∨ 59 < m ∨ 59 < s ∨ r ≤ f))
    False (fun x => x.2.Writable) (readSMPTEOffset line) := by
  unfold readSMPTEOffset
  split
  · rename_i d h m s r f ff hm
    refine fate_bind (fate_tame (tame_parseDelta _)) fun dv hd _ => fate_bind (fate_tame (tame_parseByte _)) fun hv hh _ =>
      fate_bind (fate_tame (tame_parseByte _)) fun mv hmv _ => fate_bind (fate_tame (tame_parseByte _)) fun sv hs _ =>
      fate_bind (fate_tame (tame_parseByte _)) fun rv hr _ => fate_bind (fate_tame (tame_parseByte _)) fun fv hf _ =>
      fate_bind (fate_tame (tame_parseByte _)) fun ffv hff _ => ?_
    obtain ⟨t, ht1, ht2⟩ := smpte_fields line d h m s r f ff hm [hv.toNat, mv.toNat, sv.toNat, rv.toNat, fv.toNat, ffv.toNat]
      (.cons (parseByte_numeral hh) (.cons (parseByte_numeral hmv) (.cons (parseByte_numeral hs) (.cons (parseByte_numeral hr)
        (.cons (parseByte_numeral hf) (.cons (parseByte_numeral hff) .nil))))))
    have cause : 24 < hv.toNat ∨ 59 < mv.toNat ∨ 59 < sv.toNat ∨ rv.toNat ≤ fv.toNat →
        ∃ h m s r f ff t, Columns [h, m, s, r, f, ff] t ∧ t <:+: line ∧ (24 < h ∨ 59 < m ∨ 59 < s ∨ r ≤ f) :=
      fun hc => ⟨_, _, _, _, _, _, t, ht1, ht2, hc⟩
    by_cases h1 : rv ≠ 24 ∧ rv ≠ 25 ∧ rv ≠ 29 ∧ rv ≠ 30
    · rw [if_pos h1]; trivial
    · rw [if_neg h1]
      by_cases h2 : ffv > 100
      · rw [if_pos h2]; trivial
      · rw [if_neg h2]
        unfold makeSMPTEOffset
        by_cases g1 : hv > 24
        · rw [if_pos g1]
          exact cause (Or.inl (by rw [gt_iff_lt, UInt8.lt_iff_toNat_lt] at g1; exact g1))
        rw [if_neg g1]
        by_cases g2 : mv > 59
        · rw [if_pos g2]
          exact cause (Or.inr (Or.inl (by rw [gt_iff_lt, UInt8.lt_iff_toNat_lt] at g2; exact g2)))
        rw [if_neg g2]
        by_cases g3 : sv > 59
        · rw [if_pos g3]
          exact cause (Or.inr (Or.inr (Or.inl (by rw [gt_iff_lt, UInt8.lt_iff_toNat_lt] at g3; exact g3))))
        rw [if_neg g3, if_neg h1]
        by_cases g4 : fv ≥ rv
        · rw [if_pos g4]
          exact cause (Or.inr (Or.inr (Or.inr (by rw [ge_iff_le, UInt8.le_iff_toNat_le] at g4; exact g4))))
        rw [if_neg g4, if_neg h2]
        trivial
  · trivial

theorem time_fate (line : Bytes) : Fate False (∃ d, 129 ≤ d ∧ d ≤ 255 ∧ str "/" ++ (dec d ++ str ",") <:+: line)
    (fun x => x.2.Writable) (readTimeSignature line) := by
  unfold readTimeSignature
  split
  · rename_i d n dd t b hm
    refine fate_bind (fate_tame (tame_parseDelta _)) fun dv hd _ => fate_bind (fate_tame (tame_parseByte _)) fun nv hn _ =>
      fate_bind (fate_tame (tame_parseByte _)) fun ddv hdd _ => fate_bind (fate_tame (tame_parseByte _)) fun tv ht _ =>
      fate_bind (fate_tame (tame_parseByte _)) fun bv hb _ => ?_
    obtain ⟨f1, f2⟩ := time_fields line d n dd t b hm
    have hdec := numeral_dec dd _ (parseByte_numeral hdd) f2
    unfold makeTimeSignature
    obtain ⟨v1, v2⟩ := denomLoop_value ddv
    by_cases h : ddv.toNat ≤ 128
    · obtain ⟨k, hk, _⟩ := v1 h
      rw [hk]
      exact h
    · rw [v2 (by omega)]
      exact ⟨ddv.toNat, by omega, by have := UInt8.toNat_lt ddv; omega, by rw [← hdec]; exact f1⟩
  · trivial

/-- Reading an event. -/
theorem readEvent_fate (table : List (String × Lib.Manufacturer)) (line : Bytes) :
    Fate (BadOffset line) (BadTime line) (fun e => e.body.Writable) (readEvent table line) := by
  unfold readEvent
  cases hf : (textCases table).find? (fun c => contains line (str c.1)) with
  | none => trivial
  | some c =>
    have hfirst := case_first table line c hf
    have hc := gives_case table line c (List.mem_of_find?_eq_some hf)
    have hnot : c.1 = "TimeSignature" → c.2 = readTimeSignature := by
      intro h
      have hm := List.mem_of_find?_eq_some hf
      have : ∀ c ∈ textCases table, c.1 = "TimeSignature" → c.2 = readTimeSignature := by
        unfold textCases
        simp only [List.forall_mem_cons]
        simp
      exact this c hm h
    have key : Fate (BadOffset line) (BadTime line) (fun x => x.2.Writable) (c.2 line) := by
      by_cases ht : c.1 = "TimeSignature"
      · rw [hnot ht]
        refine fate_mono (time_fate line) (fun h => h.elim) (fun h => ⟨by rw [← ht]; exact hfirst, h⟩) (fun _ _ h => h)
      · rcases hc with hc | ⟨h1, h2, _⟩ | ⟨h1, _⟩
        · cases hl : c.2 line with
          | ok x =>
            rw [hl] at hc
            obtain ⟨dv, b⟩ := x
            show b.Writable
            have : b.tag = c.1 := hc
            cases b with
            | timeSignature n d t b => exact absurd this.symm ht
            | _ => trivial
          | err e => trivial
          | panic => rw [hl] at hc; exact hc.elim
          | diverge => rw [hl] at hc; exact hc.elim
        · rw [h2]
          exact fate_mono (smpte_fate line) (fun h => ⟨by rw [← h1]; exact hfirst, h⟩) (fun h => h.elim) (fun _ _ h => h)
        · exact absurd h1 ht
    exact fate_bind key fun x _ hx => hx

end Midiasm
