import Verif.Lemmas.BadLines
import Verif.Props.Printed

/-!
Properties C59 and C60 for the text assembler: when assembling a text does not terminate, and when it panics.
-/

set_option linter.unusedSimpArgs false

namespace Midiasm
open Spec

theorem fixMessages_writable (es : List Event) (h : ∀ e ∈ es, e.body.Writable) : ∀ e ∈ fixMessages es, e.body.Writable := by
  fun_induction fixMessages es with
  | case1 a b rest ih =>
    intro e he
    rcases List.mem_cons.mp he with rfl | he
    · split
      · split
        · trivial
        · exact h a (by simp)
      · exact h a (by simp)
    · exact ih (fun x hx => h x (by simp [hx])) e he
  | case2 l _ => exact h

theorem fixContinuations_writable (es : List Event) (h : ∀ e ∈ es, e.body.Writable) : ∀ e ∈ fixContinuations es, e.body.Writable := by
  fun_induction fixContinuations es with
  | case1 a b rest ih =>
    intro e he
    rcases List.mem_cons.mp he with rfl | he
    · split
      · split
        · trivial
        · exact h a (by simp)
      · exact h a (by simp)
    · exact ih (fun x hx => h x (by simp [hx])) e he
  | case2 l _ => exact h

/-- Reading the lines of a track. -/
theorem parseEvents_fate (table : List (String × Lib.Manufacturer)) (ls : List Bytes) :
    Fate (∃ l ∈ ls, BadOffset l) (∃ l ∈ ls, BadTime l) (fun es => (∀ e ∈ es, e.body.Writable) ∧ (es = [] → ∀ l ∈ ls, Spec.Empty l))
      (parseEvents table ls) := by
  induction ls with
  | nil => exact ⟨by simp, by simp⟩
  | cons l ls ih =>
    rw [parseEvents]
    by_cases hs : (isComment l || isBlank l) = true
    · rw [if_pos hs]
      refine fate_mono ih (fun ⟨x, hx, h⟩ => ⟨x, by simp [hx], h⟩) (fun ⟨x, hx, h⟩ => ⟨x, by simp [hx], h⟩) ?_
      intro es _ ⟨h1, h2⟩
      refine ⟨h1, fun he x hx => ?_⟩
      rcases List.mem_cons.mp hx with rfl | hx
      · exact empty_of_skipped x hs
      · exact h2 he x hx
    · rw [if_neg hs]
      refine fate_bind (fate_mono (readEvent_fate table l) (fun h => ⟨l, by simp, h⟩) (fun h => ⟨l, by simp, h⟩) (fun _ _ h => h)) ?_
      intro e _ he
      refine fate_bind (fate_mono ih (fun ⟨x, hx, h⟩ => ⟨x, by simp [hx], h⟩) (fun ⟨x, hx, h⟩ => ⟨x, by simp [hx], h⟩) (fun _ _ h => h)) ?_
      intro es _ ⟨h1, _⟩
      refine ⟨?_, by simp⟩
      intro x hx
      rcases List.mem_cons.mp hx with rfl | hx
      · exact he
      · exact h1 x hx

/-- Assembling one track. -/
theorem parseMTrk_fate (table : List (String × Lib.Manufacturer)) (l : Bytes) (t : List Bytes) (hl : str "MTrk" <:+: l) (hc : ¬ Comment l) :
    Fate ((∃ x ∈ t, BadOffset x) ∨ NoEvents (l :: t)) (∃ x ∈ t, BadTime x) (fun m => ∀ e ∈ m.events, e.body.Writable)
      (parseMTrk table (l :: t)) := by
  have hm : isMTrk l = true := (contains_iff _ _).mpr hl
  unfold parseMTrk
  rw [List.dropWhile_cons_of_neg (by simp [hm])]
  simp only
  refine fate_bind (fate_mono (parseEvents_fate table t) Or.inl id (fun _ _ h => h)) ?_
  intro es _ ⟨h1, h2⟩
  cases es with
  | nil => exact Or.inr ⟨l, t, rfl, hl, hc, h2 rfl⟩
  | cons e es =>
    show ∀ x ∈ _, _
    exact fixContinuations_writable _ (fixMessages_writable _ h1)

theorem division_smpte (d : UInt16) (h : d &&& 0x8000 ≠ 0) : d &&& 0x8000 = 0x8000 := by
  have hn : (d &&& 0x8000).toNat = d.toNat &&& 2 ^ 15 := UInt16.toNat_and d 0x8000
  have hd := d.toNat_lt
  have : d.toNat &&& 2 ^ 15 = if d.toNat.testBit 15 then 2 ^ 15 else 0 := by
    apply Nat.eq_of_testBit_eq
    intro i
    rw [Nat.testBit_and, Nat.testBit_two_pow]
    by_cases hi : 15 = i
    · subst hi
      cases d.toNat.testBit 15 <;> simp
      decide
    · have h2 : Nat.testBit (2 ^ 15) i = false := by rw [Nat.testBit_two_pow]; simp [hi]
      cases d.toNat.testBit 15
      · simp [hi]
      · simp only [if_true, h2]; simp [hi]
  cases hb : d.toNat.testBit 15 with
  | true =>
    rw [← UInt16.toNat_inj, hn, this, hb]
    rfl
  | false =>
    exfalso
    apply h
    rw [← UInt16.toNat_inj, hn, this, hb]
    rfl

/-- The format of a header line is 0, 1 or 2. -/
theorem format_field (line f : Bytes) (v : Nat) (h : findSubmatch formatPattern line = some [f]) (hv : parseUint f 16 = .ok v) : v ≤ 2 := by
  obtain ⟨a, u, w, o, _, hr⟩ := findSubmatch_runs _ _ _ h
  unfold formatPattern at hr
  obtain ⟨u1, v1, c1, rfl, h1, hr⟩ := runs_append _ _ _ _ _ hr
  obtain ⟨_, rfl⟩ := runs_lit _ h1
  obtain ⟨u2, v2, c2, rfl, h2, hr⟩ := runs_cons hr
  obtain ⟨rfl, rfl⟩ := run_start h2
  obtain ⟨u3, v3, c3, rfl, h3, hr⟩ := runs_cons hr
  obtain ⟨t, rfl, hp, rfl⟩ := run_chr h3
  obtain ⟨u4, v4, c4, rfl, h4, hr⟩ := runs_cons hr
  obtain ⟨rfl, rfl⟩ := run_stop h4
  obtain ⟨rfl, he⟩ := runs_nil hr
  injection he with he _
  simp only [Caps.eat, List.nil_append, Option.toList_some, List.cons.injEq, and_true] at he
  subst he
  obtain ⟨⟨_, _, hn⟩, _⟩ := parseUint_numeral hv
  unfold rangeTok at hp
  split at hp
  · rename_i b
    rw [Bool.and_eq_true, decide_eq_true_eq, decide_eq_true_eq, UInt8.le_iff_toNat_le, UInt8.le_iff_toNat_le] at hp
    have e1 : (50 : UInt8).toNat = 50 := rfl
    simp only [List.foldl_cons, List.foldl_nil] at hn
    omega
  · cases hp

/-- Assembling a header. -/
theorem parseMThd_fate (chunk : List Bytes) : Fate False False (fun _ => True) (parseMThd chunk) := by
  unfold parseMThd
  split
  · trivial
  · rename_i line _
    split
    · rename_i f hf
      refine fate_bind (fate_tame (tame_parseUint _ _)) fun v hv _ => ?_
      have hle := format_field line f v hf hv
      split
      · refine fate_bind (fate_tame (tame_parseUint _ _)) fun w _ _ => ?_
        generalize UInt16.ofNat w = d
        by_cases hd : d &&& 0x8000 = 0x8000 ∧ fpsOf d = none
        · rw [if_pos hd]; trivial
        · rw [if_neg hd]
          unfold makeMThd
          rw [if_neg]
          · by_cases h0 : d &&& 0x8000 = 0
            · rw [if_pos h0]; trivial
            · rw [if_neg h0]
              cases hfps : fpsOf d with
              | none => exact absurd ⟨division_smpte d h0, hfps⟩ hd
              | some x => trivial
          · have : v = 0 ∨ v = 1 ∨ v = 2 := by omega
            rcases this with rfl | rfl | rfl <;> decide
      · trivial
    · trivial

/-- The file so far: every event can be written, and there is a header. -/
def Sound (commented : Prop) (smf : SMF) : Prop := (∀ t ∈ smf.tracks, ∀ e ∈ t.events, e.body.Writable) ∧ (commented ∨ smf.mthd ≠ none)

/-- Assembling one chunk. -/
theorem chunk_fate (table : List (String × Lib.Manufacturer)) (l : Bytes) (t : List Bytes) (H : Prop) (ht : ∀ x ∈ t, ¬ Starts x) (smf : SMF)
    (hw : ∀ t ∈ smf.tracks, ∀ e ∈ t.events, e.body.Writable) (hm : H ∨ smf.mthd ≠ none ∨ (str "MThd" <:+: l ∧ ¬ Comment l)) :
    Fate ((∃ x ∈ t, BadOffset x) ∨ NoEvents (l :: t) ∨ H) (∃ x ∈ t, BadTime x) (Sound H)
      (assembleLines table (l :: t) (l :: t) smf) := by
  rw [assembleLines]
  refine fate_bind (R := Sound H) ?_ ?_
  · unfold assembleLine
    by_cases hc : isComment l = true
    · rw [if_pos hc]
      refine ⟨hw, ?_⟩
      rcases hm with h | h | ⟨_, h⟩
      · exact Or.inl h
      · exact Or.inr h
      · exact absurd ((isComment_iff l).mp hc) h
    rw [if_neg hc]
    by_cases hh : isMThd l = true
    · rw [if_pos hh]
      refine fate_bind (fate_mono (parseMThd_fate _) False.elim False.elim (fun _ _ h => h)) ?_
      intro m _ _
      exact ⟨hw, Or.inr (by simp)⟩
    rw [if_neg hh]
    have hm' : H ∨ smf.mthd ≠ none := by
      rcases hm with h | h | ⟨h, _⟩
      · exact Or.inl h
      · exact Or.inr h
      · exact absurd ((isMThd_iff l).mpr h) hh
    by_cases hk : isMTrk l = true
    · rw [if_pos hk]
      refine fate_bind (fate_mono (parseMTrk_fate table l t ((contains_iff _ _).mp hk) (fun h => hc ((isComment_iff l).mpr h)))
        (fun h => h.imp id Or.inl) id (fun _ _ h => h)) ?_
      intro m _ hwm
      cases hs : smf.mthd with
      | none =>
        rcases hm' with h | h
        · exact Or.inr (Or.inr h)
        · exact absurd hs h
      | some h =>
        refine ⟨?_, Or.inr (by simp)⟩
        intro x hx
        rcases List.mem_append.mp hx with hx | hx
        · exact hw x hx
        · rw [List.mem_singleton] at hx
          subst hx
          exact hwm
    · rw [if_neg hk]
      exact ⟨hw, hm'⟩
  · intro s _ hs
    have : assembleLines table (l :: t) t s = .ok s := assembleLines_rest table _ _ (by
      intro x hx
      rw [Bool.eq_false_iff]
      exact fun h => ht x hx ((isTag_iff x).mp h)) s
    rw [this]
    exact hs

/-- Assembling the chunks after the header. -/
theorem chunks_fate (table : List (String × Lib.Manufacturer)) (H : Prop) (chunks : List (List Bytes))
    (hc : ∀ c ∈ chunks, ∃ l t, c = l :: t ∧ Starts l ∧ ∀ x ∈ t, ¬ Starts x) (smf : SMF) (hs : Sound H smf) :
    Fate ((∃ x ∈ chunks.flatten, BadOffset x) ∨ (∃ c ∈ chunks, NoEvents c) ∨ H) (∃ x ∈ chunks.flatten, BadTime x) (Sound H)
      (assembleChunks table chunks smf) := by
  induction chunks generalizing smf with
  | nil => exact hs
  | cons c chunks ih =>
    obtain ⟨l, t, rfl, _, ht⟩ := hc c (by simp)
    rw [assembleChunks]
    refine fate_bind (R := Sound H) ?_ ?_
    · refine fate_mono (chunk_fate table l t H ht smf hs.1 (hs.2.imp id Or.inl)) ?_ ?_ (fun _ _ h => h)
      · rintro (⟨x, hx, h⟩ | h | h)
        · exact Or.inl ⟨x, by simp [hx], h⟩
        · exact Or.inr (Or.inl ⟨_, by simp, h⟩)
        · exact Or.inr (Or.inr h)
      · rintro ⟨x, hx, h⟩
        exact ⟨x, by simp [hx], h⟩
    · intro s _ hss
      refine fate_mono (ih (fun c hc' => hc c (by simp [hc'])) s hss) ?_ ?_ (fun _ _ h => h)
      · rintro (⟨x, hx, h⟩ | ⟨c, hcc, h⟩ | h)
        · exact Or.inl ⟨x, by rw [List.flatten_cons]; exact List.mem_append_right _ hx, h⟩
        · exact Or.inr (Or.inl ⟨c, by simp [hcc], h⟩)
        · exact Or.inr (Or.inr h)
      · rintro ⟨x, hx, h⟩
        exact ⟨x, by rw [List.flatten_cons]; exact List.mem_append_right _ hx, h⟩

/-- What can become of a text. -/
theorem text_fate (table : List (String × Lib.Manufacturer)) (text : Bytes) :
    Fate (∃ lines chunks, Lines text lines ∧ Chunked lines chunks ∧ ((∃ l ∈ lines, BadOffset l) ∨ (∃ c ∈ chunks, NoEvents c) ∨ HeaderComment lines))
      (∃ lines, Lines text lines ∧ ∃ l ∈ lines, BadTime l) (fun _ => True) (assembleText table text) := by
  unfold assembleText readChunks
  cases he : (scanLines text).2 with
  | true => trivial
  | false =>
    have hlines := scanLines_lines text he
    generalize (scanLines text).1 = lines at hlines ⊢
    have hch := chunkify_spec lines
    simp only [Bool.false_eq_true, if_false, Outcome.bind_ok]
    generalize chunkify lines = chunks at hch ⊢
    obtain ⟨⟨skipped, hall, hskip, hfirst⟩, hsplit⟩ := id hch
    have hmem : ∀ x ∈ chunks.flatten, x ∈ lines := by
      intro x hx
      rw [hall]
      exact List.mem_append_right _ hx
    refine fate_bind (R := Sound True) ?_ ?_
    · cases chunks with
      | nil => exact ⟨by simp, Or.inl trivial⟩
      | cons c chunks =>
        obtain ⟨l, t, rfl, _, ht⟩ := hsplit c (by simp)
        have hl : str "MThd" <:+: l := hfirst l (by simp)
        have hcomment : Comment l → HeaderComment lines := fun h => ⟨skipped, l, t ++ chunks.flatten, by rw [hall]; simp, hskip, hl, h⟩
        rw [assembleChunks]
        refine fate_bind (R := Sound (Comment l)) ?_ ?_
        · refine fate_mono (chunk_fate table l t (Comment l) ht ⟨none, []⟩ (by simp) (by
            by_cases h : Comment l
            · exact Or.inl h
            · exact Or.inr (Or.inr ⟨hl, h⟩))) ?_ ?_ (fun _ _ h => h)
          · rintro (⟨x, hx, h⟩ | h | h)
            · exact ⟨lines, _, hlines, hch, Or.inl ⟨x, hmem x (by simp [hx]), h⟩⟩
            · exact ⟨lines, _, hlines, hch, Or.inr (Or.inl ⟨_, by simp, h⟩)⟩
            · exact ⟨lines, _, hlines, hch, Or.inr (Or.inr (hcomment h))⟩
          · rintro ⟨x, hx, h⟩
            exact ⟨lines, hlines, x, hmem x (by simp [hx]), h⟩
        · intro s _ hs
          refine fate_mono (chunks_fate table (Comment l) chunks (fun c hc => hsplit c (by simp [hc])) s hs) ?_ ?_
            (fun _ _ h => ⟨h.1, Or.inl trivial⟩)
          · rintro (⟨x, hx, h⟩ | ⟨c, hcc, h⟩ | h)
            · exact ⟨lines, _, hlines, hch, Or.inl ⟨x, hmem x (by rw [List.flatten_cons]; exact List.mem_append_right _ hx), h⟩⟩
            · exact ⟨lines, _, hlines, hch, Or.inr (Or.inl ⟨c, by simp [hcc], h⟩)⟩
            · exact ⟨lines, _, hlines, hch, Or.inr (Or.inr (hcomment h))⟩
          · rintro ⟨x, hx, h⟩
            exact ⟨lines, hlines, x, hmem x (by rw [List.flatten_cons]; exact List.mem_append_right _ hx), h⟩
    · intro s _ hs
      obtain ⟨c1, c2, c3⟩ := C26_encode_errors s
      cases hen : encode s with
      | ok b => trivial
      | err x => trivial
      | panic => exact absurd hen c2
      | diverge =>
        exfalso
        cases hm : s.mthd with
        | none =>
          obtain ⟨e, h⟩ := c1.mpr (by rw [hm]; simp)
          rw [hen] at h; cases h
        | some h =>
          by_cases hn : h.tracks.toNat = s.tracks.length
          · obtain ⟨bs, hb⟩ := (c3 h hm hn).1.mpr hs.1
            rw [hen] at hb; cases hb
          · obtain ⟨e, h⟩ := c1.mpr (by intro x hx; rw [hm] at hx; injection hx with hx; rw [← hx]; exact hn)
            rw [hen] at h; cases h

/-- C59, text: assembling a text terminates unless a line of it is a time signature with a denominator from 129 to 255.  (Missing for the
full property: such lines, see `C59_text_fails`.) -/
theorem C59_text_terminates_partial (table : List (String × Lib.Manufacturer)) (text : Bytes) (h : assembleText table text = .diverge) :
    ∃ lines, Lines text lines ∧ ∃ l ∈ lines, BadTime l := by
  have := text_fate table text
  rw [h] at this
  exact this

/-- C60, text: assembling a text panics only if a line of it is an SMPTE offset with an hour, minute, second or frame out of range, or a track
has no events, or the first line that contains `MThd` is a comment.  (Missing for the full property: such texts, see `C60_text_fails`.) -/
theorem C60_text_panics_partial (table : List (String × Lib.Manufacturer)) (text : Bytes) (h : assembleText table text = .panic) :
    ∃ lines chunks, Lines text lines ∧ Chunked lines chunks ∧
      ((∃ l ∈ lines, BadOffset l) ∨ (∃ c ∈ chunks, NoEvents c) ∨ HeaderComment lines) := by
  have := text_fate table text
  rw [h] at this
  exact this

/-! ### Texts that panic or loop -/

theorem scanAux_short (text : Bytes) : ∀ l : Bytes, 10 ∉ l → ShortLines (l ++ text) → (scanAux l.reverse l.length text).2 = false := by
  induction text with
  | nil =>
    intro l hl h
    have := h [] l [] (by simp) hl
    rw [scanAux, if_neg (by omega)]
    split <;> rfl
  | cons c text ih =>
    intro l hl h
    have hs := h [] l (c :: text) (by simp) hl
    rw [scanAux, if_neg (by omega)]
    split
    · exact ih [] (by simp) (fun a x b he hx => h (l ++ c :: a) x b (by rw [List.nil_append] at he; rw [he]; simp) hx)
    · rename_i hc
      have := ih (l ++ [c]) (by simp [hl, Ne.symm hc]) (by simpa using h)
      simpa using this

theorem scan_short (text : Bytes) (h : ShortLines text) : (scanLines text).2 = false := scanAux_short text [] (by simp) h

theorem chunkifyFrom_head (ls : List Bytes) : ∀ chunk : List Bytes, chunk ≠ [] → ∃ a more, chunkifyFrom chunk ls = (chunk ++ a) :: more := by
  induction ls with
  | nil => intro chunk h; exact ⟨[], [], by simp [chunkifyFrom, h]⟩
  | cons l ls ih =>
    intro chunk h
    rw [chunkifyFrom]
    split
    · exact ⟨[], _, by rw [List.append_nil]⟩
    · obtain ⟨a, more, he⟩ := ih (chunk ++ [l]) (by simp)
      exact ⟨[l] ++ a, more, by rw [he, List.append_assoc]⟩

theorem scanLines_nil : scanLines [] = ([], false) := rfl

attribute [local irreducible] headerLine trackLine scanLines

/-- Printed header and first track: what the assembler makes of them. -/
theorem first_track (table : List (String × Lib.Manufacturer)) (m : MThd) (t : MTrk) (hmt : m.tag = str "MThd") (hf : m.format.toNat ≤ 2)
    (hp : m.ppqn.toNat < 32768) (ht : t.tag = str "MTrk") (rest : Bytes) (hshort : ShortLines (headerLine m ++ 10 :: 10 :: (trackLine t ++ 10 :: rest))) :
    (∀ chunk more, chunkifyFrom [trackLine t] (scanLines rest).1 = (trackLine t :: chunk) :: more →
      (parseMTrk table (trackLine t :: chunk) = .panic → assembleText table (headerLine m ++ 10 :: 10 :: (trackLine t ++ 10 :: rest)) = .panic) ∧
      (parseMTrk table (trackLine t :: chunk) = .diverge → assembleText table (headerLine m ++ 10 :: 10 :: (trackLine t ++ 10 :: rest)) = .diverge)) := by
  intro chunk more hchunk
  obtain ⟨k1, k2, k3, k4⟩ := trackLine_tag t ht
  obtain ⟨g1, g2⟩ := headerLine_tag m hmt
  have hh := headerLine_clean m hmt
  have htc : Clean (trackLine t) := clean_of (trackLine_alphabet t ht) (by decide +kernel)
  have hh10 : 10 ∉ headerLine m := fun e => (hh 10 e).1 rfl
  have ht10 : 10 ∉ trackLine t := fun e => (htc 10 e).1 rfl
  have ph : Plain (headerLine m) := ⟨hh10, clean_last hh, hshort [] (headerLine m) (10 :: 10 :: (trackLine t ++ 10 :: rest)) rfl hh10⟩
  have pt : Plain (trackLine t) := ⟨ht10, clean_last htc, hshort (headerLine m ++ [10, 10]) (trackLine t) (10 :: rest) (by simp) ht10⟩
  have pe : Plain [] := ⟨by simp, by simp, by simp⟩
  have hrest : (scanLines rest).2 = false := scan_short rest (fun a l b he hl =>
    hshort (headerLine m ++ 10 :: 10 :: (trackLine t ++ 10 :: a)) l b (by rw [he]; simp) hl)
  have hempty : isTag [] = false := by decide +kernel
  have hread : readChunks (headerLine m ++ 10 :: 10 :: (trackLine t ++ 10 :: rest)) = .ok ([headerLine m, []] :: (trackLine t :: chunk) :: more) := by
    have e0 : (10 :: (trackLine t ++ 10 :: rest) : Bytes) = [] ++ 10 :: (trackLine t ++ 10 :: rest) := rfl
    unfold readChunks
    rw [scan_plain _ _ ph, e0, scan_plain _ _ pe, scan_plain _ _ pt, hrest]
    simp only [Bool.false_eq_true, if_false]
    rw [chunkify, if_pos g1, chunkifyFrom, if_neg (by simp [hempty]), List.singleton_append, chunkifyFrom, if_pos k3, hchunk]
  have hhead : assembleLines table [headerLine m, []] [headerLine m, []] ⟨none, []⟩ =
      .ok ⟨some ⟨str "MThd", 6, m.format, 0, m.ppqn, m.ppqn &&& 0x7fff, false, 0, 0, false, []⟩, []⟩ := by
    have hstep : assembleLines table [headerLine m, []] [headerLine m, []] ⟨none, []⟩ = (do
        let s ← assembleLine table [headerLine m, []] ⟨none, []⟩ (headerLine m)
        assembleLines table [headerLine m, []] [[]] s) := rfl
    have hfirst : assembleLine table [headerLine m, []] ⟨none, []⟩ (headerLine m) =
        .ok ⟨some ⟨str "MThd", 6, m.format, 0, m.ppqn, m.ppqn &&& 0x7fff, false, 0, 0, false, []⟩, []⟩ := by
      unfold assembleLine
      rw [g2, g1, parse_headerLine m hmt hf hp [[]]]
      rfl
    rw [hstep, hfirst, Outcome.bind_ok]
    exact assembleLines_rest table _ _ (by intro l hl; rw [List.mem_singleton] at hl; rw [hl]; exact hempty) _
  have hsecond : ∀ smf, assembleLine table (trackLine t :: chunk) smf (trackLine t) = (do
      let x ← parseMTrk table (trackLine t :: chunk)
      match smf.mthd with
      | none => .panic
      | some h => .ok ⟨some { h with tracks := h.tracks + 1 }, smf.tracks ++ [{ x with trackNumber := smf.tracks.length }]⟩) := by
    intro smf
    unfold assembleLine
    rw [k4, k2, k1]
    rfl
  constructor
  · intro hpm
    unfold assembleText
    rw [hread, Outcome.bind_ok, assembleChunks, hhead, Outcome.bind_ok, assembleChunks, assembleLines, hsecond, hpm]
    rfl
  · intro hpm
    unfold assembleText
    rw [hread, Outcome.bind_ok, assembleChunks, hhead, Outcome.bind_ok, assembleChunks, assembleLines, hsecond, hpm]
    rfl

/-- The text of a file starts with its header and the line of its first track. -/
theorem printed_first (smf : SMF) (m : MThd) (hm : smf.mthd = some m) (hs : m.smpte = false) (t : MTrk) (ts : List MTrk) (htr : smf.tracks = t :: ts)
    (text : Bytes) (hp : printSMF smf = .ok text) : ∃ es rest, printEvents t.events = .ok es ∧ printTracks ts = .ok rest ∧
      text = headerLine m ++ 10 :: 10 :: (trackLine t ++ 10 :: (es ++ rest)) := by
  unfold printSMF at hp
  rw [hm, htr] at hp
  simp only [printTracks, printMTrk] at hp
  cases he : printEvents t.events with
  | ok es =>
    cases hr : printTracks ts with
    | ok rest =>
      rw [he, hr] at hp
      simp only [Outcome.bind_ok] at hp
      replace hp := Outcome.ok.inj hp
      refine ⟨es, rest, rfl, rfl, ?_⟩
      rw [← hp, printMThd_line m hs]
      simp [trackLine]
    | err x => rw [he, hr] at hp; cases hp
    | panic => rw [he, hr] at hp; cases hp
    | diverge => rw [he, hr] at hp; cases hp
  | err x => rw [he] at hp; cases hp
  | panic => rw [he] at hp; cases hp
  | diverge => rw [he] at hp; cases hp

/-- C60, text: the disassembly of a file whose first track has no events makes the assembler panic. -/
theorem C60_text_fails (table : List (String × Lib.Manufacturer)) (smf : SMF) (m : MThd) (hm : smf.mthd = some m) (h : Header) (hs : m.Shows h)
    (hv : h.Valid) (hmetrical : h.division < 32768) (t : MTrk) (ts : List MTrk) (htr : smf.tracks = t :: ts)
    (htags : ∀ t ∈ smf.tracks, t.tag = tagMTrk) (hnone : t.events = []) (text : Bytes) (hp : printSMF smf = .ok text) (hshort : ShortLines text) :
    assembleText table text = .panic := by
  obtain ⟨s1, s2, s3, s4, s5, s6, _⟩ := hs
  obtain ⟨q1, q2, _⟩ := s6 hmetrical
  have htagh : tagMThd = str "MThd" := by decide +kernel
  have htagt : tagMTrk = str "MTrk" := by decide +kernel
  obtain ⟨es, rest, p1, p2, rfl⟩ := printed_first smf m hm q2 t ts htr text hp
  have ht : t.tag = str "MTrk" := by rw [htags t (by rw [htr]; simp), htagt]
  rw [hnone] at p1
  have he : es = [] := (Outcome.ok.inj p1).symm
  subst he
  have hft := first_track table m t (by rw [s1, htagh]) (by rw [s3]; exact hv.1) (by rw [q1]; exact hmetrical) ht _ hshort
  rw [List.nil_append] at hft hshort
  have hmk := (trackLine_tag t ht).1
  have hempty : isTag [] = false ∧ isBlank [] = true := by decide +kernel
  cases hts : ts with
  | nil =>
    rw [hts] at p2
    have hrest : rest = [] := (Outcome.ok.inj p2).symm
    subst hrest
    refine (hft [] [] (by rw [scanLines_nil]; rfl)).1 ?_
    unfold parseMTrk
    rw [List.dropWhile_cons_of_neg (by simp [hmk])]
    rfl
  | cons t2 ts2 =>
    obtain ⟨ps, r1, r2, r3⟩ := printTracks_lines _ _ p2
    rw [hts] at r1
    cases ps with
    | nil => cases r1
    | cons p ps =>
      simp only [List.map_cons, List.cons.injEq] at r1
      have ht2 : p.1.tag = str "MTrk" := by rw [htags p.1 (by rw [htr, hts, r1.1]; simp), htagt]
      obtain ⟨_, _, k3, _⟩ := trackLine_tag p.1 ht2
      have htc : Clean (trackLine p.1) := clean_of (trackLine_alphabet p.1 ht2) (by decide +kernel)
      have ht10 : 10 ∉ trackLine p.1 := fun e => (htc 10 e).1 rfl
      have hre : rest = [] ++ 10 :: (trackLine p.1 ++ 10 :: unlines (p.2 ++ ps.flatMap trackLines)) := by
        rw [r3]
        simp [unlines, trackLines]
      have pt : Plain (trackLine p.1) := ⟨ht10, clean_last htc, hshort (headerLine m ++ 10 :: 10 :: (trackLine t ++ [10, 10])) (trackLine p.1)
        (10 :: unlines (p.2 ++ ps.flatMap trackLines)) (by rw [hre]; simp) ht10⟩
      have pe : Plain [] := ⟨by simp, by simp, by simp⟩
      obtain ⟨a, more, hmore⟩ := chunkifyFrom_head (scanLines (unlines (p.2 ++ ps.flatMap trackLines))).1 [trackLine p.1] (by simp)
      refine (hft [[]] (([trackLine p.1] ++ a) :: more) ?_).1 ?_
      · rw [hre, scan_plain _ _ pe, scan_plain _ _ pt, chunkifyFrom, if_neg (by simp [hempty.1]), List.singleton_append, chunkifyFrom, if_pos k3, hmore]
      · unfold parseMTrk
        rw [List.dropWhile_cons_of_neg (by simp [hmk])]
        simp only
        rw [parseEvents, if_pos (by simp [hempty.2])]
        rfl

/-- The first event of the first track decides. -/
theorem first_event (table : List (String × Lib.Manufacturer)) (smf : SMF) (m : MThd) (hm : smf.mthd = some m) (h : Header) (hs : m.Shows h)
    (hv : h.Valid) (hmetrical : h.division < 32768) (t : MTrk) (ts : List MTrk) (htr : smf.tracks = t :: ts) (ht : t.tag = tagMTrk)
    (e : Event) (es : List Event) (hev : t.events = e :: es) (hfree : ∀ w ∈ ["MThd", "MTrk"], contains (shownFields e.body) (str w) = false)
    (hfields : 10 ∉ shownFields e.body ∧ (shownFields e.body).getLast? ≠ some 13) (text : Bytes) (hp : printSMF smf = .ok text)
    (hshort : ShortLines text) : ∃ line, printEvent e = .ok line ∧ (readEvent table line = .panic → assembleText table text = .panic) ∧
      (readEvent table line = .diverge → assembleText table text = .diverge) := by
  obtain ⟨s1, s2, s3, s4, s5, s6, _⟩ := hs
  obtain ⟨q1, q2, _⟩ := s6 hmetrical
  have htagh : tagMThd = str "MThd" := by decide +kernel
  have htagt : tagMTrk = str "MTrk" := by decide +kernel
  rw [htagt] at ht
  obtain ⟨ev, rest, p1, p2, rfl⟩ := printed_first smf m hm q2 t ts htr text hp
  have hft := first_track table m t (by rw [s1, htagh]) (by rw [s3]; exact hv.1) (by rw [q1]; exact hmetrical) ht _ hshort
  have hmk := (trackLine_tag t ht).1
  obtain ⟨ls, r1, r2⟩ := printEvents_lines _ _ p1
  rw [hev] at r2
  cases ls with
  | nil => cases r2
  | cons line ls =>
    simp only [List.map_cons, List.cons.injEq] at r2
    obtain ⟨l1, l2, l3, l4, l5⟩ := event_line_of e line r2.1 hfree hfields
    have hevt : ev ++ rest = line ++ 10 :: (unlines ls ++ rest) := by rw [r1]; simp [unlines]
    have pl : Plain line := ⟨l4, l5, hshort (headerLine m ++ 10 :: 10 :: (trackLine t ++ [10])) line (10 :: (unlines ls ++ rest)) (by rw [hevt]; simp) l4⟩
    obtain ⟨a, more, hmore⟩ := chunkifyFrom_head (scanLines (unlines ls ++ rest)).1 ([trackLine t] ++ [line]) (by simp)
    have hpm : parseMTrk table (trackLine t :: (line :: a)) = (do
        let events ← (do
          let e ← readEvent table line
          let es ← parseEvents table a
          .ok (e :: es))
        let events ← fixups events
        .ok ⟨str "MTrk", 0, 0, [0x4d, 0x54, 0x72, 0x6b, 0x00, 0x00, 0x00, 0x00], events, newContext⟩) := by
      unfold parseMTrk
      rw [List.dropWhile_cons_of_neg (by simp [hmk])]
      simp only
      rw [parseEvents, if_neg (by simp [l2, l3])]
    have hch := hft (line :: a) more (by
      rw [hevt, scan_plain _ _ pl, chunkifyFrom, if_neg (by simp [l1]), hmore]
      rfl)
    refine ⟨line, r2.1, fun hrd => hch.1 ?_, fun hrd => hch.2 ?_⟩
    · rw [hpm, hrd]; rfl
    · rw [hpm, hrd]; rfl

theorem low_fields {s : Bytes} (h : ∀ c ∈ s, c ∈ lowAlphabet) :
    (∀ w ∈ ["MThd", "MTrk"], contains s (str w) = false) ∧ 10 ∉ s ∧ s.getLast? ≠ some 13 := by
  refine ⟨?_, fun e => absurd (h 10 e) (by decide +kernel), fun e => absurd (h 13 (List.mem_of_getLast? e)) (by decide +kernel)⟩
  intro w hw
  have h77 : 77 ∉ s := fun e => absurd (h 77 e) (by decide +kernel)
  refine contains_missing _ _ 77 ?_ h77
  have : ∀ w ∈ ["MThd", "MTrk"], (77 : UInt8) ∈ str w := by decide +kernel
  exact this w hw

theorem low_free {s : Bytes} (h : ∀ c ∈ s, c ∈ lowAlphabet) : ∀ kw ∈ keywords, contains s (str kw) = false := by
  have : ∀ kw ∈ keywords, ∃ c ∈ str kw, c ∉ lowAlphabet := by decide +kernel
  intro kw hk
  obtain ⟨c, h1, h2⟩ := this kw hk
  exact contains_missing _ _ c h1 (fun e => h2 (h c e))

/-- C59, text: the disassembly of a file whose first event is a time signature with a denominator above 128 and a readable number of thirty-seconds makes
the assembler loop forever. -/
theorem C59_text_fails (table : List (String × Lib.Manufacturer)) (smf : SMF) (m : MThd) (hm : smf.mthd = some m) (h : Header) (hs : m.Shows h)
    (hv : h.Valid) (hmetrical : h.division < 32768) (t : MTrk) (ts : List MTrk) (htr : smf.tracks = t :: ts) (ht : t.tag = tagMTrk)
    (e : Event) (es : List Event) (hev : t.events = e :: es) (n d c q : UInt8) (hb : e.body = .timeSignature n d c q) (hd : 128 < d)
    (hq : q ≠ 0 ∧ (10 ≤ q → q % 10 ≠ 9) ∧ (100 ≤ q → q / 10 % 10 ≠ 9)) (text : Bytes) (hp : printSMF smf = .ok text) (hshort : ShortLines text) :
    assembleText table text = .diverge := by
  have hlow : ∀ x ∈ shownFields e.body, x ∈ lowAlphabet := by
    rw [hb]
    exact app_low (dec_low _) (app_low (by decide +kernel) (app_low (dec_low _) (app_low (by decide +kernel) (app_low (dec_low _)
      (app_low (by decide +kernel) (app_low (dec_low _) (by decide +kernel)))))))
  obtain ⟨line, hl, _, hdiv⟩ := first_event table smf m hm h hs hv hmetrical t ts htr ht e es hev (low_fields hlow).1 (low_fields hlow).2 text hp hshort
  apply hdiv
  obtain ⟨pre, k, hpre, rfl⟩ := printEvent_lineOf e line hl
  rw [readEvent_line table pre e.delta k e.body hpre (fun kw hk => low_free hlow kw (List.mem_of_mem_take hk)), hb]
  have hden : denomLoop d 8 1 0 = .diverge := (denomLoop_value d).2 (by rw [UInt8.lt_iff_toNat_lt] at hd; exact hd)
  simp only [readerOf]
  rw [line_timeSignature pre e.delta k hpre n d c q (UInt8.le_iff_toNat_le.mpr (by
    rw [UInt8.lt_iff_toNat_lt] at hd
    have h1 : (128 : UInt8).toNat = 128 := rfl
    have h2 : (1 : UInt8).toNat = 1 := rfl
    omega)) (beats_ok q hq.1 hq.2.1 hq.2.2)]
  unfold makeTimeSignature
  rw [hden]
  rfl

/-- C60, text: the disassembly of a file whose first event is an SMPTE offset out of range makes the assembler panic. -/
theorem C60_offset_fails (table : List (String × Lib.Manufacturer)) (smf : SMF) (m : MThd) (hm : smf.mthd = some m) (h : Header) (hs : m.Shows h)
    (hv : h.Valid) (hmetrical : h.division < 32768) (t : MTrk) (ts : List MTrk) (htr : smf.tracks = t :: ts) (ht : t.tag = tagMTrk)
    (e : Event) (es : List Event) (hev : t.events = e :: es) (hh mm ss r f ff : UInt8) (hb : e.body = .smpteOffset hh mm ss r f ff)
    (hr : r = 24 ∨ r = 25 ∨ r = 29 ∨ r = 30) (hff : ff ≤ 100) (hbad : 24 < hh ∨ 59 < mm ∨ 59 < ss ∨ r ≤ f)
    (text : Bytes) (hp : printSMF smf = .ok text) (hshort : ShortLines text) : assembleText table text = .panic := by
  have hlow : ∀ x ∈ shownFields e.body, x ∈ lowAlphabet := by
    rw [hb]
    exact app_low (dec_low _) (app_low sp_low (app_low (dec_low _) (app_low sp_low (app_low (dec_low _) (app_low sp_low
      (app_low (dec_low _) (app_low sp_low (app_low (dec_low _) (app_low sp_low (dec_low _))))))))))
  obtain ⟨line, hl, hpan, _⟩ := first_event table smf m hm h hs hv hmetrical t ts htr ht e es hev (low_fields hlow).1 (low_fields hlow).2 text hp hshort
  apply hpan
  obtain ⟨pre, k, hpre, rfl⟩ := printEvent_lineOf e line hl
  rw [readEvent_line table pre e.delta k e.body hpre (fun kw hk => low_free hlow kw (List.mem_of_mem_take hk)), hb]
  simp only [readerOf]
  rw [line_smpteOffset pre e.delta k hpre, if_neg (by rcases hr with h | h | h | h <;> simp [h]), if_neg (UInt8.not_lt.mpr hff)]
  have hmk : makeSMPTEOffset hh mm ss r f ff = .panic := by
    unfold makeSMPTEOffset
    by_cases g1 : hh > 24
    · rw [if_pos g1]
    rw [if_neg g1]
    by_cases g2 : mm > 59
    · rw [if_pos g2]
    rw [if_neg g2]
    by_cases g3 : ss > 59
    · rw [if_pos g3]
    rw [if_neg g3, if_neg (by rcases hr with h | h | h | h <;> simp [h])]
    rcases hbad with h | h | h | h
    · exact absurd h g1
    · exact absurd h g2
    · exact absurd h g3
    · rw [if_pos h]
  rw [hmk]
  rfl

/-- C60, text: the disassembly of tracks after a commented header makes the assembler panic. -/
theorem C60_comment_fails (table : List (String × Lib.Manufacturer)) (comment : Bytes) (hc : Comment comment) (hh : str "MThd" <:+: comment)
    (hplain : Plain comment) (ts : List MTrk) (hne : ts ≠ [])
    (ht : ∀ t ∈ ts, t.tag = tagMTrk ∧ t.events ≠ [] ∧ Ended t.events ∧ ∀ e ∈ t.events, e.body.Readable table ∧ e.body.Contained)
    (text : Bytes) (hp : printTracks ts = .ok text) (hshort : ShortLines text) :
    assembleText table (comment ++ 10 :: text) = .panic := by
  have htagt : tagMTrk = str "MTrk" := by decide +kernel
  obtain ⟨ps, p1, p2, p3⟩ := printTracks_lines _ _ hp
  have hmem : ∀ p ∈ ps, p.1 ∈ ts := fun p hp => by rw [← p1]; exact List.mem_map.2 ⟨p, hp, rfl⟩
  obtain ⟨qs, c1, c2⟩ := companions (P := fun p fixed => Restored table p fixed) ps (by
    intro p hpp
    obtain ⟨t1, t2, t3, t4⟩ := ht p.1 (hmem p hpp)
    obtain ⟨fixed, f1, _⟩ := fixed_track p.1.events t2 t3
    exact ⟨fixed, ⟨by rw [t1, htagt], p2 p hpp, t4, f1⟩⟩)
  have hlines : ∀ l ∈ ps.flatMap trackLines, Plain l := by
    intro l hl
    have h2 : 10 ∉ l ∧ l.getLast? ≠ some 13 := by
      obtain ⟨p, hpp, hlp⟩ := List.mem_flatMap.1 hl
      obtain ⟨t1, _, _, t4⟩ := ht p.1 (hmem p hpp)
      simp only [trackLines, List.mem_cons] at hlp
      rcases hlp with hlp | hlp | hlp
      · rw [hlp]; simp
      · have : Clean (trackLine p.1) := clean_of (trackLine_alphabet p.1 (by rw [t1, htagt])) (by decide +kernel)
        rw [hlp]
        exact ⟨fun e => (this 10 e).1 rfl, clean_last this⟩
      · exact (lines_tags table p.1.events p.2 (p2 p hpp) t4 l hlp).2
    exact ⟨h2.1, h2.2, short_line _ (by rw [← p3]; exact hshort) l hl h2.1⟩
  have hhd : isMThd comment = true := (isMThd_iff _).mpr hh
  have hcm : isComment comment = true := (isComment_iff _).mpr hc
  have hread : readChunks (comment ++ 10 :: text) = .ok (chunkifyFrom [comment] ((qs.map Prod.fst).flatMap trackLines)) := by
    unfold readChunks
    rw [scan_plain _ _ hplain, p3, scan_unlines _ hlines, c1]
    simp only [Bool.false_eq_true, if_false]
    rw [chunkify, if_pos hhd]
  have hempty : isTag [] = false := by decide +kernel
  have hhead : ∀ tail : List Bytes, (∀ l ∈ tail, l = []) → ∀ smf : SMF,
      assembleLines table ([comment] ++ tail) ([comment] ++ tail) smf = .ok smf := by
    intro tail htl smf
    have hstep : assembleLines table ([comment] ++ tail) ([comment] ++ tail) smf = (do
        let s ← assembleLine table ([comment] ++ tail) smf comment
        assembleLines table ([comment] ++ tail) tail s) := rfl
    have hfirst : assembleLine table ([comment] ++ tail) smf comment = .ok smf := by
      unfold assembleLine
      rw [if_pos hcm]
    rw [hstep, hfirst, Outcome.bind_ok]
    exact assembleLines_rest table _ _ (fun l hl => by rw [htl l hl]; exact hempty) _
  unfold assembleText
  rw [hread, Outcome.bind_ok, assemble_tracks table qs c2 [comment] (by simp) (fun smf => .ok smf) hhead, Outcome.bind_ok]
  cases qs with
  | nil =>
    rw [List.map_nil] at c1
    rw [← c1] at p1
    exact absurd p1.symm hne
  | cons q qs => rfl

/-- C56: a metrical MIDI file that decodes and whose first track is empty can be disassembled, but assembling the text panics. -/
theorem C56_empty_track_fails (table : List (String × Lib.Manufacturer)) (mc : MiddleC) (spare file : Bytes)
    (smf : SMF) (hd : decode mc spare file = .ok smf) (m : MThd) (hm : smf.mthd = some m) (hmetrical : m.division.toNat < 32768)
    (t : MTrk) (ts : List MTrk) (htr : smf.tracks = t :: ts) (hnone : t.events = []) :
    ∃ text, printSMF smf = .ok text ∧ (ShortLines text → assembleText table text = .panic) := by
  obtain ⟨text, hp⟩ := C84_decoded_prints mc spare file smf hd
  refine ⟨text, hp, fun hshort => ?_⟩
  obtain ⟨m', h, hm', hs, hv, hn, _⟩ := decode_ok hd
  rw [hm] at hm'
  injection hm' with hm'
  subst hm'
  refine C60_text_fails table smf m hm h hs hv (by rw [← hs.2.2.2.2.1]; exact hmetrical) t ts htr ?_ hnone text hp hshort
  intro t htm
  obtain ⟨i, ch, hwf, htag, _, hu⟩ := decode_track hd htm
  exact ((unmarshalMTrk_ok mc spare i ch hwf htag t).1 hu).2.1

/-! ### Examples -/

/-- A time signature with denominator 200. -/
example : (match assembleText [] (str "MThd format:0 metrical time:96 ppqn\nMTrk\ndelta:0 TimeSignature 4/200, 24 ticks per click, 8/32 per quarter\n") with
    | .diverge => true | _ => false) = true := by decide +kernel

/-- A track without events, an SMPTE offset at 25 hours, a commented header. -/
example : ([str "MThd format:0 metrical time:96 ppqn\nMTrk\n%% no events\n \n",
    str "MThd format:0 metrical time:96 ppqn\nMTrk\ndelta:0 SMPTEOffset 25 0 0 24 0 0\n",
    str "%% MThd format:0 metrical time:96 ppqn\nMTrk\ndelta:0 EndOfTrack\n"].all fun text =>
      match assembleText [] text with | .panic => true | _ => false) = true := by decide +kernel

/-- A decodable file with an empty first track: its disassembly makes the assembler panic. -/
example : ∃ smf text, decode .c3 [] [0x4d, 0x54, 0x68, 0x64, 0, 0, 0, 6, 0, 1, 0, 2, 0, 96, 0x4d, 0x54, 0x72, 0x6b, 0, 0, 0, 0,
      0x4d, 0x54, 0x72, 0x6b, 0, 0, 0, 4, 0, 0xff, 0x2f, 0] = .ok smf ∧ printSMF smf = .ok text ∧ (∃ t ts, smf.tracks = t :: ts ∧ t.events = []) ∧
    ∀ table, assembleText table text = .panic := by
  obtain ⟨smf, h1, h2⟩ := Outcome.of_test (o := decode .c3 [] [0x4d, 0x54, 0x68, 0x64, 0, 0, 0, 6, 0, 1, 0, 2, 0, 96, 0x4d, 0x54, 0x72, 0x6b, 0, 0, 0, 0,
      0x4d, 0x54, 0x72, 0x6b, 0, 0, 0, 4, 0, 0xff, 0x2f, 0])
    (p := fun smf => (match smf.mthd with | some m => decide (m.division.toNat < 32768) | none => false) &&
      (match smf.tracks with | t :: _ => t.events.isEmpty | [] => false) &&
      (match printSMF smf with | .ok text => decide (text.length < 65536) | _ => false)) (by decide +kernel)
  simp only [Bool.and_eq_true] at h2
  obtain ⟨⟨q1, q2⟩, q3⟩ := h2
  split at q1
  · rename_i m hm
    split at q2
    · rename_i t ts htr
      have hnone : t.events = [] := by simpa using q2
      obtain ⟨text, hp, _⟩ := C56_empty_track_fails [] .c3 [] _ smf h1 m hm (by simpa using q1) t ts htr hnone
      refine ⟨smf, text, h1, hp, ⟨t, ts, htr, hnone⟩, fun table => ?_⟩
      obtain ⟨text', hp', hpan⟩ := C56_empty_track_fails table .c3 [] _ smf h1 m hm (by simpa using q1) t ts htr hnone
      rw [hp] at hp'
      have := Outcome.ok.inj hp'
      subst this
      rw [hp] at q3
      exact hpan (short_text text (by simpa using q3))
    · cases q2
  · cases q1

end Midiasm
