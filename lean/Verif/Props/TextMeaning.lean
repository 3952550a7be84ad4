import Verif.Lemmas.First
import Verif.Props.LongLines
import Verif.Props.JsonAccepted

/-!
C128, C129: what a text means to the assembler.
-/

set_option linter.unusedSimpArgs false

namespace Midiasm
open Spec

/-! ### The header line -/

theorem toks_prefix (w : Bytes) (hw : ∀ b ∈ w, b.toNat < 128) {s : Bytes} (h : w <+: s) : ∃ post, toks s = sing w ++ toks post := by
  obtain ⟨post, rfl⟩ := h
  exact ⟨post, toks_ascii w post hw⟩

theorem cut_match {is : List Item} {s : Bytes} {c : Caps} (h : matchAt is ⟨[], none⟩ (toks s) = some c) :
    ∃ u, u.flatten <+: s ∧ Runs is ⟨[], none⟩ u c := by
  obtain ⟨u, v, h1, h2⟩ := matchAt_runs is _ _ _ h
  refine ⟨u, ⟨v.flatten, ?_⟩, h2⟩
  have := congrArg List.flatten h1
  rw [toks_flatten, List.flatten_append] at this
  exact this.symm

theorem format_first (line : Bytes) (gs : List Bytes) :
    findSubmatch formatPattern line = some gs ↔ ∃ f, FirstAt FormatAt line f ∧ gs = [[UInt8.ofNat (48 + f)]] := by
  refine findSubmatch_first formatPattern FormatAt (fun f => [[UInt8.ofNat (48 + f)]]) ?_ ?_ ?_ line gs
  · rintro s f ⟨_, post, rfl⟩
    have : str "format:" = 102 :: str "ormat:" := by decide +kernel
    rw [this]
    exact ⟨102, _, rfl, by decide⟩
  · rintro s f ⟨hf, hp⟩
    have hd : f = 0 ∨ f = 1 ∨ f = 2 := by omega
    have hascii : ∀ b ∈ str "format:" ++ [UInt8.ofNat (48 + f)], b.toNat < 128 := by
      rcases hd with rfl | rfl | rfl <;> decide +kernel
    obtain ⟨post, ht⟩ := toks_prefix _ hascii hp
    refine ⟨none, ?_⟩
    rw [ht, sing_append, List.append_assoc]
    unfold formatPattern
    refine m_lit "format:" ?_
    rcases hd with rfl | rfl | rfl <;> rfl
  · intro s c h
    obtain ⟨u, hp, hr⟩ := cut_match h
    unfold formatPattern at hr
    obtain ⟨u1, v1, c1, rfl, h1, hr⟩ := runs_append _ _ _ _ _ hr
    obtain ⟨hm, rfl⟩ := runs_lit _ h1
    have hlit := fits_lit _ _ hm
    obtain ⟨u2, v2, c2, rfl, h2, hr⟩ := runs_cons hr
    obtain ⟨rfl, rfl⟩ := run_start h2
    obtain ⟨u3, v3, c3, rfl, h3, hr⟩ := runs_cons hr
    obtain ⟨t, rfl, hc, rfl⟩ := run_chr h3
    obtain ⟨u4, v4, c4, rfl, h4, hr⟩ := runs_cons hr
    obtain ⟨rfl, rfl⟩ := run_stop h4
    obtain ⟨rfl, rfl⟩ := runs_nil hr
    obtain ⟨b, rfl, hb0⟩ : ∃ b, t = [b] ∧ 48 ≤ b.toNat ∧ b.toNat ≤ 50 := by
      unfold rangeTok at hc
      split at hc
      · rw [Bool.and_eq_true, decide_eq_true_eq, decide_eq_true_eq, UInt8.le_iff_toNat_le, UInt8.le_iff_toNat_le] at hc
        exact ⟨_, rfl, hc⟩
      · cases hc
    have hb : UInt8.ofNat (48 + (b.toNat - 48)) = b := by
      rw [← UInt8.toNat_inj, UInt8.toNat_ofNat']
      omega
    refine ⟨b.toNat - 48, ⟨by omega, ?_⟩, ?_⟩
    · rw [hb]
      have : (u1 ++ ([] ++ ([[b]] ++ ([] ++ [])))).flatten = str "format:" ++ [b] := by
        simp [hlit]
      rwa [this] at hp
    · rw [hb]
      rfl

theorem reSpace_blank (b : UInt8) : reSpace b = true ↔ b ∈ ([9, 10, 12, 13, 32] : Bytes) :=
  all8 (P := fun b => reSpace b = true ↔ b ∈ ([9, 10, 12, 13, 32] : Bytes)) (by decide +kernel) b

theorem singles {p : Tok → Bool} (hp : ∀ t, p t = true → ∃ b, t = [b]) (ts : List Tok) (h : ∀ t ∈ ts, p t = true) : ts = sing ts.flatten := by
  induction ts with
  | nil => rfl
  | cons t ts ih =>
    obtain ⟨b, rfl⟩ := hp t (h t (by simp))
    rw [List.flatten_cons, sing_append, ← ih (fun u hu => h u (by simp [hu]))]
    rfl

theorem division_first (line : Bytes) (gs : List Bytes) :
    findSubmatch divisionPattern line = some gs ↔ ∃ ds, FirstAt DivisionAt line ds ∧ gs = [ds] := by
  refine findSubmatch_first divisionPattern DivisionAt (fun ds => [ds]) ?_ ?_ ?_ line gs
  · rintro s ds ⟨sep, sp, _, _, _, _, post, rfl⟩
    have : str "metrical" = 109 :: str "etrical" := by decide +kernel
    rw [this]
    exact ⟨109, _, rfl, by decide⟩
  · rintro s ds ⟨sep, sp, hsep, hne, hds, hsp, hp⟩
    have hblank : ∀ c ∈ ([9, 10, 12, 13, 32] : Bytes), c.toNat < 128 := by decide
    have hascii : ∀ b ∈ str "metrical" ++ (sep ++ (str "time:" ++ (ds ++ (sp ++ str "ppqn")))), b.toNat < 128 := by
      intro b hb
      simp only [List.mem_append] at hb
      rcases hb with hb | hb | hb | hb | hb | hb
      · exact (show ∀ b ∈ str "metrical", b.toNat < 128 by decide +kernel) b hb
      · rcases hsep with rfl | rfl | rfl
        · cases hb
        · rw [List.mem_singleton] at hb; subst hb; decide
        · rw [List.mem_singleton] at hb; subst hb; decide
      · exact (show ∀ b ∈ str "time:", b.toNat < 128 by decide +kernel) b hb
      · have := hds b hb; omega
      · exact hblank b (hsp b hb)
      · exact (show ∀ b ∈ str "ppqn", b.toNat < 128 by decide +kernel) b hb
    obtain ⟨post, ht⟩ := toks_prefix _ hascii hp
    refine ⟨none, ?_⟩
    have hppqn : ∀ r : List Tok, (sing (str "ppqn") ++ r).head? = some [112] := by
      intro r
      have : sing (str "ppqn") = [112] :: sing (str "pqn") := by decide +kernel
      rw [this]
      rfl
    have hrest : matchAt (lit "time:" ++ (number ++ ([.star spaceTok true] ++ lit "ppqn"))) ⟨[], none⟩
        (sing (str "time:") ++ (sing ds ++ (sing sp ++ (sing (str "ppqn") ++ toks post)))) = some ⟨[ds], none⟩ := by
      refine m_lit "time:" ?_
      cases ds with
      | nil => exact absurd rfl hne
      | cons b ds =>
        have hdig : ∀ d ∈ b :: ds, digitTok [d] = true := by
          intro d hd
          refine digitTok_dec d ?_
          rw [UInt8.le_iff_toNat_le, UInt8.le_iff_toNat_le]
          exact hds d hd
        refine m_group b ds _ (hdig b (by simp)) (fun d hd => hdig d (by simp [hd])) ?_ ?_
        · intro t hh
          cases sp with
          | nil =>
            rw [show sing ([] : Bytes) = [] from rfl, List.nil_append, hppqn] at hh
            injection hh with hh
            subst hh
            rfl
          | cons c sp =>
            injection hh with hh
            subst hh
            have hc := hsp c (by simp)
            exact (show ∀ c ∈ ([9, 10, 12, 13, 32] : Bytes), digitTok [c] = false by decide) c hc
        · refine m_star (sing sp) _ ?_ ?_ ?_
          · intro t ht
            obtain ⟨c, hc, rfl⟩ := List.mem_map.mp ht
            exact (reSpace_blank c).mpr (hsp c hc)
          · intro t hh
            rw [hppqn] at hh
            injection hh with hh
            subst hh
            rfl
          · have := m_lit (is := []) (g := [b :: ds]) (x := ⟨[b :: ds], none⟩) (r := toks post) "ppqn" rfl
            rw [List.append_nil] at this
            exact this
    have htime : ∀ r : List Tok, (sing (str "time:") ++ r) = [116] :: (sing (str "ime:") ++ r) := by
      intro r
      have : sing (str "time:") = [116] :: sing (str "ime:") := by decide +kernel
      rw [this]
      rfl
    rw [ht]
    simp only [sing_append, List.append_assoc]
    unfold divisionPattern
    simp only [List.append_assoc, List.cons_append, List.nil_append] at hrest ⊢
    refine m_lit "metrical" ?_
    show matchAt (.opt _ :: _) _ _ = _
    rcases hsep with rfl | rfl | rfl
    · rw [show sing ([] : Bytes) = [] from rfl, List.nil_append, htime]
      simp only [matchAt]
      rw [if_neg (by decide), ← htime]
      exact hrest
    · rw [show sing ([32] : Bytes) = [[32]] from rfl, List.singleton_append]
      simp only [matchAt]
      rw [if_pos (by decide), show Caps.eat ⟨[], none⟩ [32] = ⟨[], none⟩ from rfl]
      rw [hrest]
      rfl
    · rw [show sing ([45] : Bytes) = [[45]] from rfl, List.singleton_append]
      simp only [matchAt]
      rw [if_pos (by decide), show Caps.eat ⟨[], none⟩ [45] = ⟨[], none⟩ from rfl]
      rw [hrest]
      rfl
  · intro s c h
    obtain ⟨u, hp, hr⟩ := cut_match h
    unfold divisionPattern at hr
    simp only [List.append_assoc] at hr
    obtain ⟨u1, v1, c1, rfl, h1, hr⟩ := runs_append _ _ _ _ _ hr
    obtain ⟨hm1, rfl⟩ := runs_lit _ h1
    have e1 := fits_lit _ _ hm1
    obtain ⟨u2, v2, c2, rfl, h2, hr⟩ := runs_cons hr
    have hsep : (u2.flatten = [] ∨ u2.flatten = [32] ∨ u2.flatten = [45]) ∧ c2 = ⟨[], none⟩ := by
      rcases run_opt h2 with ⟨rfl, rfl⟩ | ⟨t, rfl, ht, rfl⟩
      · exact ⟨Or.inl rfl, rfl⟩
      · refine ⟨Or.inr ?_, rfl⟩
        rw [Bool.or_eq_true] at ht
        rcases ht with ht | ht
        · unfold charTok at ht
          split at ht
          · rw [decide_eq_true_eq] at ht; subst ht; exact Or.inl rfl
          · cases ht
        · unfold charTok at ht
          split at ht
          · rw [decide_eq_true_eq] at ht; subst ht; exact Or.inr rfl
          · cases ht
    obtain ⟨hsep, rfl⟩ := hsep
    replace hr : Runs (lit "time:" ++ (number ++ ([.star spaceTok true] ++ lit "ppqn"))) ⟨[], none⟩ v2 c := hr
    obtain ⟨u3, v3, c3, rfl, h3, hr⟩ := runs_append _ _ _ _ _ hr
    obtain ⟨hm3, rfl⟩ := runs_lit _ h3
    have e3 := fits_lit _ _ hm3
    obtain ⟨u4, v4, c4, rfl, h4, hr⟩ := runs_append _ _ _ _ _ hr
    obtain ⟨hd, hne, rfl⟩ := runs_number h4
    obtain ⟨u5, v5, c5, rfl, h5, hr⟩ := runs_cons hr
    obtain ⟨hs, rfl⟩ := run_star h5
    rw [eats_none] at hr
    obtain ⟨hm6, rfl⟩ := runs_lit _ hr
    have e6 := fits_lit _ _ hm6
    have s4 := singles (p := digitTok) (fun t ht => by obtain ⟨b, rfl, _⟩ := digitTok_byte ht; exact ⟨b, rfl⟩) u4 hd
    have hspace : ∀ t, spaceTok t = true → ∃ b, t = [b] := by
      intro t ht
      unfold spaceTok at ht
      split at ht
      · exact ⟨_, rfl⟩
      · cases ht
    have s5 := singles hspace u5 hs
    refine ⟨u4.flatten, ⟨u2.flatten, u5.flatten, hsep, ?_, ?_, ?_, ?_⟩, rfl⟩
    · intro he
      rw [he] at s4
      exact hne s4
    · intro d hd'
      have : [d] ∈ u4 := by rw [s4]; exact List.mem_map.mpr ⟨d, hd', rfl⟩
      obtain ⟨b, hb, hr⟩ := digitTok_byte (hd _ this)
      injection hb with hb _
      subst hb
      exact hr
    · intro c hc
      have : [c] ∈ u5 := by rw [s5]; exact List.mem_map.mpr ⟨c, hc, rfl⟩
      exact (reSpace_blank c).mp (hs _ this)
    · have : (u1 ++ (u2 ++ (u3 ++ (u4 ++ (u5 ++ v5))))).flatten =
          str "metrical" ++ (u2.flatten ++ (str "time:" ++ (u4.flatten ++ (u5.flatten ++ str "ppqn")))) := by
        simp only [List.flatten_append, e1, e3, e6]
      rwa [this] at hp

/-! ### Sections -/

theorem numeral_parseUint {s : Bytes} {v bits : Nat} (h : Numeral s v) (hb : v < 2 ^ bits) : parseUint s bits = .ok v := by
  obtain ⟨hne, hd, hv⟩ := h
  have key : ∀ (s : Bytes) (acc : Nat), (∀ b ∈ s, 48 ≤ b.toNat ∧ b.toNat ≤ 57) →
      digitsValue s acc = some (s.foldl (fun a b => 10 * a + (b.toNat - 48)) acc) := by
    intro s
    induction s with
    | nil => intro acc _; rfl
    | cons b s ih =>
      intro acc h
      have hb := h b (by simp)
      have hdv : digitValue b = some (b.toNat - 48) := by
        unfold digitValue
        rw [if_pos]
        rw [Bool.and_eq_true, decide_eq_true_eq, decide_eq_true_eq, UInt8.le_iff_toNat_le, UInt8.le_iff_toNat_le]
        exact hb
      rw [digitsValue, hdv, Option.bind_some, ih _ (fun x hx => h x (by simp [hx])), List.foldl_cons, Nat.mul_comm acc 10]
  unfold parseUint
  rw [if_neg hne, key s 0 hd, hv]
  simp only
  rw [if_pos hb]

/-- The header value read from a line. -/
def HeaderIs (m : MThd) (h : Header) : Prop :=
  m.tag = str "MThd" ∧ m.length = 6 ∧ m.format = UInt16.ofNat h.format ∧ m.tracks = UInt16.ofNat h.tracks ∧ m.division = UInt16.ofNat h.division

theorem makeMThd_ok {f d : UInt16} {m : MThd} (h : makeMThd f 0 d [] = .ok m) :
    (Header.mk f.toNat 0 d.toNat).Valid ∧ HeaderIs m ⟨f.toNat, 0, d.toNat⟩ := by
  have hd := d.toNat_lt
  unfold makeMThd at h
  split at h
  · cases h
  · rename_i hf
    have hf2 : f.toNat ≤ 2 := by
      have : f = 0 ∨ f = 1 ∨ f = 2 := by
        by_cases h0 : f = 0
        · exact Or.inl h0
        · by_cases h1 : f = 1
          · exact Or.inr (Or.inl h1)
          · by_cases h2 : f = 2
            · exact Or.inr (Or.inr h2)
            · exact absurd ⟨h0, h1, h2⟩ hf
      rcases this with rfl | rfl | rfl <;> decide
    split at h
    · rename_i hm
      injection h with h
      subst h
      exact ⟨⟨hf2, Nat.zero_lt_succ _, by simpa using hd, Or.inl ((u16_and8000 d).1 hm)⟩, rfl, rfl, by simp, by simp, by simp⟩
    · split at h
      · cases h
      · rename_i fps drop hfps
        injection h with h
        subst h
        refine ⟨⟨hf2, Nat.zero_lt_succ _, by simpa using hd, Or.inr ?_⟩, rfl, rfl, by simp, by simp, by simp⟩
        rw [fpsOf_eq] at hfps
        simp only
        cases hfr : frameRate (d.toNat / 256) with
        | none => rw [hfr] at hfps; cases hfps
        | some _ => rfl

theorem makeMThd_valid {f d : UInt16} (h : (Header.mk f.toNat 0 d.toNat).Valid) : ∃ m, makeMThd f 0 d [] = .ok m := by
  rw [makeMThd_eq f 0 d [] h]
  split
  · exact ⟨_, rfl⟩
  · rename_i hd
    obtain ⟨_, _, _, h4⟩ := h
    rcases h4 with h4 | h4
    · exact absurd h4 hd
    · simp only at h4
      obtain ⟨x, hx⟩ := Option.isSome_iff_exists.mp h4
      rw [hx]
      exact ⟨_, rfl⟩

theorem firstAt_unique {α : Type} {P : Bytes → α → Prop} (hP : ∀ s x y, P s x → P s y → x = y) {line : Bytes} {x y : α}
    (h1 : FirstAt P line x) (h2 : FirstAt P line y) : x = y := by
  obtain ⟨a, s, e1, p1, m1⟩ := h1
  obtain ⟨b, t, e2, p2, m2⟩ := h2
  have l1 := m1 b t y e2 p2
  have l2 := m2 a s x e1 p1
  have : s = t := by
    rw [e1] at e2
    exact (List.append_inj e2 (by omega)).2
  subst this
  exact hP s x y p1 p2

theorem digit_numeral (f : Nat) (hf : f ≤ 2) : parseUint [UInt8.ofNat (48 + f)] 16 = .ok f := by
  have : f = 0 ∨ f = 1 ∨ f = 2 := by omega
  rcases this with rfl | rfl | rfl <;> rfl

/-- Reading a header. -/
theorem parseMThd_iff (l : Bytes) (t : List Bytes) (hl : str "MThd" <:+: l) (m : MThd) :
    parseMThd (l :: t) = .ok m → ∃ f d, HeaderLine l f d ∧ HeaderIs m ⟨f, 0, d⟩ := by
  intro h
  have hm : isMThd l = true := (isMThd_iff l).mpr hl
  unfold parseMThd at h
  rw [List.find?_cons_of_pos hm] at h
  simp only at h
  split at h
  · rename_i fs hf
    obtain ⟨f, hff, he⟩ := (format_first l _).mp hf
    injection he with he _
    subst he
    have hf2 : f ≤ 2 := by obtain ⟨_, _, _, ⟨h, _⟩, _⟩ := hff; exact h
    rw [digit_numeral f hf2, Outcome.bind_ok] at h
    split at h
    · rename_i ds hd
      obtain ⟨ds', hdd, he⟩ := (division_first l _).mp hd
      injection he with he _
      subst he
      obtain ⟨v, hv, h⟩ := bound_ok h
      obtain ⟨hn, hlt⟩ := parseUint_numeral hv
      have hfn : (UInt16.ofNat f).toNat = f := by rw [UInt16.toNat_ofNat']; omega
      have hvn : (UInt16.ofNat v).toNat = v := by rw [UInt16.toNat_ofNat']; omega
      split at h
      · cases h
      · obtain ⟨hva, his⟩ := makeMThd_ok h
        rw [hfn, hvn] at hva his
        exact ⟨f, v, ⟨hff, ⟨ds, hdd, hn⟩, hva⟩, his⟩
    · cases h
  · cases h

theorem parseMThd_header (l : Bytes) (t : List Bytes) (hl : str "MThd" <:+: l) (f d : Nat) (h : HeaderLine l f d) :
    ∃ m, parseMThd (l :: t) = .ok m ∧ HeaderIs m ⟨f, 0, d⟩ := by
  obtain ⟨hf, ⟨ds, hd, hn⟩, hv⟩ := h
  have hm : isMThd l = true := (isMThd_iff l).mpr hl
  have hv' := hv
  obtain ⟨v1, v2, v3, v4⟩ := hv
  simp only at v1 v2 v3 v4
  have hfn : (UInt16.ofNat f).toNat = f := by rw [UInt16.toNat_ofNat']; omega
  have hdn : (UInt16.ofNat d).toNat = d := by rw [UInt16.toNat_ofNat']; omega
  obtain ⟨m, hmk⟩ := makeMThd_valid (f := UInt16.ofNat f) (d := UInt16.ofNat d) (by rw [hfn, hdn]; exact hv')
  refine ⟨m, ?_, ?_⟩
  · unfold parseMThd
    rw [List.find?_cons_of_pos hm]
    simp only
    rw [(format_first l _).mpr ⟨f, hf, rfl⟩]
    simp only [digit_numeral f v1, Outcome.bind_ok, (division_first l _).mpr ⟨ds, hd, rfl⟩]
    rw [numeral_parseUint hn (by omega), Outcome.bind_ok]
    rw [if_neg, hmk]
    rintro ⟨h1, h2⟩
    unfold makeMThd at hmk
    split at hmk
    · cases hmk
    · rw [if_neg (by rw [h1]; decide), h2] at hmk
      cases hmk
  · have := (makeMThd_ok hmk).2
    rwa [hfn, hdn] at this

theorem whiteSpace_space (r : Nat) (h : r ∈ whiteSpace) : unicodeSpace r = true :=
  (show ∀ r ∈ whiteSpace, unicodeSpace r = true by decide +kernel) r h

theorem skipped_iff (l : Bytes) : (isComment l || isBlank l) = true ↔ Spec.Empty l := by
  constructor
  · exact empty_of_skipped l
  · rintro (h | h)
    · rw [(isComment_iff l).mpr h]; rfl
    · rw [Bool.or_eq_true]
      right
      exact List.all_eq_true.mpr fun r hr => whiteSpace_space r (h r hr)

/-- Reading the lines of a track. -/
theorem parseEvents_iff (table : List (String × Lib.Manufacturer)) (ls : List Bytes) (es : List Event) :
    parseEvents table ls = .ok es ↔ Says table ls es := by
  induction ls generalizing es with
  | nil =>
    constructor
    · intro h
      injection h with h
      subst h
      exact .nil
    · intro h
      cases h
      rfl
  | cons l ls ih =>
    rw [parseEvents]
    by_cases hs : (isComment l || isBlank l) = true
    · have he := (skipped_iff l).mp hs
      rw [if_pos hs, ih]
      constructor
      · exact .skip l ls es he
      · intro h
        cases h with
        | skip _ _ _ _ h => exact h
        | event _ _ _ _ hn _ _ => exact absurd he hn
    · have he : ¬ Spec.Empty l := fun h => hs ((skipped_iff l).mpr h)
      rw [if_neg hs]
      constructor
      · intro h
        obtain ⟨e, h1, h2⟩ := bound_ok h
        obtain ⟨es', h3, h4⟩ := bound_ok h2
        injection h4 with h4
        subst h4
        exact .event l ls e es' he h1 ((ih es').mp h3)
      · intro h
        cases h with
        | skip _ _ _ h1 _ => exact absurd h1 he
        | event _ _ e es' _ h1 h2 =>
          rw [h1, Outcome.bind_ok, (ih es').mpr h2]
          rfl

/-- Reading a track. -/
theorem parseMTrk_iff (table : List (String × Lib.Manufacturer)) (l : Bytes) (t : List Bytes) (hl : str "MTrk" <:+: l) (m : MTrk) :
    parseMTrk table (l :: t) = .ok m ↔ ∃ es es', Says table t es ∧ fixups es = .ok es' ∧
      m = ⟨str "MTrk", 0, 0, [0x4d, 0x54, 0x72, 0x6b, 0x00, 0x00, 0x00, 0x00], es', newContext⟩ := by
  have hm : isMTrk l = true := (contains_iff _ _).mpr hl
  unfold parseMTrk
  rw [List.dropWhile_cons_of_neg (by simp [hm])]
  simp only
  constructor
  · intro h
    obtain ⟨es, h1, h2⟩ := bound_ok h
    obtain ⟨es', h3, h4⟩ := bound_ok h2
    injection h4 with h4
    exact ⟨es, es', (parseEvents_iff table t es).mp h1, h3, h4.symm⟩
  · rintro ⟨es, es', h1, h2, rfl⟩
    rw [(parseEvents_iff table t es).mpr h1, Outcome.bind_ok, h2]
    rfl

/-- The file made from a text: its header and the events of its tracks. -/
def FileIs (smf : SMF) (h : Option Header) (ts : List (List Event)) : Prop :=
  (match h, smf.mthd with
   | none, none => True
   | some h, some m => HeaderIs m h ∧ h.format ≤ 2 ∧ h.tracks < 65536 ∧ h.division < 65536
   | _, _ => False) ∧ smf.tracks.map MTrk.events = ts

theorem assembleChunks_snoc (table : List (String × Lib.Manufacturer)) (cs : List (List Bytes)) (c : List Bytes) (smf : SMF) :
    assembleChunks table (cs ++ [c]) smf = (assembleChunks table cs smf >>= fun s => assembleLines table c c s) := by
  induction cs generalizing smf with
  | nil =>
    rw [List.nil_append, assembleChunks, assembleChunks]
    simp only [assembleChunks, Outcome.bind_ok]
    cases assembleLines table c c smf <;> rfl
  | cons d cs ih =>
    rw [List.cons_append, assembleChunks, assembleChunks]
    cases assembleLines table d d smf with
    | ok s => rw [Outcome.bind_ok, Outcome.bind_ok, ih]
    | err _ => rfl
    | panic => rfl
    | diverge => rfl

theorem section_line (table : List (String × Lib.Manufacturer)) (l : Bytes) (t : List Bytes) (ht : ∀ x ∈ t, ¬ Starts x) (smf : SMF) :
    assembleLines table (l :: t) (l :: t) smf = assembleLine table (l :: t) smf l := by
  rw [assembleLines]
  cases h : assembleLine table (l :: t) smf l with
  | ok s =>
    rw [Outcome.bind_ok]
    exact assembleLines_rest table _ _ (by
      intro x hx
      rw [Bool.eq_false_iff]
      exact fun h => ht x hx ((isTag_iff x).mp h)) s
  | err _ => rfl
  | panic => rfl
  | diverge => rfl

/-- Sections of a text: a line with a tag and lines without. -/
def Sections (cs : List (List Bytes)) : Prop := ∀ c ∈ cs, ∃ l t, c = l :: t ∧ Starts l ∧ ∀ x ∈ t, ¬ Starts x

/-- What the assembler makes of sections. -/
theorem means_of_sections (table : List (String × Lib.Manufacturer)) (cs : List (List Bytes)) (hs : Sections cs) (smf : SMF)
    (h : assembleChunks table cs ⟨none, []⟩ = .ok smf) :
    ∃ hd ts, Means table cs hd ts ∧ FileIs smf hd ts ∧ ∀ t ∈ smf.tracks, t.tag = str "MTrk" := by
  induction cs using List.reverseRecOn generalizing smf with
  | nil =>
    injection h with h
    subst h
    exact ⟨none, [], .nil, ⟨trivial, rfl⟩, by simp⟩
  | append_singleton cs c ih =>
    rw [assembleChunks_snoc] at h
    obtain ⟨s, h1, h2⟩ := bound_ok h
    obtain ⟨hd, ts, hm, ⟨hf1, hf2⟩, htag⟩ := ih (fun x hx => hs x (by simp [hx])) s h1
    obtain ⟨l, t, rfl, hl, ht⟩ := hs c (by simp)
    rw [section_line table l t ht] at h2
    unfold assembleLine at h2
    by_cases hc : isComment l = true
    · rw [if_pos hc] at h2
      injection h2 with h2
      subst h2
      exact ⟨hd, ts, .comment cs hd ts l t hm ((isComment_iff l).mp hc), ⟨hf1, hf2⟩, htag⟩
    · rw [if_neg hc] at h2
      have hnc : ¬ Comment l := fun h => hc ((isComment_iff l).mpr h)
      by_cases hh : isMThd l = true
      · rw [if_pos hh] at h2
        obtain ⟨m, h3, h4⟩ := bound_ok h2
        injection h4 with h4
        subst h4
        have hlh := (isMThd_iff l).mp hh
        obtain ⟨f, d, hline, his⟩ := parseMThd_iff l t hlh m h3
        obtain ⟨v1, v2, v3, _⟩ := hline.2.2
        exact ⟨some ⟨f, 0, d⟩, ts, .header cs hd ts l t f d hm hnc hlh hline, ⟨⟨his, v1, v2, v3⟩, hf2⟩, htag⟩
      · rw [if_neg hh] at h2
        have hnh : ¬ str "MThd" <:+: l := fun h => hh ((isMThd_iff l).mpr h)
        have hk : str "MTrk" <:+: l := by
          rcases hl with hl | hl
          · exact absurd hl hnh
          · exact hl
        rw [if_pos (show isMTrk l = true from (contains_iff _ _).mpr hk)] at h2
        obtain ⟨m, h3, h4⟩ := bound_ok h2
        obtain ⟨es, es', he, hfx, rfl⟩ := (parseMTrk_iff table l t hk m).mp h3
        cases hmt : s.mthd with
        | none => rw [hmt] at h4; cases h4
        | some mh =>
          rw [hmt] at h4 hf1
          simp only at h4
          injection h4 with h4
          subst h4
          cases hd with
          | none => exact hf1.elim
          | some hdr =>
            obtain ⟨⟨i1, i2, i3, i4, i5⟩, b1, b2, b3⟩ := hf1
            refine ⟨_, _, .track cs hdr ts l t es es' hm hnc hnh hk he hfx, ⟨⟨⟨i1, i2, i3, ?_, i5⟩, b1, Nat.mod_lt _ (by decide), b3⟩, ?_⟩, ?_⟩
            · simp only
              rw [i4, ← UInt16.toNat_inj, UInt16.toNat_add, UInt16.toNat_ofNat', UInt16.toNat_ofNat']
              have : (1 : UInt16).toNat = 1 := rfl
              omega
            · rw [List.map_append, hf2]
              rfl
            · intro x hx
              rcases List.mem_append.mp hx with hx | hx
              · exact htag x hx
              · rw [List.mem_singleton] at hx
                subst hx
                rfl

/-- Sections that mean something are assembled. -/
theorem sections_of_means (table : List (String × Lib.Manufacturer)) (cs : List (List Bytes)) (hd : Option Header) (ts : List (List Event))
    (h : Means table cs hd ts) (hs : Sections cs) : ∃ smf, assembleChunks table cs ⟨none, []⟩ = .ok smf ∧ FileIs smf hd ts := by
  induction h with
  | nil => exact ⟨_, rfl, trivial, rfl⟩
  | comment ss h ts l t _ hc ih =>
    obtain ⟨smf, h1, h2⟩ := ih (fun x hx => hs x (by simp [hx]))
    obtain ⟨l', t', he, _, ht⟩ := hs (l :: t) (by simp)
    injection he with e1 e2
    subst e1 e2
    refine ⟨smf, ?_, h2⟩
    rw [assembleChunks_snoc, h1, Outcome.bind_ok, section_line table l t ht]
    unfold assembleLine
    rw [if_pos ((isComment_iff l).mpr hc)]
  | header ss h ts l t f d _ hc hh hline ih =>
    obtain ⟨smf, h1, h2, h3⟩ := ih (fun x hx => hs x (by simp [hx]))
    obtain ⟨l', t', he, _, ht⟩ := hs (l :: t) (by simp)
    injection he with e1 e2
    subst e1 e2
    obtain ⟨m, hm, his⟩ := parseMThd_header l t hh f d hline
    obtain ⟨v1, v2, v3, _⟩ := hline.2.2
    refine ⟨⟨some m, smf.tracks⟩, ?_, ⟨his, v1, v2, v3⟩, h3⟩
    rw [assembleChunks_snoc, h1, Outcome.bind_ok, section_line table l t ht]
    unfold assembleLine
    rw [if_neg (fun h => hc ((isComment_iff l).mp h)), if_pos ((isMThd_iff l).mpr hh), hm]
    rfl
  | track ss h ts l t es es' _ hc hh hk he hfx ih =>
    obtain ⟨smf, h1, h2, h3⟩ := ih (fun x hx => hs x (by simp [hx]))
    obtain ⟨l', t', he', _, ht⟩ := hs (l :: t) (by simp)
    injection he' with e1 e2
    subst e1 e2
    cases hmt : smf.mthd with
    | none => rw [hmt] at h2; exact h2.elim
    | some mh =>
      rw [hmt] at h2
      obtain ⟨⟨i1, i2, i3, i4, i5⟩, b1, b2, b3⟩ := h2
      have hp := (parseMTrk_iff table l t hk _).mpr ⟨es, es', he, hfx, rfl⟩
      refine ⟨⟨some { mh with tracks := mh.tracks + 1 }, smf.tracks ++ [⟨str "MTrk", smf.tracks.length, 0,
        [0x4d, 0x54, 0x72, 0x6b, 0x00, 0x00, 0x00, 0x00], es', newContext⟩]⟩, ?_, ⟨⟨i1, i2, i3, ?_, i5⟩, b1, Nat.mod_lt _ (by decide), b3⟩, ?_⟩
      · rw [assembleChunks_snoc, h1, Outcome.bind_ok, section_line table l t ht]
        unfold assembleLine
        rw [if_neg (fun h => hc ((isComment_iff l).mp h)), if_neg (fun h => hh ((isMThd_iff l).mp h)), if_pos (show isMTrk l = true from (contains_iff _ _).mpr hk), hp,
          Outcome.bind_ok, hmt]
      · simp only
        rw [i4, ← UInt16.toNat_inj, UInt16.toNat_add, UInt16.toNat_ofNat', UInt16.toNat_ofNat']
        have : (1 : UInt16).toNat = 1 := rfl
        omega
      · rw [List.map_append, h3]
        rfl

/-! ### The whole text -/

theorem line_unique {a b p q : Bytes} (h : a ++ 10 :: b = p ++ 10 :: q) (ha : 10 ∉ a) (hp : 10 ∉ p) : a = p ∧ b = q := by
  induction a generalizing p with
  | nil =>
    cases p with
    | nil => injection h with _ h; exact ⟨rfl, h⟩
    | cons x p =>
      injection h with h _
      exact absurd (by rw [← h]; simp) hp
  | cons x a ih =>
    cases p with
    | nil =>
      injection h with h _
      exact absurd (by rw [h]; simp) ha
    | cons y p =>
      injection h with h1 h2
      obtain ⟨e1, e2⟩ := ih h2 (fun h => ha (by simp [h])) (fun h => hp (by simp [h]))
      exact ⟨by rw [h1, e1], e2⟩

/-- A text has one list of lines. -/
theorem lines_unique {text : Bytes} {a b : List Bytes} (h1 : Lines text a) (h2 : Lines text b) : a = b := by
  induction h1 generalizing b with
  | nil =>
    generalize ht : ([] : Bytes) = text at h2
    cases h2 with
    | nil => rfl
    | last _ hne _ => exact absurd ht.symm hne
    | cons l rest ls _ _ => simp at ht
  | last l hne hl =>
    cases h2 with
    | nil => exact absurd rfl hne
    | last _ _ _ => rfl
    | cons l' rest ls _ _ => exact absurd (by simp) hl
  | cons l rest ls hl _ ih =>
    generalize ht : l ++ 10 :: rest = text at h2
    cases h2 with
    | nil => simp at ht
    | last _ _ hn => exact absurd (by rw [← ht]; simp) hn
    | cons l' rest' ls' hl' h' =>
      obtain ⟨rfl, rfl⟩ := line_unique ht hl hl'
      rw [ih h']

/-- A track with the given events. -/
def trackOf (es : List Event) : MTrk := ⟨str "MTrk", 0, 0, [], es, newContext⟩

theorem encodeMTrk_trackOf (t : MTrk) (ht : t.tag = str "MTrk") : encodeMTrk t = encodeMTrk (trackOf t.events) := by
  unfold encodeMTrk
  rw [ht]
  rfl

theorem encodeTracks_iff (ts : List MTrk) (ht : ∀ t ∈ ts, t.tag = str "MTrk") (bs : Bytes) :
    encodeTracks ts = .ok bs ↔ ∃ bodies : List Bytes, (ts.map MTrk.events).map (fun es => encodeMTrk (trackOf es)) = bodies.map .ok ∧ bs = bodies.flatten := by
  induction ts generalizing bs with
  | nil =>
    constructor
    · intro h
      injection h with h
      exact ⟨[], rfl, h.symm⟩
    · rintro ⟨bodies, h1, rfl⟩
      cases bodies with
      | nil => rfl
      | cons _ _ => cases h1
  | cons t ts ih =>
    have ih := ih (fun x hx => ht x (by simp [hx]))
    rw [encodeTracks, encodeMTrk_trackOf t (ht t (by simp))]
    constructor
    · intro h
      obtain ⟨b, h1, h2⟩ := bound_ok h
      obtain ⟨bs', h3, h4⟩ := bound_ok h2
      injection h4 with h4
      obtain ⟨bodies, h5, rfl⟩ := (ih bs').mp h3
      exact ⟨b :: bodies, by rw [List.map_cons, List.map_cons, List.map_cons, h1, h5], by rw [← h4]; rfl⟩
    · rintro ⟨bodies, h1, rfl⟩
      cases bodies with
      | nil => cases h1
      | cons b bodies =>
        rw [List.map_cons, List.map_cons, List.map_cons] at h1
        injection h1 with h1 h2
        rw [h1, Outcome.bind_ok, (ih _).mpr ⟨bodies, h2, rfl⟩]
        rfl

theorem headerIs_marshal {m : MThd} {h : Header} (hi : HeaderIs m h) (hf : h.format ≤ 2) (ht : h.tracks < 65536) (hd : h.division < 65536) :
    m.marshal = h.chunk.bytes ∧ m.tracks.toNat = h.tracks := by
  obtain ⟨h1, h2, h3, h4, h5⟩ := hi
  have e1 : (UInt16.ofNat h.format).toNat = h.format := by rw [UInt16.toNat_ofNat']; omega
  have e2 : (UInt16.ofNat h.tracks).toNat = h.tracks := by rw [UInt16.toNat_ofNat']; omega
  have e3 : (UInt16.ofNat h.division).toNat = h.division := by rw [UInt16.toNat_ofNat']; omega
  refine ⟨?_, by rw [h4, e2]⟩
  simp only [MThd.marshal, Header.chunk, Chunk.bytes, putUint16_eq, putUint32_eq, h1, h2, h3, h4, h5, e1, e2, e3, str_MThd]
  simp [be16, be32]

/-- The file that sections of lines give. -/
theorem sections_meaning (table : List (String × Lib.Manufacturer)) (secs : List (List Bytes)) (hs : Sections secs) (b : Bytes) :
    (assembleChunks table secs ⟨none, []⟩ >>= fun smf => encode smf) = .ok b ↔ ∃ (h : Header) (ts : List (List Event)) (bodies : List Bytes),
      Means table secs (some h) ts ∧ h.tracks = ts.length ∧ ts.map (fun es => encodeMTrk (trackOf es)) = bodies.map .ok ∧
      b = h.chunk.bytes ++ bodies.flatten := by
  constructor
  · intro h
    obtain ⟨smf, h1, h2⟩ := bound_ok h
    obtain ⟨hd, ts, hm, ⟨hf1, hf2⟩, htag⟩ := means_of_sections table secs hs smf h1
    unfold encode at h2
    cases hmt : smf.mthd with
    | none => rw [hmt] at h2; cases h2
    | some m =>
      rw [hmt] at h2 hf1
      cases hd with
      | none => exact hf1.elim
      | some hd =>
        obtain ⟨hi, b1, b2, b3⟩ := hf1
        obtain ⟨k1, k2⟩ := headerIs_marshal hi b1 b2 b3
        simp only at h2
        split at h2
        · cases h2
        · rename_i hn
          obtain ⟨bs, h3, h4⟩ := bound_ok h2
          injection h4 with h4
          obtain ⟨bodies, h5, rfl⟩ := (encodeTracks_iff smf.tracks htag bs).mp h3
          refine ⟨hd, ts, bodies, hm, ?_, by rw [← hf2]; exact h5, by rw [← h4, k1]⟩
          rw [← k2, ← hf2, List.length_map]
          exact Decidable.not_not.mp hn
  · rintro ⟨hd, ts, bodies, hm, hn, hb, rfl⟩
    obtain ⟨smf, h1, hf⟩ := sections_of_means table secs _ _ hm hs
    obtain ⟨_, _, _, _, htag⟩ := means_of_sections table secs hs smf h1
    obtain ⟨hf1, hf2⟩ := hf
    rw [h1, Outcome.bind_ok]
    unfold encode
    cases hmt : smf.mthd with
    | none => rw [hmt] at hf1; exact hf1.elim
    | some m =>
      rw [hmt] at hf1
      obtain ⟨hi, b1, b2, b3⟩ := hf1
      obtain ⟨k1, k2⟩ := headerIs_marshal hi b1 b2 b3
      simp only
      rw [if_neg (by rw [k2, hn, ← hf2, List.length_map]; simp), (encodeTracks_iff smf.tracks htag _).mpr ⟨bodies, by rw [hf2]; exact hb, rfl⟩,
        Outcome.bind_ok, k1]

/-- **C128.** A text is assembled exactly when it has no line of 64 kB or more, its sections mean a header and tracks, and the
number of tracks since the last header is the number of all tracks; the file is then the header with that number of tracks, and
the chunk of each track. -/
theorem C128_text_meaning (table : List (String × Lib.Manufacturer)) (text b : Bytes) :
    assembleText table text = .ok b ↔ ShortLines text ∧ ∃ (lines : List Bytes) (secs : List (List Bytes)) (h : Header) (ts : List (List Event))
      (bodies : List Bytes), Lines text lines ∧ Chunked lines secs ∧
      Means table secs (some h) ts ∧ h.tracks = ts.length ∧ ts.map (fun es => encodeMTrk (trackOf es)) = bodies.map .ok ∧
      b = h.chunk.bytes ++ bodies.flatten := by
  constructor
  · intro h
    have hshort : ShortLines text := by
      by_contra hn
      rw [(C105_long_lines table text).1 hn] at h
      cases h
    refine ⟨hshort, ?_⟩
    obtain ⟨lines, secs, hl, hc, hr⟩ := (C105_long_lines table text).2 hshort
    unfold assembleText at h
    rw [hr, Outcome.bind_ok] at h
    obtain ⟨hd, ts, bodies, h⟩ := (sections_meaning table secs hc.split b).mp h
    exact ⟨lines, secs, hd, ts, bodies, hl, hc, h⟩
  · rintro ⟨hshort, lines, secs, hd, ts, bodies, hl, hc, h⟩
    obtain ⟨lines', secs', hl', hc', hr⟩ := (C105_long_lines table text).2 hshort
    have e1 := lines_unique hl' hl
    subst e1
    have e2 := chunked_unique _ _ _ hc' hc
    subst e2
    unfold assembleText
    rw [hr, Outcome.bind_ok]
    exact (sections_meaning table secs' hc.split b).mpr ⟨hd, ts, bodies, h⟩

/-- C128: there is a file for every text whose sections mean a header and as many tracks. -/
theorem C128_text_accepted (table : List (String × Lib.Manufacturer)) (text : Bytes) (hs : ShortLines text) (lines : List Bytes)
    (secs : List (List Bytes)) (hl : Lines text lines) (hc : Chunked lines secs) (h : Header) (ts : List (List Event))
    (hm : Means table secs (some h) ts) (hn : h.tracks = ts.length) : ∃ b, assembleText table text = .ok b := by
  obtain ⟨lines', secs', hl', hc', hr⟩ := (C105_long_lines table text).2 hs
  have e1 := lines_unique hl' hl
  subst e1
  have e2 := chunked_unique _ _ _ hc' hc
  subst e2
  obtain ⟨smf, h1, hf1, hf2⟩ := sections_of_means table secs' _ _ hm hc.split
  have hsound := chunks_fate table True secs' hc.split ⟨none, []⟩ ⟨by simp, Or.inl trivial⟩
  rw [h1] at hsound
  unfold assembleText
  rw [hr, Outcome.bind_ok, h1, Outcome.bind_ok]
  cases hmt : smf.mthd with
  | none => rw [hmt] at hf1; exact hf1.elim
  | some m =>
    rw [hmt] at hf1
    obtain ⟨hi, b1, b2, b3⟩ := hf1
    obtain ⟨k1, k2⟩ := headerIs_marshal hi b1 b2 b3
    obtain ⟨_, _, c3⟩ := C26_encode_errors smf
    exact (c3 m hmt (by rw [k2, hn, ← hf2, List.length_map])).1.mpr hsound.1

/-- A text written by hand: a comment, a header that repeats its format, a remark after the header, a blank line and a
track with a carriage return. -/
def writtenText : Bytes :=
  str "%% a song\nMThd format:0 format:1 metrical-time:96  ppqn\nremark\n%% MTrk\nold\nMTrk\n \ndelta:5 NoteOn channel:1 note:C4, velocity:64\r\n%% end\ndelta:1 EndOfTrack"

/-- C128: the hypotheses of `C128_text_accepted` are met and the file is the one described. -/
example : ∃ b lines secs h ts, assembleText Lib.manufacturers writtenText = .ok b ∧ ShortLines writtenText ∧ Lines writtenText lines ∧
    Chunked lines secs ∧ Means Lib.manufacturers secs (some h) ts ∧ h.tracks = ts.length ∧ b = [0x4d, 0x54, 0x68, 0x64, 0, 0, 0, 6, 0, 0, 0, 1, 0, 96,
      0x4d, 0x54, 0x72, 0x6b, 0, 0, 0, 8, 5, 0x91, 60, 64, 1, 0xff, 0x2f, 0] := by
  obtain ⟨b, h1, h2⟩ := Outcome.of_test (o := assembleText Lib.manufacturers writtenText) (p := fun b => decide (b = [0x4d, 0x54, 0x68, 0x64, 0, 0, 0, 6, 0, 0, 0, 1, 0, 96,
      0x4d, 0x54, 0x72, 0x6b, 0, 0, 0, 8, 5, 0x91, 60, 64, 1, 0xff, 0x2f, 0])) (by decide +kernel)
  obtain ⟨k1, lines, secs, h, ts, _, k2, k3, k4, k5, _, _⟩ := (C128_text_meaning _ _ _).mp h1
  exact ⟨b, lines, secs, h, ts, h1, k1, k2, k3, k4, k5, of_decide_eq_true h2⟩

/-! ### Lines that are lost -/

/-- The line begins a track. -/
def TrackLine (l : Bytes) : Prop := ¬ Comment l ∧ ¬ str "MThd" <:+: l ∧ str "MTrk" <:+: l

open Classical in
/-- The lines of events in the tracks of a text: those after a line that begins a track which are neither blank nor comments. -/
noncomputable def eventLines (secs : List (List Bytes)) : List (List Bytes) :=
  (secs.filter fun s => decide (∃ l t, s = l :: t ∧ TrackLine l)).map fun s => s.tail.filter fun l => decide (¬ Spec.Empty l)

theorem says_each {table : List (String × Lib.Manufacturer)} {ls : List Bytes} {es : List Event} (h : Says table ls es) :
    (open Classical in ls.filter fun l => decide (¬ Spec.Empty l)).map (readEvent table) = es.map .ok := by
  induction h with
  | nil => rfl
  | skip l ls es hl _ ih => rw [List.filter_cons_of_neg (by simpa using hl), ih]
  | event l ls e es hl hr _ ih => rw [List.filter_cons_of_pos (by simpa using hl), List.map_cons, List.map_cons, hr, ih]

/-- Two lists of the same length whose elements are pairwise related. -/
inductive Pairwise2 {α β : Type} (R : α → β → Prop) : List α → List β → Prop
  | nil : Pairwise2 R [] []
  | snoc (as bs a b) : Pairwise2 R as bs → R a b → Pairwise2 R (as ++ [a]) (bs ++ [b])

theorem means_each {table : List (String × Lib.Manufacturer)} {secs : List (List Bytes)} {h : Option Header} {ts : List (List Event)}
    (hm : Means table secs h ts) :
    Pairwise2 (fun ls es => ∃ es0, ls.map (readEvent table) = es0.map .ok ∧ fixups es0 = .ok es) (eventLines secs) ts := by
  induction hm with
  | nil => exact .nil
  | comment ss h ts l t _ hc ih =>
    have : eventLines (ss ++ [l :: t]) = eventLines ss := by
      unfold eventLines
      rw [List.filter_append, List.filter_cons_of_neg, List.filter_nil, List.append_nil]
      simp only [decide_eq_true_eq]
      rintro ⟨l', t', e, k, _⟩
      cases e
      exact k hc
    rw [this]
    exact ih
  | header ss h ts l t f d _ hc hl _ ih =>
    have : eventLines (ss ++ [l :: t]) = eventLines ss := by
      unfold eventLines
      rw [List.filter_append, List.filter_cons_of_neg, List.filter_nil, List.append_nil]
      simp only [decide_eq_true_eq]
      rintro ⟨l', t', e, _, k, _⟩
      cases e
      exact k hl
    rw [this]
    exact ih
  | track ss h ts l t es es' _ hc hh hk hs hf ih =>
    have : eventLines (ss ++ [l :: t]) = eventLines ss ++ [open Classical in t.filter fun l => decide (¬ Spec.Empty l)] := by
      unfold eventLines
      rw [List.filter_append, List.filter_cons_of_pos, List.filter_nil, List.map_append]
      · rfl
      · simp only [decide_eq_true_eq]
        exact ⟨l, t, rfl, hc, hh, hk⟩
    rw [this]
    exact .snoc _ _ _ _ ih ⟨es, says_each hs, hf⟩

/-- **C129** (partial: the claim is false).  Within the tracks no line is lost: the tracks of the file are those of the sections
that begin with a line with `MTrk` that is no comment and has no `MThd`, in order, and each has one event for each line of its section
that is neither blank nor a comment, in order.  Missing: lines before the first header, between a header and the first track, and after a commented tag line are lost
silently (`C129_lost_lines_fails`). -/
theorem C129_lost_lines_partial (table : List (String × Lib.Manufacturer)) (text b : Bytes) (h : assembleText table text = .ok b) :
    ∃ lines secs hd ts, Lines text lines ∧ Chunked lines secs ∧ Means table secs (some hd) ts ∧ hd.tracks = ts.length ∧
      Pairwise2 (fun ls es => ls.length = es.length ∧ ∃ es0, ls.map (readEvent table) = es0.map .ok ∧ fixups es0 = .ok es) (eventLines secs) ts := by
  obtain ⟨_, lines, secs, hd, ts, bodies, hl, hc, hm, hn, hbo, _⟩ := (C128_text_meaning _ _ _).mp h
  refine ⟨lines, secs, hd, ts, hl, hc, hm, hn, ?_⟩
  have := means_each hm
  clear hm hn hc hl hbo
  generalize eventLines secs = ls at this
  induction this with
  | nil => exact .nil
  | snoc as bs a b _ hr ih =>
    refine .snoc _ _ _ _ ih ⟨?_, hr⟩
    obtain ⟨es0, h1, h2⟩ := hr
    have e1 : a.length = es0.length := by simpa using congrArg List.length h1
    have hne : es0 ≠ [] := by
      rintro rfl
      rw [(C73_fixups_exact []).1 rfl] at h2
      cases h2
    obtain ⟨fixed, hf, hlen, _⟩ := (C73_fixups_exact es0).2 hne
    rw [hf] at h2
    injection h2 with h2
    rw [e1, ← h2, hlen]

/-- A line that is an event. -/
def lostLine : Bytes := str "delta:5 NoteOn channel:1 note:C4, velocity:64\n"

/-- C129 fails: the same line of an event, added before the header, after the header or after a commented tag line, leaves no trace in the file. -/
theorem C129_lost_lines_fails : (∃ e, readEvent Lib.manufacturers lostLine = .ok e) ∧
    ∃ b, assembleText Lib.manufacturers (str "MThd format:0 metrical time:96 ppqn\nMTrk\ndelta:0 EndOfTrack\n") = .ok b ∧
      assembleText Lib.manufacturers (lostLine ++ str "MThd format:0 metrical time:96 ppqn\nMTrk\ndelta:0 EndOfTrack\n") = .ok b ∧
      assembleText Lib.manufacturers (str "MThd format:0 metrical time:96 ppqn\n" ++ (lostLine ++ str "MTrk\ndelta:0 EndOfTrack\n")) = .ok b ∧
      assembleText Lib.manufacturers (str "MThd format:0 metrical time:96 ppqn\nMTrk\ndelta:0 EndOfTrack\n%% a MTrk of drums\n" ++ lostLine) = .ok b := by
  obtain ⟨e, h1, _⟩ := Outcome.of_test (o := readEvent Lib.manufacturers lostLine) (p := fun _ => true) (by decide +kernel)
  obtain ⟨b, h2, h3⟩ := Outcome.of_test (o := assembleText Lib.manufacturers (str "MThd format:0 metrical time:96 ppqn\nMTrk\ndelta:0 EndOfTrack\n"))
    (p := fun b => ([lostLine ++ str "MThd format:0 metrical time:96 ppqn\nMTrk\ndelta:0 EndOfTrack\n",
      str "MThd format:0 metrical time:96 ppqn\n" ++ (lostLine ++ str "MTrk\ndelta:0 EndOfTrack\n"),
      str "MThd format:0 metrical time:96 ppqn\nMTrk\ndelta:0 EndOfTrack\n%% a MTrk of drums\n" ++ lostLine].all fun t =>
        match assembleText Lib.manufacturers t with | .ok b' => decide (b' = b) | _ => false)) (by decide +kernel)
  rw [List.all_eq_true] at h3
  have key : ∀ t, (match assembleText Lib.manufacturers t with | .ok b' => decide (b' = b) | _ => false) = true →
      assembleText Lib.manufacturers t = .ok b := by
    intro t ht
    split at ht
    · rename_i b' hb
      rw [hb, of_decide_eq_true ht]
    · cases ht
  exact ⟨⟨e, h1⟩, b, h2, key _ (h3 _ (.head _)), key _ (h3 _ (.tail _ (.head _))), key _ (h3 _ (.tail _ (.tail _ (.head _))))⟩

end Midiasm
