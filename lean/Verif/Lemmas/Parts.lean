import Verif.Lemmas.Grammar

/-!
Patterns made of parts read exactly the forms of the grammar.
-/

set_option linter.unusedSimpArgs false

namespace Midiasm
open Spec

/-- The pattern of a part. -/
def LinePart.items : LinePart → List Item
  | .word w => ilit w
  | .digits => number
  | .positive top => group [.chr (rangeTok 49 57), .star (if top = 57 then digitTok else rangeTok 48 top) true]
  | .blanks => plus spaceTok
  | .blanks0 => [.star spaceTok true]
  | .space => .star spaceTok true :: ilit " "
  | .skip => [.star anyTok false]
  | .skipLast => [.star anyTok true]
  | .upTo => group [.star anyTok false]
  | .rest => group [.star anyTok true]
  | .note => group [.chr keyTok, .opt accidentalTok, .chr digitTok]
  | .key => group [.chr keyTok, .opt accidentalTok]
  | .mode => group [.alt ((str "major").map foldTok) ((str "minor").map foldTok)]

/-- The pattern of a form. -/
def itemsOf : List LinePart → List Item
  | [] => []
  | p :: ps => LinePart.items p ++ itemsOf ps

/-- The pattern reads the form. -/
def Exact (ps : List LinePart) : Prop :=
  ∀ g s c, matchAt (itemsOf ps) ⟨g, none⟩ (toks s) = some c ↔ ∃ gs, Reads ps s gs ∧ c = ⟨g ++ gs, none⟩

theorem Exact.isSome {ps : List LinePart} (h : Exact ps) (c : Caps) (s : Bytes) :
    (matchAt (itemsOf ps) c (toks s)).isSome = true ↔ ∃ gs, Reads ps s gs := by
  rw [matchAt_isSome _ c ⟨[], none⟩, Option.isSome_iff_exists]
  constructor
  · rintro ⟨y, hy⟩
    obtain ⟨gs, h1, _⟩ := (h _ _ _).mp hy
    exact ⟨gs, h1⟩
  · rintro ⟨gs, h1⟩
    exact ⟨_, (h [] s ⟨[] ++ gs, none⟩).mpr ⟨gs, h1, rfl⟩⟩

theorem exact_nil : Exact [] := by
  intro g s c
  constructor
  · intro h
    simp only [itemsOf, matchAt, Option.some.injEq] at h
    exact ⟨[], rfl, by rw [← h]; simp⟩
  · rintro ⟨gs, h, rfl⟩
    have h : gs = [] := h
    subst h
    simp [itemsOf, matchAt]

theorem exact_word (w : String) (ps : List LinePart) (hw : ∀ c ∈ str w, c.toNat < 128) (h : Exact ps) : Exact (.word w :: ps) := by
  intro g s c
  have h1 := word_iff (str w) hw (itemsOf ps) g c s
  have h2 : matchAt (itemsOf (.word w :: ps)) ⟨g, none⟩ (toks s) =
      matchAt ((str w).map (fun c => Item.chr (foldTok c)) ++ itemsOf ps) ⟨g, none⟩ (toks s) := rfl
  rw [h2, h1]
  constructor
  · rintro ⟨x, s', h3, h4, h5⟩
    obtain ⟨gs, h6, h7⟩ := (h _ _ _).mp h5
    exact ⟨gs, ⟨x, s', h3, h4, h6⟩, h7⟩
  · rintro ⟨gs, ⟨x, s', h3, h4, h6⟩, h7⟩
    exact ⟨x, s', h3, h4, (h _ _ _).mpr ⟨gs, h6, h7⟩⟩

/-- A group of one character and a repetition. -/
theorem group_iff {p q : Tok → Bool} {P Q : UInt8 → Prop} (hp : IsClass p P) (hq : IsClass q Q) (is : List Item) (hpass : Passes q is)
    (g : List Bytes) (y : Caps) (s : Bytes) : matchAt (group [.chr p, .star q true] ++ is) ⟨g, none⟩ (toks s) = some y ↔
      ∃ d x s', s = d :: (x ++ s') ∧ P d ∧ (∀ b ∈ x, Q b) ∧ NoStart Q s' ∧ matchAt is ⟨g ++ [d :: x], none⟩ (toks s') = some y := by
  have h0 : matchAt (group [.chr p, .star q true] ++ is) ⟨g, none⟩ (toks s) = matchAt (.chr p :: .star q true :: .stop :: is) ⟨g, some []⟩ (toks s) := rfl
  have hstop : Passes q (.stop :: is) := by
    intro c t r ht hs
    simp only [matchAt] at hs ⊢
    exact hpass _ t r ht hs
  rw [h0, chr_iff hp]
  constructor
  · rintro ⟨b, s1, rfl, hb, h1⟩
    obtain ⟨x, s', rfl, hx, hs, h2⟩ := (star_iff hq _ hstop _ _ _).mp h1
    rw [eat_some, eats_some, sing_flatten] at h2
    exact ⟨b, x, s', rfl, hb, hx, hs, h2⟩
  · rintro ⟨d, x, s', rfl, hd, hx, hs, h1⟩
    refine ⟨d, x ++ s', rfl, hd, (star_iff hq _ hstop _ _ _).mpr ⟨x, s', rfl, hx, hs, ?_⟩⟩
    rw [eat_some, eats_some, sing_flatten]
    exact h1

theorem exact_digits (ps : List LinePart) (hpass : Passes digitTok (itemsOf ps)) (h : Exact ps) : Exact (.digits :: ps) := by
  intro g s c
  have h1 := group_iff digit_class digit_class (itemsOf ps) hpass g c s
  have h2 : matchAt (itemsOf (.digits :: ps)) ⟨g, none⟩ (toks s) =
      matchAt (group [.chr digitTok, .star digitTok true] ++ itemsOf ps) ⟨g, none⟩ (toks s) := rfl
  rw [h2, h1]
  constructor
  · rintro ⟨d, x, s', h3, h4, h5, h6, h7⟩
    obtain ⟨gs, h8, h9⟩ := (h _ _ _).mp h7
    refine ⟨(d :: x) :: gs, ⟨d :: x, s', gs, h3, rfl, by simp, ?_, h6, h8⟩, by rw [h9]; simp⟩
    intro b hb
    rcases List.mem_cons.mp hb with rfl | hb
    · exact h4
    · exact h5 b hb
  · rintro ⟨gs, ⟨x, s', gs', h3, rfl, h4, h5, h6, h7⟩, rfl⟩
    cases x with
    | nil => exact absurd rfl h4
    | cons d x =>
      exact ⟨d, x, s', h3, h5 d (by simp), fun b hb => h5 b (by simp [hb]), h6, (h _ _ _).mpr ⟨gs', h7, by simp⟩⟩

theorem exact_positive (top : UInt8) (htop : top.toNat ≤ 57) (ps : List LinePart) (hpass : Passes digitTok (itemsOf ps)) (h : Exact ps) :
    Exact (.positive top :: ps) := by
  intro g s c
  have hq : IsClass (if top = 57 then digitTok else rangeTok 48 top) (DigitTo top) := by
    split
    · rename_i e
      subst e
      exact digit_class
    · exact range_class top htop
  have hpass' : Passes (if top = 57 then digitTok else rangeTok 48 top) (itemsOf ps) := by
    intro c t r ht
    refine hpass c t r ?_
    obtain ⟨b, rfl, hb⟩ := hq.one t ht
    refine digit_class.all b ⟨hb.1, ?_⟩
    have := hb.2
    show b.toNat ≤ 57
    omega
  have h1 := group_iff first_class hq (itemsOf ps) hpass' g c s
  have h2 : matchAt (itemsOf (.positive top :: ps)) ⟨g, none⟩ (toks s) =
      matchAt (group [.chr (rangeTok 49 57), .star (if top = 57 then digitTok else rangeTok 48 top) true] ++ itemsOf ps) ⟨g, none⟩ (toks s) := rfl
  rw [h2, h1]
  constructor
  · rintro ⟨d, x, s', h3, h4, h5, h6, h7⟩
    obtain ⟨gs, h8, h9⟩ := (h _ _ _).mp h7
    exact ⟨(d :: x) :: gs, ⟨d, x, s', gs, h3, rfl, h4, h5, h6, h8⟩, by rw [h9]; simp⟩
  · rintro ⟨gs, ⟨d, x, s', gs', h3, rfl, h4, h5, h6, h7⟩, rfl⟩
    exact ⟨d, x, s', h3, h4, h5, h6, (h _ _ _).mpr ⟨gs', h7, by simp⟩⟩

theorem exact_blanks0 (ps : List LinePart) (hpass : Passes spaceTok (itemsOf ps)) (h : Exact ps) : Exact (.blanks0 :: ps) := by
  intro g s c
  have h2 : matchAt (itemsOf (.blanks0 :: ps)) ⟨g, none⟩ (toks s) = matchAt (.star spaceTok true :: itemsOf ps) ⟨g, none⟩ (toks s) := rfl
  rw [h2, star_iff space_class _ hpass]
  constructor
  · rintro ⟨x, s', h3, h4, h5, h6⟩
    rw [eats_none] at h6
    obtain ⟨gs, h8, h9⟩ := (h _ _ _).mp h6
    exact ⟨gs, ⟨x, s', h3, h4, h5, h8⟩, h9⟩
  · rintro ⟨gs, ⟨x, s', h3, h4, h5, h6⟩, h7⟩
    refine ⟨x, s', h3, h4, h5, ?_⟩
    rw [eats_none]
    exact (h _ _ _).mpr ⟨gs, h6, h7⟩

theorem exact_blanks (ps : List LinePart) (hpass : Passes spaceTok (itemsOf ps)) (h : Exact ps) : Exact (.blanks :: ps) := by
  intro g s c
  have h2 : matchAt (itemsOf (.blanks :: ps)) ⟨g, none⟩ (toks s) = matchAt (.chr spaceTok :: .star spaceTok true :: itemsOf ps) ⟨g, none⟩ (toks s) := rfl
  rw [h2, chr_iff space_class]
  constructor
  · rintro ⟨b, s1, rfl, hb, h1⟩
    obtain ⟨x, s', rfl, hx, hs, h6⟩ := (star_iff space_class _ hpass _ _ _).mp h1
    rw [eat_none, eats_none] at h6
    obtain ⟨gs, h8, h9⟩ := (h _ _ _).mp h6
    refine ⟨gs, ⟨b :: x, s', rfl, by simp, ?_, hs, h8⟩, h9⟩
    intro d hd
    rcases List.mem_cons.mp hd with rfl | hd
    · exact hb
    · exact hx d hd
  · rintro ⟨gs, ⟨x, s', rfl, hne, hx, hs, h6⟩, h7⟩
    cases x with
    | nil => exact absurd rfl hne
    | cons b x =>
      refine ⟨b, x ++ s', rfl, hx b (by simp), (star_iff space_class _ hpass _ _ _).mpr ⟨x, s', rfl, fun d hd => hx d (by simp [hd]), hs, ?_⟩⟩
      rw [eat_none, eats_none]
      exact (h _ _ _).mpr ⟨gs, h6, h7⟩

theorem exact_space (ps : List LinePart) (hfail : Fails spaceTok (itemsOf ps)) (h : Exact ps) : Exact (.space :: ps) := by
  intro g s c
  have h2 : matchAt (itemsOf (.space :: ps)) ⟨g, none⟩ (toks s) = starThen spaceTok true (matchAt (.chr (foldTok 32) :: itemsOf ps)) ⟨g, none⟩ (toks s) := rfl
  have hfold : ∀ t, foldTok 32 t = true → t = [32] := by
    intro t ht
    unfold foldTok at ht
    split at ht
    · rename_i b
      rw [decide_eq_true_eq] at ht
      have : ∀ b : UInt8, lower b = lower 32 → b = 32 := all8 (by decide +kernel)
      rw [this b ht]
    · simp only [Bool.or_eq_true, Bool.and_eq_true, decide_eq_true_eq] at ht
      rcases ht with ⟨h1, _⟩ | ⟨h1, _⟩ <;> exact absurd h1 (by decide)
  rw [h2, starThen_greedy_iff]
  constructor
  · rintro ⟨a, v, he, ha, hk, hl⟩
    obtain ⟨h3, h4⟩ := toks_cut he
    cases v with
    | nil => cases hk
    | cons t r =>
      simp only [matchAt] at hk
      split at hk
      · rename_i ht
        have ht := hfold t ht
        subst ht
        rw [eats_none, eat_none] at hk
        have hr : toks r.flatten = r := toks_suffix (a ++ [[32]]) s r (by rw [he]; simp)
        rw [← hr] at hk
        obtain ⟨gs, h5, h6⟩ := (h _ _ _).mp hk
        refine ⟨gs, ⟨a.flatten, r.flatten, by rw [h3]; simp, ?_, ?_, h5⟩, h6⟩
        · intro b hb
          obtain ⟨t, ht, hbt⟩ := List.mem_flatten.mp hb
          obtain ⟨b', rfl, hb'⟩ := space_class.one t (ha t ht)
          simp at hbt
          subst hbt
          exact hb'
        · rw [class_start space_class, hr]
          intro t ht
          rw [Bool.eq_false_iff]
          intro hp
          rw [hr] at hk
          cases r with
          | nil => cases ht
          | cons u r =>
            simp at ht
            subst ht
            rw [hfail _ u r hp] at hk
            cases hk
      · cases hk
  · rintro ⟨gs, ⟨x, s', rfl, hx, hs, h6⟩, h7⟩
    have hm := (h g s' c).mpr ⟨gs, h6, h7⟩
    have ht : toks (x ++ 32 :: s') = sing x ++ ([32] :: toks s') := by
      rw [toks_ascii x _ (fun b hb => space_class.ascii b (hx b hb)), toks_ascii_cons 32 s' (by decide)]
    refine ⟨sing x, [32] :: toks s', ht, ?_, ?_, ?_⟩
    · intro t ht
      obtain ⟨d, hd, rfl⟩ := List.mem_map.mp ht
      exact space_class.all d (hx d hd)
    · rw [eats_none]
      simp only [matchAt]
      rw [if_pos (by decide), eat_none]
      exact hm
    · intro a' v' he' ha' hlen
      rw [ht] at he'
      -- a longer run takes the space, and nothing else
      have hrun := (class_start space_class s').mp hs
      have hx' : a' = sing x ++ [[32]] ∧ v' = toks s' := by
        have hp1 : sing x <+: a' := List.prefix_of_prefix_length_le (l₃ := a' ++ v') (by rw [← he']; exact List.prefix_append _ _)
          (List.prefix_append _ _) (by omega)
        obtain ⟨w, hw⟩ := hp1
        subst hw
        rw [List.append_assoc] at he'
        have he' := List.append_cancel_left he'
        match w, he', hlen with
        | [], _, hlen => simp at hlen
        | [u], he', _ =>
          rw [List.singleton_append] at he'
          injection he' with e1 e2
          subst e1
          exact ⟨rfl, e2.symm⟩
        | u :: z :: w, he', _ =>
          exfalso
          simp only [List.cons_append] at he'
          injection he' with e1 e2
          have := hrun z (by rw [e2]; rfl)
          rw [ha' z (by simp)] at this
          cases this
      obtain ⟨_, hv⟩ := hx'
      rw [hv, eats_none]
      cases ht' : toks s' with
      | nil => rfl
      | cons u r =>
        simp only [matchAt]
        rw [if_neg]
        intro hf
        have := hfold u hf
        subst this
        have := hrun [32] (by rw [ht']; rfl)
        revert this
        decide

/-- Forms that begin between runes. -/
def Starts (ps : List LinePart) : Prop := ∀ s gs, Reads ps s gs → Apart s

theorem starts_word (w : String) (c : UInt8) (cs : Bytes) (hc : str w = c :: cs) (ha : c.toNat < 128) (ps : List LinePart) : Starts (.word w :: ps) := by
  rintro s gs ⟨x, s', rfl, hx, _⟩
  rw [hc] at hx
  intro b t hb
  cases hx with
  | letter _ b' _ x h1 h2 =>
    injection hb with hb
    subst hb
    have : b'.toNat < 128 := by
      unfold SameLetter at h1
      rcases h1 with rfl | h1 | h1 <;> omega
    rw [Bool.eq_false_iff]
    intro h
    rw [isCont_toNat] at h
    omega
  | kelvin _ _ x h1 h2 =>
    injection hb with hb
    subst hb
    decide
  | long _ _ x h1 h2 =>
    injection hb with hb
    subst hb
    decide

theorem starts_blanks (ps : List LinePart) : Starts (.blanks :: ps) := by
  rintro s gs ⟨x, s', rfl, hne, hx, _⟩
  cases x with
  | nil => exact absurd rfl hne
  | cons d x =>
    refine apart_ascii _ ?_
    intro b t hb
    injection hb with hb
    subst hb
    exact space_class.ascii d (hx d (by simp))

theorem exact_skip (ps : List LinePart) (hs : Starts ps) (h : Exact ps) : Exact (.skip :: ps) := by
  intro g s c
  have h2 : matchAt (itemsOf (.skip :: ps)) ⟨g, none⟩ (toks s) = starThen anyTok false (matchAt (itemsOf ps)) ⟨g, none⟩ (toks s) := rfl
  rw [h2, lazy_cut (matchAt (itemsOf ps)) (fun s => ∃ gs, Reads ps s gs) (fun c s => h.isSome c s) (fun s ⟨gs, hg⟩ => hs s gs hg)]
  constructor
  · rintro ⟨x, s', h3, h4, h5, h6⟩
    rw [eats_none] at h5
    obtain ⟨gs, h7, h8⟩ := (h _ _ _).mp h5
    exact ⟨gs, ⟨x, s', h3, h4, h7, fun y t hs he hr => h6 y t he ⟨hs, hr⟩⟩, h8⟩
  · rintro ⟨gs, ⟨x, s', h3, h4, h7, h6⟩, h8⟩
    refine ⟨x, s', h3, h4, ?_, fun y t he ⟨hs, hr⟩ => h6 y t hs he hr⟩
    rw [eats_none]
    exact (h _ _ _).mpr ⟨gs, h7, h8⟩

theorem exact_skipLast (ps : List LinePart) (hs : Starts ps) (h : Exact ps) : Exact (.skipLast :: ps) := by
  intro g s c
  have h2 : matchAt (itemsOf (.skipLast :: ps)) ⟨g, none⟩ (toks s) = starThen anyTok true (matchAt (itemsOf ps)) ⟨g, none⟩ (toks s) := rfl
  rw [h2, greedy_cut (matchAt (itemsOf ps)) (fun s => ∃ gs, Reads ps s gs) (fun c s => h.isSome c s) (fun s ⟨gs, hg⟩ => hs s gs hg)]
  constructor
  · rintro ⟨x, s', h3, h4, h5, h6⟩
    rw [eats_none] at h5
    obtain ⟨gs, h7, h8⟩ := (h _ _ _).mp h5
    exact ⟨gs, ⟨x, s', h3, h4, h7, fun y t hs he hn hr => h6 y t he hn ⟨hs, hr⟩⟩, h8⟩
  · rintro ⟨gs, ⟨x, s', h3, h4, h7, h6⟩, h8⟩
    refine ⟨x, s', h3, h4, ?_, fun y t he hn ⟨hs, hr⟩ => h6 y t hs he hn hr⟩
    rw [eats_none]
    exact (h _ _ _).mpr ⟨gs, h7, h8⟩

theorem exact_upTo (ps : List LinePart) (hs : Starts ps) (h : Exact ps) : Exact (.upTo :: ps) := by
  intro g s c
  have h2 : matchAt (itemsOf (.upTo :: ps)) ⟨g, none⟩ (toks s) = starThen anyTok false (matchAt (.stop :: itemsOf ps)) ⟨g, some []⟩ (toks s) := rfl
  rw [h2, lazy_cut (matchAt (.stop :: itemsOf ps)) (fun s => ∃ gs, Reads ps s gs)
    (fun c s => by simp only [matchAt]; exact h.isSome _ s) (fun s ⟨gs, hg⟩ => hs s gs hg)]
  constructor
  · rintro ⟨x, s', h3, h4, h5, h6⟩
    rw [eats_some, toks_flatten] at h5
    obtain ⟨gs, h7, h8⟩ := (h _ _ _).mp h5
    exact ⟨x :: gs, ⟨x, s', gs, h3, rfl, h4, h7, fun y t hs he hr => h6 y t he ⟨hs, hr⟩⟩, by rw [h8]; simp⟩
  · rintro ⟨gs, ⟨x, s', gs', h3, rfl, h4, h7, h6⟩, rfl⟩
    refine ⟨x, s', h3, h4, ?_, fun y t he ⟨hs, hr⟩ => h6 y t hs he hr⟩
    rw [eats_some, toks_flatten]
    exact (h _ _ _).mpr ⟨gs', h7, by simp⟩

theorem exact_rest : Exact [.rest] := by
  intro g s c
  have h2 : matchAt (itemsOf [.rest]) ⟨g, none⟩ (toks s) = starThen anyTok true (matchAt [.stop]) ⟨g, some []⟩ (toks s) := rfl
  rw [h2, starThen_greedy_iff]
  constructor
  · rintro ⟨a, v, he, ha, hk, hl⟩
    obtain ⟨h1, h3⟩ := toks_cut he
    have hv : v = [] ∨ ∃ r, v = [10] :: r := by
      cases v with
      | nil => exact Or.inl rfl
      | cons t r =>
        right
        by_cases ht : anyTok t = true
        · have := hl (a ++ [t]) r (by rw [he]; simp) (by
            intro w hw
            rcases List.mem_append.mp hw with hw | hw
            · exact ha w hw
            · simp at hw; subst hw; exact ht) (by simp)
          cases this
        · unfold anyTok at ht
          simp at ht
          exact ⟨r, by rw [ht]⟩
    have hend : v.flatten = [] ∨ v.flatten.head? = some 10 := by
      rcases hv with rfl | ⟨r, rfl⟩
      · exact Or.inl rfl
      · exact Or.inr rfl
    have hap : Apart v.flatten := by
      refine apart_ascii _ ?_
      intro b t hb
      rcases hend with h | h
      · rw [h] at hb; cases hb
      · rw [hb] at h
        simp at h
        subst h
        decide
    have h4 : toks a.flatten = a := by
      have h4 := toks_apart a.flatten v.flatten hap
      rw [← h1, he, h3] at h4
      exact (List.append_cancel_right h4).symm
    refine ⟨[a.flatten], ⟨a.flatten, v.flatten, [], h1, rfl, ?_, hend, rfl⟩, ?_⟩
    · rw [← newline_any, h4]
      exact ha
    · rw [eats_some] at hk
      simp only [matchAt, Option.some.injEq, Option.toList_some, List.nil_append] at hk
      exact hk.symm
  · rintro ⟨gs, ⟨x, s', gs', rfl, rfl, hx, hs, h6⟩, rfl⟩
    have h6 : gs' = [] := h6
    subst h6
    have hap : Apart s' := by
      refine apart_ascii _ ?_
      intro b t hb
      rcases hs with h | h
      · rw [h] at hb; cases hb
      · rw [hb] at h
        simp at h
        subst h
        decide
    have he := toks_apart x s' hap
    refine ⟨toks x, toks s', he, (newline_any x).mpr hx, ?_, ?_⟩
    · rw [eats_some, toks_flatten]
      rfl
    · intro a' v' he' ha' hlen
      exfalso
      rw [he] at he'
      have hp1 : toks x <+: a' := List.prefix_of_prefix_length_le (l₃ := a' ++ v') (by rw [← he']; exact List.prefix_append _ _)
        (List.prefix_append _ _) (by omega)
      obtain ⟨w, hw⟩ := hp1
      subst hw
      rw [List.append_assoc] at he'
      have he' := List.append_cancel_left he'
      cases w with
      | nil => simp at hlen
      | cons u w =>
        have hu := ha' u (by simp)
        rcases hs with rfl | hs
        · cases he'
        · cases s' with
          | nil => cases hs
          | cons b s' =>
            simp at hs
            subst hs
            rw [toks_ascii_cons 10 s' (by decide)] at he'
            injection he' with e1 e2
            subst e1
            revert hu
            decide

/-! ### Notes and keys -/

theorem accidental_toks (a s : Bytes) (h : a = str "♯" ∨ a = str "♭") : toks (a ++ s) = a :: toks s := by
  have h1 : str "♯" = [0xe2, 0x99, 0xaf] := by decide +kernel
  have h2 : str "♭" = [0xe2, 0x99, 0xad] := by decide +kernel
  rcases h with rfl | rfl
  · rw [h1, List.cons_append, toks_cons]
    have : decodeRune 0xe2 ([0x99, 0xaf] ++ s) = (0x266f, 2) := rfl
    rw [this]
    rfl
  · rw [h2, List.cons_append, toks_cons]
    have : decodeRune 0xe2 ([0x99, 0xad] ++ s) = (0x266d, 2) := rfl
    rw [this]
    rfl

theorem opt_iff (is : List Item) (hfail : Fails accidentalTok is) (g : List Bytes) (u : Bytes) (y : Caps) (s : Bytes) :
    matchAt (.opt accidentalTok :: is) ⟨g, some u⟩ (toks s) = some y ↔
      ∃ a s', s = a ++ s' ∧ Accidental a ∧ matchAt is ⟨g, some (u ++ a)⟩ (toks s') = some y := by
  have hacc : ∀ t, accidentalTok t = true ↔ t = str "♯" ∨ t = str "♭" := by
    intro t
    unfold accidentalTok
    simp
  constructor
  · intro h
    cases ht : toks s with
    | nil =>
      rw [ht] at h
      refine ⟨[], s, rfl, Or.inl rfl, ?_⟩
      rw [List.append_nil, ht]
      exact h
    | cons t r =>
      rw [ht] at h
      simp only [matchAt] at h
      split at h
      · rename_i hp
        rw [hfail _ t r hp, Option.or_none, eat_some] at h
        obtain ⟨h1, h2⟩ := toks_cut (a := [t]) (v := r) ht
        refine ⟨t, r.flatten, by rw [h1]; simp, Or.inr ((hacc t).mp hp), by rw [h2]; exact h⟩
      · refine ⟨[], s, rfl, Or.inl rfl, ?_⟩
        rw [List.append_nil, ht]
        exact h
  · rintro ⟨a, s', rfl, rfl | ha, h⟩
    · rw [List.append_nil] at h
      rw [List.nil_append]
      cases ht : toks s' with
      | nil =>
        rw [ht] at h
        exact h
      | cons t r =>
        rw [ht] at h
        simp only [matchAt]
        split
        · rename_i hp
          rw [hfail _ t r hp] at h
          cases h
        · exact h
    · rw [accidental_toks a s' ha]
      simp only [matchAt]
      rw [if_pos ((hacc a).mpr ha), eat_some, h]
      rfl

theorem class_fails_accidental {p : Tok → Bool} {P : UInt8 → Prop} (hp : IsClass p P) (is : List Item) : Fails accidentalTok (.chr p :: is) := by
  intro c t r ht
  simp only [matchAt]
  rw [if_neg]
  intro h
  obtain ⟨b, rfl, hb⟩ := hp.one t h
  have : accidentalTok [b] = false := by
    have h1 : str "♯" = [0xe2, 0x99, 0xaf] := by decide +kernel
    have h2 : str "♭" = [0xe2, 0x99, 0xad] := by decide +kernel
    unfold accidentalTok
    rw [h1, h2]
    simp
  rw [this] at ht
  cases ht

theorem exact_note (ps : List LinePart) (h : Exact ps) : Exact (.note :: ps) := by
  intro g s c
  have h2 : matchAt (itemsOf (.note :: ps)) ⟨g, none⟩ (toks s) =
      matchAt (.chr keyTok :: .opt accidentalTok :: .chr digitTok :: .stop :: itemsOf ps) ⟨g, some []⟩ (toks s) := rfl
  have hf := class_fails_accidental digit_class (.stop :: itemsOf ps)
  rw [h2, chr_iff key_class]
  constructor
  · rintro ⟨l, s1, rfl, hl, h3⟩
    obtain ⟨a, s2, rfl, ha, h4⟩ := (opt_iff _ hf _ _ _ _).mp h3
    obtain ⟨d, s3, rfl, hd, h5⟩ := (chr_iff digit_class _ _ _ _).mp h4
    simp only [eat_some, List.nil_append, List.singleton_append, List.cons_append] at h5
    have h6 : matchAt (itemsOf ps) ⟨g ++ [l :: (a ++ [d])], none⟩ (toks s3) = some c := h5
    obtain ⟨gs, h7, h8⟩ := (h _ _ _).mp h6
    exact ⟨_, ⟨l, a, d, s3, gs, by simp, rfl, hl, ha, hd, h7⟩, by rw [h8]; simp⟩
  · rintro ⟨gs, ⟨l, a, d, s', gs', rfl, rfl, hl, ha, hd, h7⟩, rfl⟩
    refine ⟨l, a ++ d :: s', by simp, hl, (opt_iff _ hf _ _ _ _).mpr ⟨a, d :: s', rfl, ha, (chr_iff digit_class _ _ _ _).mpr ⟨d, s', rfl, hd, ?_⟩⟩⟩
    have h6 : matchAt (itemsOf ps) ⟨g ++ [l :: (a ++ [d])], none⟩ (toks s') = some ⟨g ++ ((l :: (a ++ [d])) :: gs'), none⟩ :=
      (h _ _ _).mpr ⟨gs', h7, by simp⟩
    simp only [eat_some, List.nil_append, List.singleton_append, List.cons_append]
    exact h6

theorem exact_key (ps : List LinePart) (hf : Fails accidentalTok (itemsOf ps)) (h : Exact ps) : Exact (.key :: ps) := by
  intro g s c
  have h2 : matchAt (itemsOf (.key :: ps)) ⟨g, none⟩ (toks s) =
      matchAt (.chr keyTok :: .opt accidentalTok :: .stop :: itemsOf ps) ⟨g, some []⟩ (toks s) := rfl
  have hf' : Fails accidentalTok (.stop :: itemsOf ps) := by
    intro c t r ht
    simp only [matchAt]
    exact hf _ t r ht
  rw [h2, chr_iff key_class]
  constructor
  · rintro ⟨l, s1, rfl, hl, h3⟩
    obtain ⟨a, s2, rfl, ha, h4⟩ := (opt_iff _ hf' _ _ _ _).mp h3
    simp only [List.nil_append, List.singleton_append] at h4
    have h6 : matchAt (itemsOf ps) ⟨g ++ [l :: a], none⟩ (toks s2) = some c := h4
    obtain ⟨gs, h7, h8⟩ := (h _ _ _).mp h6
    exact ⟨_, ⟨l, a, s2, gs, by simp, rfl, hl, ha, h7⟩, by rw [h8]; simp⟩
  · rintro ⟨gs, ⟨l, a, s', gs', rfl, rfl, hl, ha, h7⟩, rfl⟩
    refine ⟨l, a ++ s', by simp, hl, (opt_iff _ hf' _ _ _ _).mpr ⟨a, s', rfl, ha, ?_⟩⟩
    have h6 : matchAt (itemsOf ps) ⟨g ++ [l :: a], none⟩ (toks s') = some ⟨g ++ ((l :: a) :: gs'), none⟩ :=
      (h _ _ _).mpr ⟨gs', h7, by simp⟩
    simp only [eat_some, List.nil_append, List.singleton_append]
    exact h6

theorem modes_differ (x y s t : Bytes) (hx : Folded (str "major") x) (hy : Folded (str "minor") y) (h : x ++ s = y ++ t) : False := by
  have h1 : str "major" = 109 :: 97 :: str "jor" := by decide +kernel
  have h2 : str "minor" = 109 :: 105 :: str "nor" := by decide +kernel
  have k1 : ¬ SameLetter 109 107 := by unfold SameLetter; decide
  have k2 : ¬ SameLetter 109 115 := by unfold SameLetter; decide
  have k3 : ¬ SameLetter 97 107 := by unfold SameLetter; decide
  have k4 : ¬ SameLetter 97 115 := by unfold SameLetter; decide
  have k5 : ¬ SameLetter 105 107 := by unfold SameLetter; decide
  have k6 : ¬ SameLetter 105 115 := by unfold SameLetter; decide
  rw [h1] at hx
  rw [h2] at hy
  cases hx with
  | kelvin _ _ _ h1 _ => exact k1 h1
  | long _ _ _ h1 _ => exact k2 h1
  | letter _ b _ x a1 a2 =>
    cases hy with
    | kelvin _ _ _ h1 _ => exact k1 h1
    | long _ _ _ h1 _ => exact k2 h1
    | letter _ b' _ y b1 b2 =>
      cases a2 with
      | kelvin _ _ _ h1 _ => exact k3 h1
      | long _ _ _ h1 _ => exact k4 h1
      | letter _ d _ x c1 c2 =>
        cases b2 with
        | kelvin _ _ _ h1 _ => exact k5 h1
        | long _ _ _ h1 _ => exact k6 h1
        | letter _ d' _ y d1 d2 =>
          simp only [List.cons_append, List.cons.injEq] at h
          obtain ⟨_, h, _⟩ := h
          subst h
          unfold SameLetter at c1 d1
          rw [← UInt8.toNat_inj] at c1 d1
          have e1 : (97 : UInt8).toNat = 97 := rfl
          have e2 : (105 : UInt8).toNat = 105 := rfl
          rw [e1] at c1
          rw [e2] at d1
          omega

theorem exact_mode (ps : List LinePart) (h : Exact ps) : Exact (.mode :: ps) := by
  intro g s c
  have w1 : ∀ c ∈ str "major", c.toNat < 128 := by decide +kernel
  have w2 : ∀ c ∈ str "minor", c.toNat < 128 := by decide +kernel
  have h2 : matchAt (itemsOf (.mode :: ps)) ⟨g, none⟩ (toks s) =
      ((seqTok ((str "major").map foldTok) ⟨g, some []⟩ (toks s)).bind fun x => matchAt (.stop :: itemsOf ps) x.1 x.2).or
      ((seqTok ((str "minor").map foldTok) ⟨g, some []⟩ (toks s)).bind fun x => matchAt (.stop :: itemsOf ps) x.1 x.2) := rfl
  rw [h2]
  constructor
  · intro h3
    have : ∃ x s', s = x ++ s' ∧ (Folded (str "major") x ∨ Folded (str "minor") x) ∧ matchAt (itemsOf ps) ⟨g ++ [x], none⟩ (toks s') = some c := by
      rcases Option.or_eq_some_iff.mp h3 with h3 | ⟨_, h3⟩
      · obtain ⟨z, h4, h5⟩ := Option.bind_eq_some_iff.mp h3
        obtain ⟨x, s', h6, h7, rfl⟩ := (seq_iff _ w1 g [] s z).mp h4
        exact ⟨x, s', h6, Or.inl h7, h5⟩
      · obtain ⟨z, h4, h5⟩ := Option.bind_eq_some_iff.mp h3
        obtain ⟨x, s', h6, h7, rfl⟩ := (seq_iff _ w2 g [] s z).mp h4
        exact ⟨x, s', h6, Or.inr h7, h5⟩
    obtain ⟨x, s', h4, h5, h6⟩ := this
    obtain ⟨gs, h7, h8⟩ := (h _ _ _).mp h6
    exact ⟨x :: gs, ⟨x, s', gs, h4, rfl, h5, h7⟩, by rw [h8]; simp⟩
  · rintro ⟨gs, ⟨x, s', gs', h4, rfl, h5, h7⟩, rfl⟩
    have h6 : matchAt (itemsOf ps) ⟨g ++ [x], none⟩ (toks s') = some ⟨g ++ (x :: gs'), none⟩ := (h _ _ _).mpr ⟨gs', h7, by simp⟩
    rcases h5 with h5 | h5
    · rw [(seq_iff _ w1 g [] s _).mpr ⟨x, s', h4, h5, rfl⟩]
      have : matchAt (.stop :: itemsOf ps) ⟨g, some ([] ++ x)⟩ (toks s') = some ⟨g ++ (x :: gs'), none⟩ := h6
      rw [Option.bind_some, this]
      rfl
    · have hn : seqTok ((str "major").map foldTok) ⟨g, some []⟩ (toks s) = none := by
        cases hz : seqTok ((str "major").map foldTok) ⟨g, some []⟩ (toks s) with
        | none => rfl
        | some z =>
          obtain ⟨x', s'', h8, h9, _⟩ := (seq_iff _ w1 g [] s z).mp hz
          exact (modes_differ x' x s'' s' h9 h5 (by rw [← h8, ← h4])).elim
      rw [hn, (seq_iff _ w2 g [] s _).mpr ⟨x, s', h4, h5, rfl⟩]
      exact h6

/-! ### What may follow a repetition -/

/-- The characters of digits and white space. -/
def digitBytes : Bytes := [48, 49, 50, 51, 52, 53, 54, 55, 56, 57]
def spaceBytes : Bytes := [9, 10, 12, 13, 32]

/-- The form does not begin with any of the characters. -/
def failsAt (bs : Bytes) : List LinePart → Bool
  | .word w :: _ => match str w with
    | [] => false
    | c :: _ => bs.all fun b => !foldTok c [b]
  | .digits :: _ => bs.all fun b => !digitTok [b]
  | .positive _ :: _ => bs.all fun b => !digitTok [b]
  | .blanks :: _ => bs.all fun b => !spaceTok [b]
  | .note :: _ => bs.all fun b => !keyTok [b]
  | .key :: _ => bs.all fun b => !keyTok [b]
  | .mode :: _ => bs.all fun b => !foldTok 109 [b]
  | _ => false

/-- The form reads after such a character whenever it reads before. -/
def passesAt (bs : Bytes) (ps : List LinePart) : Bool :=
  failsAt bs ps ||
    match ps with
    | [] => true
    | .skip :: qs => failsAt bs qs
    | .skipLast :: qs => failsAt bs qs
    | .upTo :: qs => failsAt bs qs
    | [.rest] => true
    | _ => false

/-- The form begins between runes. -/
def startsAt : List LinePart → Bool
  | .word w :: _ => match str w with
    | [] => false
    | c :: _ => c.toNat < 128
  | .blanks :: _ => true
  | _ => false

/-- White space follows. -/
def blanksNext : List LinePart → Bool
  | .blanks :: _ => true
  | _ => false

/-- Forms without backtracking. -/
def good : List LinePart → Bool
  | [] => true
  | .word w :: ps => (str w).all (fun c => c.toNat < 128) && good ps
  | .digits :: ps => passesAt digitBytes ps && good ps
  | .positive top :: ps => top.toNat ≤ 57 && (passesAt digitBytes ps && good ps)
  | .blanks :: ps => passesAt spaceBytes ps && good ps
  | .blanks0 :: ps => passesAt spaceBytes ps && good ps
  | .space :: ps => failsAt spaceBytes ps && good ps
  | .skip :: ps => startsAt ps && good ps
  | .skipLast :: ps => startsAt ps && good ps
  | .upTo :: ps => startsAt ps && good ps
  | .rest :: ps => ps.isEmpty
  | .note :: ps => good ps
  | .key :: ps => blanksNext ps && good ps
  | .mode :: ps => good ps

theorem fails_chr {p q : Tok → Bool} {bs : Bytes} (hp : ∀ t, p t = true → ∃ b ∈ bs, t = [b]) (h : (bs.all fun b => !q [b]) = true) (is : List Item) :
    Fails p (.chr q :: is) := by
  intro c t r ht
  obtain ⟨b, hb, rfl⟩ := hp t ht
  have := List.all_eq_true.mp h b hb
  simp only [matchAt]
  rw [if_neg (by simpa using this)]

theorem failsAt_sound {p : Tok → Bool} {bs : Bytes} (hp : ∀ t, p t = true → ∃ b ∈ bs, t = [b]) (ps : List LinePart) (h : failsAt bs ps = true) :
    Fails p (itemsOf ps) := by
  have hstart : ∀ is, Fails p is → Fails p (.start :: is) := by
    intro is hi c t r ht
    simp only [matchAt]
    exact hi _ t r ht
  unfold failsAt at h
  split at h
  · rename_i w ps
    split at h
    · cases h
    · rename_i c cs hc
      have : itemsOf (.word w :: ps) = .chr (foldTok c) :: (cs.map (fun c => Item.chr (foldTok c)) ++ itemsOf ps) := by
        show ilit w ++ itemsOf ps = _
        unfold ilit
        rw [hc]
        rfl
      rw [this]
      exact fails_chr hp h _
  · exact hstart _ (fails_chr hp h _)
  · rename_i top ps
    refine hstart _ (fails_chr (q := rangeTok 49 57) hp ?_ _)
    rw [List.all_eq_true] at h ⊢
    intro b hb
    have := h b hb
    rw [Bool.not_eq_true'] at this ⊢
    rw [Bool.eq_false_iff] at this ⊢
    intro hr
    apply this
    obtain ⟨b', e, h1⟩ := first_class.one _ hr
    simp at e
    subst e
    exact digit_class.all b ⟨by omega, h1.2⟩
  · exact fails_chr hp h _
  · exact hstart _ (fails_chr hp h _)
  · exact hstart _ (fails_chr hp h _)
  · rename_i ps
    intro c t r ht
    obtain ⟨b, hb, rfl⟩ := hp t ht
    have hb := List.all_eq_true.mp h b hb
    have e1 : str "major" = 109 :: str "ajor" := by decide +kernel
    have e2 : str "minor" = 109 :: str "inor" := by decide +kernel
    have h2 : matchAt (itemsOf (.mode :: ps)) c ([b] :: r) =
      ((seqTok ((str "major").map foldTok) ⟨c.groups, some []⟩ ([b] :: r)).bind fun x => matchAt (.stop :: itemsOf ps) x.1 x.2).or
      ((seqTok ((str "minor").map foldTok) ⟨c.groups, some []⟩ ([b] :: r)).bind fun x => matchAt (.stop :: itemsOf ps) x.1 x.2) := rfl
    rw [h2, e1, e2]
    have hb : foldTok 109 [b] = false := by simpa using hb
    simp only [List.map_cons, seqTok, hb]
    rfl
  · cases h

theorem passes_star {p : Tok → Bool} (g : Bool) (is : List Item) (h : Fails p is) : Passes p (.star anyTok g :: is) := by
  intro c t r ht hs
  simp only [matchAt] at hs ⊢
  have hind := starThen_isSome anyTok g (matchAt is) (matchAt_isSome is) r
  rw [starThen] at hs
  split at hs
  · split at hs
    · rw [h c t r ht, Option.or_none] at hs
      rename_i hg
      rwa [hind c (c.eat t)]
    · rw [h c t r ht, Option.none_or] at hs
      rwa [hind c (c.eat t)]
  · rw [h c t r ht] at hs
    cases hs

theorem passesAt_sound {p : Tok → Bool} {bs : Bytes} (hp : ∀ t, p t = true → ∃ b ∈ bs, t = [b]) (ps : List LinePart) (h : passesAt bs ps = true) :
    Passes p (itemsOf ps) := by
  unfold passesAt at h
  rw [Bool.or_eq_true] at h
  rcases h with h | h
  · exact (failsAt_sound hp ps h).passes
  · split at h
    · intro c t r _ _
      rfl
    · exact passes_star false _ (failsAt_sound hp _ h)
    · exact passes_star true _ (failsAt_sound hp _ h)
    · rename_i qs
      have hf := failsAt_sound hp _ h
      have hstop : Fails p (.stop :: itemsOf qs) := by
        intro c t r ht
        simp only [matchAt]
        exact hf _ t r ht
      have := passes_star false _ hstop
      intro c t r ht hs
      exact this ⟨c.groups, some []⟩ t r ht hs
    · intro c t r _ _
      have h1 := exact_rest
      have : itemsOf [LinePart.rest] = .start :: .star anyTok true :: [.stop] := rfl
      rw [this]
      simp only [matchAt]
      have gen : ∀ (r : List Tok) (c : Caps), (starThen anyTok true (matchAt [.stop]) c r).isSome = true := by
        intro r
        induction r with
        | nil => intro c; rfl
        | cons t r ih =>
          intro c
          rw [starThen]
          split
          · rw [Option.isSome_or, ih]; rfl
          · rfl
      exact gen r _
    · cases h

theorem digit_bytes (t : Tok) (h : digitTok t = true) : ∃ b ∈ digitBytes, t = [b] := by
  obtain ⟨b, rfl, hb⟩ := digit_class.one t h
  refine ⟨b, ?_, rfl⟩
  exact all8 (P := fun b => DigitTo 57 b → b ∈ digitBytes) (by unfold DigitTo digitBytes; decide +kernel) b hb

theorem space_bytes (t : Tok) (h : spaceTok t = true) : ∃ b ∈ spaceBytes, t = [b] := by
  obtain ⟨b, rfl, hb⟩ := space_class.one t h
  exact ⟨b, hb, rfl⟩

theorem startsAt_sound (ps : List LinePart) (h : startsAt ps = true) : Starts ps := by
  unfold startsAt at h
  split at h
  · split at h
    · cases h
    · rename_i c cs hc
      exact starts_word _ c cs hc (by simpa using h) _
  · exact starts_blanks _
  · cases h

/-- Patterns of good forms read exactly the forms. -/
theorem good_exact (ps : List LinePart) (h : good ps = true) : Exact ps := by
  induction ps with
  | nil => exact exact_nil
  | cons p ps ih =>
    cases p with
    | word w =>
      rw [good, Bool.and_eq_true] at h
      exact exact_word w ps (by simpa using h.1) (ih h.2)
    | digits =>
      rw [good, Bool.and_eq_true] at h
      exact exact_digits ps (passesAt_sound digit_bytes ps h.1) (ih h.2)
    | positive top =>
      rw [good, Bool.and_eq_true, Bool.and_eq_true] at h
      exact exact_positive top (by simpa using h.1) ps (passesAt_sound digit_bytes ps h.2.1) (ih h.2.2)
    | blanks =>
      rw [good, Bool.and_eq_true] at h
      exact exact_blanks ps (passesAt_sound space_bytes ps h.1) (ih h.2)
    | blanks0 =>
      rw [good, Bool.and_eq_true] at h
      exact exact_blanks0 ps (passesAt_sound space_bytes ps h.1) (ih h.2)
    | space =>
      rw [good, Bool.and_eq_true] at h
      exact exact_space ps (failsAt_sound space_bytes ps h.1) (ih h.2)
    | skip =>
      rw [good, Bool.and_eq_true] at h
      exact exact_skip ps (startsAt_sound ps h.1) (ih h.2)
    | skipLast =>
      rw [good, Bool.and_eq_true] at h
      exact exact_skipLast ps (startsAt_sound ps h.1) (ih h.2)
    | upTo =>
      rw [good, Bool.and_eq_true] at h
      exact exact_upTo ps (startsAt_sound ps h.1) (ih h.2)
    | rest =>
      rw [good, List.isEmpty_iff] at h
      subst h
      exact exact_rest
    | note =>
      rw [good] at h
      exact exact_note ps (ih h)
    | key =>
      rw [good, Bool.and_eq_true] at h
      refine exact_key ps ?_ (ih h.2)
      have h1 := h.1
      unfold blanksNext at h1
      split at h1
      · rename_i qs _
        exact class_fails_accidental space_class _
      · cases h1
    | mode =>
      rw [good] at h
      exact exact_mode ps (ih h)

/-- The leftmost match of the pattern of a good form. -/
theorem find_good (ps : List LinePart) (h : good (.word "delta:" :: ps) = true) (line : Bytes) (gs : List Bytes) :
    findSubmatch (itemsOf (.word "delta:" :: ps)) line = some gs ↔ Finds (.word "delta:" :: ps) line gs := by
  have he := good_exact _ h
  have := findSubmatch_first (itemsOf (.word "delta:" :: ps)) (Reads (.word "delta:" :: ps)) id ?_ ?_ ?_ line gs
  · rw [this]
    constructor
    · rintro ⟨x, h1, rfl⟩
      exact h1
    · intro h1
      exact ⟨gs, h1, rfl⟩
  · rintro s x ⟨y, s', rfl, hy, _⟩
    have e : str "delta:" = 100 :: str "elta:" := by decide +kernel
    rw [e] at hy
    cases hy with
    | letter _ b _ z h1 h2 =>
      refine ⟨b, z ++ s', rfl, ?_⟩
      have e : (100 : UInt8).toNat = 100 := rfl
      unfold SameLetter at h1
      rw [← UInt8.toNat_inj, e] at h1
      omega
    | kelvin _ _ _ h1 _ => exact absurd h1 (by unfold SameLetter; decide)
    | long _ _ _ h1 _ => exact absurd h1 (by unfold SameLetter; decide)
  · intro s x hx
    exact ⟨none, (he [] s _).mpr ⟨x, hx, rfl⟩⟩
  · intro s c hc
    obtain ⟨gs, h1, rfl⟩ := (he [] s c).mp hc
    exact ⟨gs, h1, rfl⟩

end Midiasm
