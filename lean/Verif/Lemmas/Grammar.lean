import Verif.Spec.LineGrammar
import Verif.Lemmas.First

/-!
Patterns read the parts of a line.
-/

set_option linter.unusedSimpArgs false

namespace Midiasm
open Spec

/-! ### Repetitions, exactly -/

theorem starThen_greedy_iff (p : Tok → Bool) (k : Caps → List Tok → Option Caps) (x : Caps) (s : List Tok) : ∀ c : Caps,
    starThen p true k c s = some x ↔ ∃ a v, s = a ++ v ∧ (∀ t ∈ a, p t = true) ∧ k (c.eats a) v = some x ∧
      ∀ a' v', s = a' ++ v' → (∀ t ∈ a', p t = true) → a.length < a'.length → k (c.eats a') v' = none := by
  induction s with
  | nil =>
    intro c
    constructor
    · intro h
      refine ⟨[], [], rfl, by simp, h, ?_⟩
      intro a' v' he _ hl
      have := (List.append_eq_nil_iff.mp he.symm).1
      subst this
      simp at hl
    · rintro ⟨a, v, he, _, hk, _⟩
      obtain ⟨rfl, rfl⟩ := List.append_eq_nil_iff.mp he.symm
      exact hk
  | cons t r ih =>
    intro c
    have ih := ih (c.eat t)
    rw [starThen]
    by_cases hp : p t = true
    · rw [if_pos hp, if_pos rfl]
      constructor
      · intro h
        rcases Option.or_eq_some_iff.mp h with h | ⟨hn, h⟩
        · obtain ⟨a, v, rfl, ha, hk, hl⟩ := ih.mp h
          refine ⟨t :: a, v, rfl, ?_, hk, ?_⟩
          · intro u hu
            rcases List.mem_cons.mp hu with rfl | hu
            · exact hp
            · exact ha u hu
          · intro a' v' he ha' hlen
            cases a' with
            | nil => simp at hlen
            | cons u a' =>
              rw [List.cons_append] at he
              injection he with h1 h2
              subst h1
              exact hl a' v' h2 (fun w hw => ha' w (by simp [hw])) (by simpa using hlen)
        · refine ⟨[], t :: r, rfl, by simp, h, ?_⟩
          intro a' v' he ha' hlen
          cases a' with
          | nil => simp at hlen
          | cons u a' =>
            rw [List.cons_append] at he
            injection he with h1 h2
            subst h1
            cases hk : k (Caps.eats c (t :: a')) v' with
            | none => rfl
            | some y =>
              exfalso
              -- some match exists later on, so the repetition matches
              have : (starThen p true k (c.eat t) r).isSome = true := by
                clear ih hn h
                have gen : ∀ (a : List Tok) (v : List Tok) (c : Caps), (∀ w ∈ a, p w = true) → (k (c.eats a) v).isSome = true →
                    (starThen p true k c (a ++ v)).isSome = true := by
                  intro a
                  induction a with
                  | nil =>
                    intro v c _ hs
                    cases v with
                    | nil => exact hs
                    | cons w v =>
                      rw [List.nil_append, starThen]
                      split
                      · rw [if_pos rfl, Option.isSome_or]
                        have : (k c (w :: v)).isSome = true := hs
                        rw [this, Bool.or_true]
                      · exact hs
                  | cons w a ih =>
                    intro v c hw hs
                    rw [List.cons_append, starThen, if_pos (hw w (by simp)), if_pos rfl, Option.isSome_or,
                      ih v (c.eat w) (fun z hz => hw z (by simp [hz])) hs]
                    rfl
                rw [h2]
                exact gen a' v' _ (fun w hw => ha' w (by simp [hw])) (by
                  have : Caps.eats c (t :: a') = Caps.eats (c.eat t) a' := rfl
                  rw [← this, hk]; rfl)
              rw [hn] at this
              cases this
      · rintro ⟨a, v, he, ha, hk, hl⟩
        cases a with
        | nil =>
          rw [List.nil_append] at he
          subst he
          have hn : starThen p true k (c.eat t) r = none := by
            cases hs : starThen p true k (c.eat t) r with
            | none => rfl
            | some y =>
              obtain ⟨u, v, rfl, hu, hk'⟩ := starThen_runs p true k r _ y hs
              have := hl (t :: u) v rfl (by
                intro w hw
                rcases List.mem_cons.mp hw with rfl | hw
                · exact hp
                · exact hu w hw) (by simp)
              have e : Caps.eats c (t :: u) = Caps.eats (c.eat t) u := rfl
              rw [e, hk'] at this
              cases this
          rw [hn]
          exact hk
        | cons u a =>
          rw [List.cons_append] at he
          injection he with h1 h2
          subst h1
          have : starThen p true k (c.eat t) r = some x := ih.mpr ⟨a, v, h2, fun w hw => ha w (by simp [hw]), hk, by
            intro a' v' he' ha' hlen
            exact hl (t :: a') v' (by rw [he']; rfl) (by
              intro w hw
              rcases List.mem_cons.mp hw with rfl | hw
              · exact hp
              · exact ha' w hw) (by simpa using hlen)⟩
          rw [this]
          rfl
    · rw [if_neg hp]
      constructor
      · intro h
        refine ⟨[], t :: r, rfl, by simp, h, ?_⟩
        intro a' v' he ha' hlen
        cases a' with
        | nil => simp at hlen
        | cons u a' =>
          rw [List.cons_append] at he
          injection he with h1 h2
          subst h1
          exact absurd (ha' t (by simp)) hp
      · rintro ⟨a, v, he, ha, hk, _⟩
        cases a with
        | nil =>
          rw [List.nil_append] at he
          subst he
          exact hk
        | cons u a =>
          rw [List.cons_append] at he
          injection he with h1 h2
          subst h1
          exact absurd (ha t (by simp)) hp

theorem starThen_lazy_iff (p : Tok → Bool) (k : Caps → List Tok → Option Caps) (x : Caps) (s : List Tok) : ∀ c : Caps,
    starThen p false k c s = some x ↔ ∃ a v, s = a ++ v ∧ (∀ t ∈ a, p t = true) ∧ k (c.eats a) v = some x ∧
      ∀ a' v', s = a' ++ v' → a'.length < a.length → k (c.eats a') v' = none := by
  induction s with
  | nil =>
    intro c
    constructor
    · intro h
      exact ⟨[], [], rfl, by simp, h, by simp⟩
    · rintro ⟨a, v, he, _, hk, _⟩
      obtain ⟨rfl, rfl⟩ := List.append_eq_nil_iff.mp he.symm
      exact hk
  | cons t r ih =>
    intro c
    have ih := ih (c.eat t)
    rw [starThen]
    by_cases hp : p t = true
    · rw [if_pos hp, if_neg (by simp)]
      constructor
      · intro h
        rcases Option.or_eq_some_iff.mp h with h | ⟨hn, h⟩
        · exact ⟨[], t :: r, rfl, by simp, h, by simp⟩
        · obtain ⟨a, v, rfl, ha, hk, hl⟩ := ih.mp h
          refine ⟨t :: a, v, rfl, ?_, hk, ?_⟩
          · intro u hu
            rcases List.mem_cons.mp hu with rfl | hu
            · exact hp
            · exact ha u hu
          · intro a' v' he hlen
            cases a' with
            | nil =>
              rw [List.nil_append] at he
              subst he
              exact hn
            | cons u a' =>
              rw [List.cons_append] at he
              injection he with h1 h2
              subst h1
              exact hl a' v' h2 (by simpa using hlen)
      · rintro ⟨a, v, he, ha, hk, hl⟩
        cases a with
        | nil =>
          rw [List.nil_append] at he
          subst he
          have hk : k c (t :: r) = some x := hk
          rw [hk]
          rfl
        | cons u a =>
          have h0 : k c (t :: r) = none := hl [] (t :: r) rfl (by simp)
          rw [List.cons_append] at he
          injection he with h1 h2
          subst h1
          rw [h0, Option.none_or]
          exact ih.mpr ⟨a, v, h2, fun w hw => ha w (by simp [hw]), hk, by
            intro a' v' he' hlen
            exact hl (t :: a') v' (by rw [he']; rfl) (by simpa using hlen)⟩
    · rw [if_neg hp]
      constructor
      · intro h
        exact ⟨[], t :: r, rfl, by simp, h, by simp⟩
      · rintro ⟨a, v, he, ha, hk, _⟩
        cases a with
        | nil =>
          rw [List.nil_append] at he
          subst he
          exact hk
        | cons u a =>
          rw [List.cons_append] at he
          injection he with h1 h2
          subst h1
          exact absurd (ha t (by simp)) hp

/-! ### Whether a pattern matches does not depend on the groups -/

theorem starThen_isSome (p : Tok → Bool) (g : Bool) (k : Caps → List Tok → Option Caps)
    (hk : ∀ c c' s, (k c s).isSome = (k c' s).isSome) (s : List Tok) : ∀ c c' : Caps, (starThen p g k c s).isSome = (starThen p g k c' s).isSome := by
  induction s with
  | nil => intro c c'; exact hk c c' []
  | cons t r ih =>
    intro c c'
    rw [starThen, starThen]
    split
    · split
      · rw [Option.isSome_or, Option.isSome_or, ih _ (c'.eat t), hk c c']
      · rw [Option.isSome_or, Option.isSome_or, ih _ (c'.eat t), hk c c']
    · exact hk c c' _

theorem seqTok_free (ps : List (Tok → Bool)) (s : List Tok) : ∀ c c' : Caps, (seqTok ps c s).map (·.2) = (seqTok ps c' s).map (·.2) := by
  induction ps generalizing s with
  | nil => intro c c'; rfl
  | cons p ps ih =>
    intro c c'
    cases s with
    | nil => rfl
    | cons t r =>
      rw [seqTok, seqTok]
      split
      · exact ih r _ _
      · rfl

theorem matchAt_isSome (is : List Item) : ∀ (c c' : Caps) (s : List Tok), (matchAt is c s).isSome = (matchAt is c' s).isSome := by
  induction is with
  | nil => intro c c' s; rfl
  | cons i is ih =>
    intro c c' s
    cases i with
    | chr p =>
      cases s with
      | nil => rfl
      | cons t r =>
        simp only [matchAt]
        split
        · exact ih _ _ _
        · rfl
    | star p g =>
      simp only [matchAt]
      exact starThen_isSome p g _ ih s c c'
    | opt p =>
      cases s with
      | nil => simp only [matchAt]; exact ih _ _ _
      | cons t r =>
        simp only [matchAt]
        split
        · rw [Option.isSome_or, Option.isSome_or, ih _ (c'.eat t), ih c c']
        · exact ih _ _ _
    | alt a b =>
      have key : ∀ a : List (Tok → Bool), ((seqTok a c s).bind fun x => matchAt is x.1 x.2).isSome = ((seqTok a c' s).bind fun x => matchAt is x.1 x.2).isSome := by
        intro a
        have h := seqTok_free a s c c'
        cases h1 : seqTok a c s with
        | none =>
          cases h2 : seqTok a c' s with
          | none => rfl
          | some y => rw [h1, h2] at h; cases h
        | some x =>
          cases h2 : seqTok a c' s with
          | none => rw [h1, h2] at h; cases h
          | some y =>
            rw [h1, h2] at h
            simp only [Option.map_some, Option.some.injEq] at h
            simp only [Option.bind_some]
            rw [h]
            exact ih _ _ _
      simp only [matchAt]
      rw [Option.isSome_or, Option.isSome_or, key a, key b]
    | start => simp only [matchAt]; exact ih _ _ _
    | stop => simp only [matchAt]; exact ih _ _ _

/-! ### Places between runes -/

theorem decodeRune_before (b : UInt8) (rest : Bytes) (a : UInt8) (t : Bytes) (ha : isCont a = false) :
    decodeRune b (rest ++ a :: t) = decodeRune b rest ∧ (decodeRune b rest).2 ≤ rest.length := by
  have h1 : ∀ x y : UInt8, 0x80 ≤ x.toNat → y.toNat ≤ 0xbf → (decide (x ≤ a) && decide (a ≤ y)) = false := by
    intro x y hx hy
    rw [Bool.and_eq_false_iff]
    have : ¬ (0x80 ≤ a.toNat ∧ a.toNat ≤ 0xbf) := by
      intro h
      have := (isCont_toNat a).mpr (by omega)
      rw [this] at ha
      cases ha
    by_cases h : x ≤ a
    · right
      rw [UInt8.le_iff_toNat_le] at h
      simp [UInt8.le_iff_toNat_le]
      omega
    · left
      simp [h]
  unfold decodeRune
  split
  · simp
  split
  · simp
  split
  · match rest with
    | [] => simp [ha]
    | b1 :: r => exact ⟨rfl, ite_width (by simp)⟩
  split
  · match rest with
    | [] =>
      cases t with
      | nil => simp
      | cons x t =>
        simp only [List.nil_append]
        rw [if_neg]
        · simp
        · rw [h1 0xa0 0xbf (by decide) (by decide), h1 0x80 0x9f (by decide) (by decide), ha]
          split <;> (try split) <;> simp
    | [b1] => simp [ha]
    | b1 :: b2 :: r => exact ⟨rfl, ite_width (by simp)⟩
  split
  · match rest with
    | [] =>
      match t with
      | [] => simp
      | [x] => simp
      | x :: y :: t =>
        simp only [List.nil_append]
        rw [if_neg]
        · simp
        · rw [h1 0x90 0xbf (by decide) (by decide), h1 0x80 0x8f (by decide) (by decide), ha]
          split <;> (try split) <;> simp
    | [b1] =>
      match t with
      | [] => simp
      | x :: t => simp [ha]
    | [b1, b2] => simp [ha]
    | b1 :: b2 :: b3 :: r => exact ⟨rfl, ite_width (by simp)⟩
  · simp

/-- A text begins between runes. -/
def Apart (s : Bytes) : Prop := ∀ b t, s = b :: t → isCont b = false

theorem toks_apart (s t : Bytes) (ht : Apart t) : toks (s ++ t) = toks s ++ toks t := by
  cases t with
  | nil => rw [toks_nil, List.append_nil, List.append_nil]
  | cons a t =>
    have ha := ht a t rfl
    generalize hn : s.length = k
    induction k using Nat.strongRecOn generalizing s with
    | _ k ih =>
      cases s with
      | nil => rfl
      | cons b rest =>
        have h := decodeRune_before b rest a t ha
        rw [List.cons_append, toks_cons, toks_cons, h.1]
        rw [List.drop_append_of_le_length h.2, List.take_append_of_le_length h.2]
        rw [ih _ (by simp at hn; simp; omega) _ rfl]
        rfl


theorem apart_ascii (s : Bytes) (h : ∀ b t, s = b :: t → b.toNat < 128) : Apart s := by
  intro b t hs
  have := h b t hs
  rw [Bool.eq_false_iff]
  intro hc
  rw [isCont_toNat] at hc
  omega

/-- Runes cut the text. -/
theorem toks_cut {s : Bytes} {a v : List Tok} (h : toks s = a ++ v) : s = a.flatten ++ v.flatten ∧ toks v.flatten = v := by
  refine ⟨?_, toks_suffix a s v h⟩
  have := congrArg List.flatten h
  rwa [toks_flatten, List.flatten_append] at this

theorem toks_ne_nil (s : Bytes) : ∀ t ∈ toks s, t ≠ [] := by
  generalize hn : s.length = n
  induction n using Nat.strongRecOn generalizing s with
  | _ n ih =>
    cases s with
    | nil => simp [toks_nil]
    | cons b rest =>
      intro t ht
      rw [toks_cons] at ht
      rcases List.mem_cons.mp ht with rfl | ht
      · simp
      · exact ih _ (by simp at hn; simp; omega) _ rfl t ht

theorem newline_any (s : Bytes) : (∀ t ∈ toks s, anyTok t = true) ↔ (10 : UInt8) ∉ s := by
  constructor
  · intro h hm
    obtain ⟨u, w, rfl⟩ := List.append_of_mem hm
    rw [toks_append u 10 w (by decide), toks_ascii_cons 10 w (by decide)] at h
    have := h [10] (by simp)
    simp [anyTok] at this
  · exact any_toks s

/-! ### Characters -/

/-- A class of ASCII characters. -/
structure IsClass (p : Tok → Bool) (P : UInt8 → Prop) : Prop where
  one : ∀ t, p t = true → ∃ b, t = [b] ∧ P b
  all : ∀ b, P b → p [b] = true
  ascii : ∀ b, P b → b.toNat < 128

theorem digit_class : IsClass digitTok (DigitTo 57) where
  one := by
    intro t h
    obtain ⟨b, rfl, h1, h2⟩ := digitTok_byte h
    exact ⟨b, rfl, h1, h2⟩
  all := by
    intro b h
    exact digitTok_dec b ⟨by rw [UInt8.le_iff_toNat_le]; exact h.1, by rw [UInt8.le_iff_toNat_le]; exact h.2⟩
  ascii := by
    intro b h
    have : b.toNat ≤ 57 := h.2
    omega

theorem range_class (top : UInt8) (ht : top.toNat ≤ 57) : IsClass (rangeTok 48 top) (DigitTo top) where
  one := by
    intro t h
    unfold rangeTok at h
    split at h
    · rename_i b
      rw [Bool.and_eq_true, decide_eq_true_eq, decide_eq_true_eq, UInt8.le_iff_toNat_le, UInt8.le_iff_toNat_le] at h
      exact ⟨b, rfl, h⟩
    · cases h
  all := by
    intro b h
    unfold rangeTok
    rw [Bool.and_eq_true, decide_eq_true_eq, decide_eq_true_eq, UInt8.le_iff_toNat_le, UInt8.le_iff_toNat_le]
    exact h
  ascii := by
    intro b h
    have : b.toNat ≤ top.toNat := h.2
    omega

theorem first_class : IsClass (rangeTok 49 57) (fun b => 49 ≤ b.toNat ∧ b.toNat ≤ 57) where
  one := by
    intro t h
    unfold rangeTok at h
    split at h
    · rename_i b
      rw [Bool.and_eq_true, decide_eq_true_eq, decide_eq_true_eq, UInt8.le_iff_toNat_le, UInt8.le_iff_toNat_le] at h
      exact ⟨b, rfl, h⟩
    · cases h
  all := by
    intro b h
    unfold rangeTok
    rw [Bool.and_eq_true, decide_eq_true_eq, decide_eq_true_eq, UInt8.le_iff_toNat_le, UInt8.le_iff_toNat_le]
    exact h
  ascii := by
    intro b h
    omega

theorem reSpace_bytes (b : UInt8) : reSpace b = true ↔ Blank b :=
  all8 (P := fun b => reSpace b = true ↔ b ∈ ([9, 10, 12, 13, 32] : Bytes)) (by decide +kernel) b

theorem space_class : IsClass spaceTok Blank where
  one := by
    intro t h
    unfold spaceTok at h
    split at h
    · rename_i b
      exact ⟨b, rfl, (reSpace_bytes b).mp h⟩
    · cases h
  all := by
    intro b h
    exact (reSpace_bytes b).mpr h
  ascii := by
    intro b h
    unfold Blank at h
    simp only [List.mem_cons, List.not_mem_nil, or_false] at h
    rcases h with rfl | rfl | rfl | rfl | rfl <;> decide

theorem key_class : IsClass keyTok KeyLetter where
  one := by
    intro t h
    unfold keyTok at h
    split at h
    · rename_i b
      refine ⟨b, rfl, ?_⟩
      exact all8 (P := fun b => (decide (97 ≤ lower b) && decide (lower b ≤ 103)) = true → KeyLetter b) (by unfold KeyLetter; decide +kernel) b h
    · cases h
  all := by
    intro b h
    exact all8 (P := fun b => KeyLetter b → keyTok [b] = true) (by unfold KeyLetter; decide +kernel) b h
  ascii := by
    intro b h
    unfold KeyLetter at h
    omega

theorem chr_iff {p : Tok → Bool} {P : UInt8 → Prop} (hp : IsClass p P) (is : List Item) (c y : Caps) (s : Bytes) :
    matchAt (.chr p :: is) c (toks s) = some y ↔ ∃ b s', s = b :: s' ∧ P b ∧ matchAt is (c.eat [b]) (toks s') = some y := by
  constructor
  · intro h
    cases ht : toks s with
    | nil => rw [ht] at h; cases h
    | cons t r =>
      rw [ht] at h
      simp only [matchAt] at h
      split at h
      · rename_i hpt
        obtain ⟨b, rfl, hb⟩ := hp.one t hpt
        obtain ⟨h1, h2⟩ := toks_cut (a := [[b]]) (v := r) ht
        exact ⟨b, r.flatten, h1, hb, by rw [h2]; exact h⟩
      · cases h
  · rintro ⟨b, s', rfl, hb, h⟩
    rw [toks_ascii_cons b s' (hp.ascii b hb)]
    exact m_chr [b] (hp.all b hb) h

theorem class_start {p : Tok → Bool} {P : UInt8 → Prop} (hp : IsClass p P) (s : Bytes) :
    NoStart P s ↔ ∀ t, (toks s).head? = some t → p t = false := by
  constructor
  · intro h t ht
    rw [Bool.eq_false_iff]
    intro hpt
    obtain ⟨b, rfl, hb⟩ := hp.one t hpt
    obtain ⟨b', h1, h2⟩ := toks_head s _ ht
    cases s with
    | nil => cases h1
    | cons x s =>
      simp at h1 h2
      subst h1 h2
      exact h _ s rfl hb
  · intro h b t hs hb
    subst hs
    rw [toks_ascii_cons b t (hp.ascii b hb)] at h
    have := h [b] rfl
    rw [hp.all b hb] at this
    cases this

/-- The pattern matches after a character of the class whenever it matches before. -/
def Passes (p : Tok → Bool) (is : List Item) : Prop :=
  ∀ c t r, p t = true → (matchAt is c (t :: r)).isSome = true → (matchAt is c r).isSome = true

/-- The pattern does not begin with a character of the class. -/
def Fails (p : Tok → Bool) (is : List Item) : Prop := ∀ c t r, p t = true → matchAt is c (t :: r) = none

theorem Fails.passes {p : Tok → Bool} {is : List Item} (h : Fails p is) : Passes p is := by
  intro c t r hp hs
  rw [h c t r hp] at hs
  cases hs

theorem eats_append (c : Caps) (a b : List Tok) : c.eats (a ++ b) = (c.eats a).eats b := by
  unfold Caps.eats
  rw [List.foldl_append]

/-- A greedy repetition takes all it can. -/
theorem star_iff {p : Tok → Bool} {P : UInt8 → Prop} (hp : IsClass p P) (is : List Item) (hpass : Passes p is) (c y : Caps) (s : Bytes) :
    matchAt (.star p true :: is) c (toks s) = some y ↔
      ∃ x s', s = x ++ s' ∧ (∀ b ∈ x, P b) ∧ NoStart P s' ∧ matchAt is (c.eats (sing x)) (toks s') = some y := by
  constructor
  · intro h
    simp only [matchAt] at h
    obtain ⟨a, v, he, ha, hk, hl⟩ := (starThen_greedy_iff p _ y _ c).mp h
    obtain ⟨h1, h2⟩ := toks_cut he
    have hsing : a = sing a.flatten := by
      clear h he hk hl h1 h2
      induction a with
      | nil => rfl
      | cons t a ih =>
        obtain ⟨b, rfl, _⟩ := hp.one t (ha t (by simp))
        rw [List.flatten_cons, sing_append, ← ih (fun u hu => ha u (by simp [hu]))]
        rfl
    refine ⟨a.flatten, v.flatten, h1, ?_, ?_, by rw [h2, ← hsing]; exact hk⟩
    · intro b hb
      obtain ⟨t, ht, hbt⟩ := List.mem_flatten.mp hb
      obtain ⟨b', rfl, hb'⟩ := hp.one t (ha t ht)
      simp at hbt
      subst hbt
      exact hb'
    · rw [class_start hp, h2]
      intro t ht
      rw [Bool.eq_false_iff]
      intro hpt
      cases v with
      | nil => cases ht
      | cons u r =>
        simp at ht
        subst ht
        have h3 := hl (a ++ [u]) r (by rw [he]; simp) (by
          intro w hw
          rcases List.mem_append.mp hw with hw | hw
          · exact ha w hw
          · simp at hw; subst hw; exact hpt) (by simp)
        have h4 := hpass (c.eats a) u r hpt (by rw [hk]; rfl)
        rw [matchAt_isSome is _ (c.eats (a ++ [u])), h3] at h4
        cases h4
  · rintro ⟨x, s', rfl, hx, hs, hk⟩
    rw [toks_ascii x s' (fun b hb => hp.ascii b (hx b hb))]
    simp only [matchAt]
    refine starThen_greedy (sing x) _ c ?_ ((class_start hp s').mp hs) hk
    intro t ht
    obtain ⟨d, hd, rfl⟩ := List.mem_map.mp ht
    exact hp.all d (hx d hd)

/-! ### Words -/

theorem sameLetter_lower (c b : UInt8) : SameLetter c b ↔ lower b = lower c := by
  have hl : ∀ x : UInt8, (lower x).toNat = if 65 ≤ x.toNat ∧ x.toNat ≤ 90 then x.toNat + 32 else x.toNat :=
    all8 (by decide +kernel)
  unfold SameLetter
  rw [← UInt8.toNat_inj, ← UInt8.toNat_inj, hl, hl]
  have := b.toNat_lt
  have := c.toNat_lt
  split <;> split <;> omega

/-- One character of a word. -/
def Letter (c : UInt8) (x : Bytes) : Prop :=
  (∃ b, x = [b] ∧ SameLetter c b) ∨ (x = [0xe2, 0x84, 0xaa] ∧ SameLetter c 107) ∨ (x = [0xc5, 0xbf] ∧ SameLetter c 115)

theorem letter_tok (c : UInt8) (t : Tok) (ht : t ≠ []) : foldTok c t = true ↔ Letter c t := by
  unfold foldTok Letter
  rw [sameLetter_lower, sameLetter_lower]
  have l1 : lower 107 = 107 := by decide
  have l2 : lower 115 = 115 := by decide
  rw [l1, l2]
  match t, ht with
  | [b], _ =>
    simp only [decide_eq_true_eq]
    constructor
    · intro h
      exact Or.inl ⟨b, rfl, (sameLetter_lower c b).mpr h⟩
    · rintro (⟨b', h1, h2⟩ | ⟨h1, _⟩ | ⟨h1, _⟩)
      · simp at h1
        subst h1
        exact (sameLetter_lower c b).mp h2
      · simp at h1
      · simp at h1
  | x :: y :: z, _ =>
    simp only [Bool.or_eq_true, Bool.and_eq_true, decide_eq_true_eq]
    constructor
    · rintro (⟨h1, h2⟩ | ⟨h1, h2⟩)
      · exact Or.inr (Or.inl ⟨h2, h1.symm⟩)
      · exact Or.inr (Or.inr ⟨h2, h1.symm⟩)
    · rintro (⟨b', h1, _⟩ | ⟨h1, h2⟩ | ⟨h1, h2⟩)
      · simp at h1
      · exact Or.inl ⟨h2.symm, h1⟩
      · exact Or.inr ⟨h2.symm, h1⟩

theorem letter_toks (c : UInt8) (hc : c.toNat < 128) (x s : Bytes) (h : Letter c x) : toks (x ++ s) = x :: toks s := by
  rcases h with ⟨b, rfl, hb⟩ | ⟨rfl, _⟩ | ⟨rfl, _⟩
  · refine toks_ascii_cons b s ?_
    unfold SameLetter at hb
    rcases hb with rfl | hb | hb <;> omega
  · rw [List.cons_append, toks_cons]
    have : decodeRune 0xe2 ([0x84, 0xaa] ++ s) = (0x212a, 2) := rfl
    rw [this]
    rfl
  · rw [List.cons_append, toks_cons]
    have : decodeRune 0xc5 ([0xbf] ++ s) = (0x17f, 1) := rfl
    rw [this]
    rfl

theorem folded_cons (c : UInt8) (w x : Bytes) : Folded (c :: w) x ↔ ∃ u v, x = u ++ v ∧ Letter c u ∧ Folded w v := by
  constructor
  · intro h
    cases h with
    | letter _ b _ x h1 h2 => exact ⟨[b], x, rfl, Or.inl ⟨b, rfl, h1⟩, h2⟩
    | kelvin _ _ x h1 h2 => exact ⟨_, x, rfl, Or.inr (Or.inl ⟨rfl, h1⟩), h2⟩
    | long _ _ x h1 h2 => exact ⟨_, x, rfl, Or.inr (Or.inr ⟨rfl, h1⟩), h2⟩
  · rintro ⟨u, v, rfl, ⟨b, rfl, h1⟩ | ⟨rfl, h1⟩ | ⟨rfl, h1⟩, h2⟩
    · exact .letter c b w v h1 h2
    · exact .kelvin c w v h1 h2
    · exact .long c w v h1 h2

theorem word_iff (w : Bytes) (hw : ∀ c ∈ w, c.toNat < 128) (is : List Item) (g : List Bytes) (y : Caps) : ∀ s : Bytes,
    matchAt (w.map (fun c => Item.chr (foldTok c)) ++ is) ⟨g, none⟩ (toks s) = some y ↔
      ∃ x s', s = x ++ s' ∧ Folded w x ∧ matchAt is ⟨g, none⟩ (toks s') = some y := by
  induction w with
  | nil =>
    intro s
    constructor
    · intro h
      exact ⟨[], s, rfl, .nil, h⟩
    · rintro ⟨x, s', rfl, hx, h⟩
      cases hx
      exact h
  | cons c w ih =>
    intro s
    have ih := ih (fun c hc => hw c (by simp [hc]))
    constructor
    · intro h
      cases ht : toks s with
      | nil => rw [ht] at h; cases h
      | cons t r =>
        rw [ht] at h
        simp only [List.map_cons, List.cons_append, matchAt] at h
        split at h
        · rename_i hpt
          obtain ⟨h1, h2⟩ := toks_cut (a := [t]) (v := r) ht
          have hne := toks_ne_nil s t (by rw [ht]; simp)
          rw [eat_none, ← h2] at h
          obtain ⟨x, s', h3, h4, h5⟩ := (ih _).mp h
          refine ⟨t ++ x, s', ?_, (folded_cons c w _).mpr ⟨t, x, rfl, (letter_tok c t hne).mp hpt, h4⟩, h5⟩
          rw [h1, h3]
          simp
        · cases h
    · rintro ⟨x, s', rfl, hx, h⟩
      obtain ⟨u, v, rfl, h1, h2⟩ := (folded_cons c w x).mp hx
      have hne : u ≠ [] := by
        rcases h1 with ⟨b, rfl, _⟩ | ⟨rfl, _⟩ | ⟨rfl, _⟩ <;> simp
      rw [List.append_assoc, letter_toks c (hw c (by simp)) u _ h1]
      refine m_chr u ((letter_tok c u hne).mpr h1) ?_
      exact (ih _).mpr ⟨v, s', rfl, h2, h⟩

theorem seq_iff (w : Bytes) (hw : ∀ c ∈ w, c.toNat < 128) (g : List Bytes) : ∀ (u : Bytes) (s : Bytes) (z : Caps × List Tok),
    seqTok (w.map foldTok) ⟨g, some u⟩ (toks s) = some z ↔
      ∃ x s', s = x ++ s' ∧ Folded w x ∧ z = (⟨g, some (u ++ x)⟩, toks s') := by
  induction w with
  | nil =>
    intro u s z
    constructor
    · intro h
      simp only [List.map_nil, seqTok, Option.some.injEq] at h
      exact ⟨[], s, rfl, .nil, by rw [← h]; simp⟩
    · rintro ⟨x, s', rfl, hx, rfl⟩
      cases hx
      simp [seqTok]
  | cons c w ih =>
    intro u s z
    have ih := ih (fun c hc => hw c (by simp [hc]))
    constructor
    · intro h
      cases ht : toks s with
      | nil => rw [ht] at h; cases h
      | cons t r =>
        rw [ht] at h
        simp only [List.map_cons, seqTok] at h
        split at h
        · rename_i hpt
          obtain ⟨h1, h2⟩ := toks_cut (a := [t]) (v := r) ht
          have hne := toks_ne_nil s t (by rw [ht]; simp)
          rw [eat_some, ← h2] at h
          obtain ⟨x, s', h3, h4, h5⟩ := (ih _ _ _).mp h
          refine ⟨t ++ x, s', ?_, (folded_cons c w _).mpr ⟨t, x, rfl, (letter_tok c t hne).mp hpt, h4⟩, by rw [h5]; simp⟩
          rw [h1, h3]
          simp
        · cases h
    · rintro ⟨x, s', rfl, hx, rfl⟩
      obtain ⟨v, v', rfl, h1, h2⟩ := (folded_cons c w x).mp hx
      have hne : v ≠ [] := by
        rcases h1 with ⟨b, rfl, _⟩ | ⟨rfl, _⟩ | ⟨rfl, _⟩ <;> simp
      rw [List.append_assoc, letter_toks c (hw c (by simp)) v _ h1]
      simp only [List.map_cons, seqTok]
      rw [if_pos ((letter_tok c v hne).mpr h1), eat_some]
      exact (ih _ _ _).mpr ⟨v', s', rfl, h2, by simp⟩

/-! ### Looking for a place -/

theorem prefix_flatten {a b s : List Tok} (ha : a <+: s) (hb : b <+: s) (h : a.length ≤ b.length) : a.flatten.length ≤ b.flatten.length := by
  obtain ⟨w, hw⟩ := List.prefix_of_prefix_length_le ha hb h
  rw [← hw, List.flatten_append, List.length_append]
  omega

theorem prefix_flatten_lt {a b s : List Tok} (ha : a <+: s) (hb : b <+: s) (h : a.length < b.length) (hne : ∀ t ∈ s, t ≠ []) :
    a.flatten.length < b.flatten.length := by
  obtain ⟨w, hw⟩ := List.prefix_of_prefix_length_le ha hb (by omega)
  cases w with
  | nil =>
    rw [List.append_nil] at hw
    rw [hw] at h
    omega
  | cons t w =>
    have ht : t ≠ [] := hne t (hb.subset (by rw [← hw]; simp))
    have := List.length_pos_iff.mpr ht
    rw [← hw, List.flatten_append, List.length_append, List.flatten_cons, List.length_append]
    omega

/-- The first place. -/
theorem lazy_cut (k : Caps → List Tok → Option Caps) (K : Bytes → Prop) (hK : ∀ c s, (k c (toks s)).isSome = true ↔ K s)
    (hapart : ∀ s, K s → Apart s) (c y : Caps) (s : Bytes) :
    starThen anyTok false k c (toks s) = some y ↔
      ∃ x s', s = x ++ s' ∧ 10 ∉ x ∧ k (c.eats (toks x)) (toks s') = some y ∧ ∀ y' t, s = y' ++ t → K t → x.length ≤ y'.length := by
  rw [starThen_lazy_iff]
  constructor
  · rintro ⟨a, v, he, ha, hk, hl⟩
    obtain ⟨h1, h2⟩ := toks_cut he
    have hKv : K v.flatten := (hK (c.eats a) _).mp (by rw [h2, hk]; rfl)
    have h3 : toks a.flatten = a := by
      have h4 := toks_apart a.flatten v.flatten (hapart _ hKv)
      rw [← h1, he, h2] at h4
      exact (List.append_cancel_right h4).symm
    refine ⟨a.flatten, v.flatten, h1, ?_, by rw [h3, h2]; exact hk, ?_⟩
    · rw [← newline_any, h3]
      exact ha
    · intro y' t hs ht
      have h4 : toks s = toks y' ++ toks t := by rw [hs]; exact toks_apart _ _ (hapart _ ht)
      have h5 : a.length ≤ (toks y').length := by
        rcases Nat.lt_or_ge (toks y').length a.length with h | h
        · have h6 := hl _ _ h4 h
          have h7 := (hK (c.eats (toks y')) t).mpr ht
          rw [h6] at h7
          cases h7
        · exact h
      have := prefix_flatten (s := toks s) ⟨v, he.symm⟩ ⟨toks t, h4.symm⟩ h5
      rwa [toks_flatten] at this
  · rintro ⟨x, s', hs, hx, hk, hl⟩
    have hKs : K s' := (hK _ _).mp (by rw [hk]; rfl)
    have he : toks s = toks x ++ toks s' := by rw [hs]; exact toks_apart _ _ (hapart _ hKs)
    refine ⟨toks x, toks s', he, (newline_any x).mpr hx, hk, ?_⟩
    intro a' v' he' hlen
    cases hn : k (c.eats a') v' with
    | none => rfl
    | some z =>
      exfalso
      obtain ⟨h1, h2⟩ := toks_cut he'
      have hKv : K v'.flatten := (hK (c.eats a') _).mp (by rw [h2, hn]; rfl)
      have h3 := hl _ _ h1 hKv
      have h4 := prefix_flatten_lt (s := toks s) ⟨v', he'.symm⟩ ⟨toks s', he.symm⟩ hlen (toks_ne_nil s)
      rw [toks_flatten] at h4
      omega

/-- The last place. -/
theorem greedy_cut (k : Caps → List Tok → Option Caps) (K : Bytes → Prop) (hK : ∀ c s, (k c (toks s)).isSome = true ↔ K s)
    (hapart : ∀ s, K s → Apart s) (c y : Caps) (s : Bytes) :
    starThen anyTok true k c (toks s) = some y ↔
      ∃ x s', s = x ++ s' ∧ 10 ∉ x ∧ k (c.eats (toks x)) (toks s') = some y ∧
        ∀ y' t, s = y' ++ t → 10 ∉ y' → K t → y'.length ≤ x.length := by
  rw [starThen_greedy_iff]
  constructor
  · rintro ⟨a, v, he, ha, hk, hl⟩
    obtain ⟨h1, h2⟩ := toks_cut he
    have hKv : K v.flatten := (hK (c.eats a) _).mp (by rw [h2, hk]; rfl)
    have h3 : toks a.flatten = a := by
      have h4 := toks_apart a.flatten v.flatten (hapart _ hKv)
      rw [← h1, he, h2] at h4
      exact (List.append_cancel_right h4).symm
    refine ⟨a.flatten, v.flatten, h1, ?_, by rw [h3, h2]; exact hk, ?_⟩
    · rw [← newline_any, h3]
      exact ha
    · intro y' t hs hy ht
      have h4 : toks s = toks y' ++ toks t := by rw [hs]; exact toks_apart _ _ (hapart _ ht)
      have h5 : (toks y').length ≤ a.length := by
        rcases Nat.lt_or_ge a.length (toks y').length with h | h
        · have h6 := hl _ _ h4 ((newline_any y').mpr hy) h
          have h7 := (hK (c.eats (toks y')) t).mpr ht
          rw [h6] at h7
          cases h7
        · exact h
      have := prefix_flatten (s := toks s) ⟨toks t, h4.symm⟩ ⟨v, he.symm⟩ h5
      rwa [toks_flatten] at this
  · rintro ⟨x, s', hs, hx, hk, hl⟩
    have hKs : K s' := (hK _ _).mp (by rw [hk]; rfl)
    have he : toks s = toks x ++ toks s' := by rw [hs]; exact toks_apart _ _ (hapart _ hKs)
    refine ⟨toks x, toks s', he, (newline_any x).mpr hx, hk, ?_⟩
    intro a' v' he' ha' hlen
    cases hn : k (c.eats a') v' with
    | none => rfl
    | some z =>
      exfalso
      obtain ⟨h1, h2⟩ := toks_cut he'
      have hKv : K v'.flatten := (hK (c.eats a') _).mp (by rw [h2, hn]; rfl)
      have h3 : toks a'.flatten = a' := by
        have h4 := toks_apart a'.flatten v'.flatten (hapart _ hKv)
        rw [← h1, he', h2] at h4
        exact (List.append_cancel_right h4).symm
      have h5 := hl _ _ h1 (by rw [← newline_any, h3]; exact ha') hKv
      have h4 := prefix_flatten_lt (s := toks s) ⟨toks s', he.symm⟩ ⟨v', he'.symm⟩ hlen (toks_ne_nil s)
      rw [toks_flatten] at h4
      omega

end Midiasm
