import Verif.Spec.JsonFile
import Verif.Lemmas.Slices
import Verif.Props.JsonFate
import Verif.Props.TextMeaning
import Verif.Props.Manufacturers

/-!
Members of the same name: what decoding them gives, as equivalences with `Verif/Spec/JsonFile.lean`.
-/

set_option linter.unusedSimpArgs false

namespace Midiasm
open Spec

theorem bind_iff {α β : Type} (o : Outcome α) (f : α → Outcome β) (b : β) : (o >>= f) = .ok b ↔ ∃ a, o = .ok a ∧ f a = .ok b := by
  constructor
  · exact bound_ok
  · rintro ⟨a, rfl, h⟩
    exact h

theorem members_iff {α : Type} (d : α → Json → Outcome α) (name : String) (cur r : α) (j : Json) :
    field d name cur j = .ok r ↔ ObjectLike j ∧ (valuesOf name j).foldlM d cur = .ok r := by
  cases j with
  | obj ms => rw [field_values]; exact ⟨fun h => ⟨Or.inr ⟨_, rfl⟩, h⟩, fun h => h.2⟩
  | null => exact ⟨fun h => ⟨Or.inl rfl, h⟩, fun h => h.2⟩
  | _ =>
    constructor
    · intro h; cases h
    · rintro ⟨h | ⟨_, h⟩, _⟩ <;> cases h

theorem fold_members {α : Type} (kind : Json → α → Prop) (d : α → Json → Outcome α)
    (hd : ∀ c v x, d c v = .ok x ↔ v = .null ∧ x = c ∨ v ≠ .null ∧ kind v x) (hk : ∀ x, ¬ kind .null x) (vs : List Json) (cur a : α) :
    vs.foldlM d cur = .ok a ↔ MembersSay kind cur vs a := by
  induction vs using List.reverseRecOn generalizing a with
  | nil =>
    constructor
    · intro h
      injection h with h
      exact ⟨by simp, Or.inr ⟨by simp, h.symm⟩⟩
    · rintro ⟨_, ⟨b, v, c, h, _⟩ | ⟨_, h⟩⟩
      · simp at h
      · rw [h]; rfl
  | append_singleton vs v ih =>
    have hone : (vs ++ [v]).foldlM d cur = .ok a ↔ ∃ c, vs.foldlM d cur = .ok c ∧ d c v = .ok a := by
      rw [foldlM_snoc, bind_iff]
      refine exists_congr fun c => and_congr_right fun _ => ?_
      rw [List.foldlM_cons, bind_iff]
      constructor
      · rintro ⟨x, h1, h2⟩
        injection h2 with h2
        rw [h1, h2]
      · intro h
        exact ⟨a, h, rfl⟩
    rw [hone]
    constructor
    · rintro ⟨c, h1, h2⟩
      obtain ⟨h3, h4⟩ := (ih c).mp h1
      rcases (hd c v a).mp h2 with ⟨rfl, rfl⟩ | ⟨hn, hka⟩
      · refine ⟨?_, ?_⟩
        · intro w hw
          rcases List.mem_append.mp hw with hw | hw
          · exact h3 w hw
          · exact Or.inl (List.mem_singleton.mp hw)
        · rcases h4 with ⟨b, w, e, rfl, h5, h6⟩ | ⟨h5, h6⟩
          · refine Or.inl ⟨b, w, e ++ [.null], by simp, h5, ?_⟩
            intro x hx
            rcases List.mem_append.mp hx with hx | hx
            · exact h6 x hx
            · exact List.mem_singleton.mp hx
          · refine Or.inr ⟨?_, h6⟩
            intro x hx
            rcases List.mem_append.mp hx with hx | hx
            · exact h5 x hx
            · exact List.mem_singleton.mp hx
      · refine ⟨?_, Or.inl ⟨vs, v, [], rfl, hka, by simp⟩⟩
        intro w hw
        rcases List.mem_append.mp hw with hw | hw
        · exact h3 w hw
        · rw [List.mem_singleton.mp hw]; exact Or.inr ⟨a, hka⟩
    · rintro ⟨h1, h2⟩
      have h1' : ∀ w ∈ vs, w = .null ∨ ∃ x, kind w x := fun w hw => h1 w (by simp [hw])
      by_cases hv : v = .null
      · subst hv
        refine ⟨a, (ih a).mpr ⟨h1', ?_⟩, (hd _ _ _).mpr (Or.inl ⟨rfl, rfl⟩)⟩
        rcases h2 with ⟨b, w, e, he, h3, h4⟩ | ⟨h3, h4⟩
        · rcases List.eq_nil_or_concat e with rfl | ⟨e', y, rfl⟩
          · obtain ⟨_, he⟩ := List.append_inj' he rfl
            injection he with he
            rw [← he] at h3
            exact absurd h3 (hk a)
          · refine Or.inl ⟨b, w, e', ?_, h3, fun x hx => h4 x (by simp [hx])⟩
            have : vs ++ [Json.null] = (b ++ w :: e') ++ [y] := by rw [he]; simp
            exact (List.append_inj' this rfl).1
        · exact Or.inr ⟨fun x hx => h3 x (by simp [hx]), h4⟩
      · -- the value counts, whatever came before
        have hka : kind v a := by
          rcases h2 with ⟨b, w, e, he, h3, h4⟩ | ⟨h3, _⟩
          · rcases List.eq_nil_or_concat e with rfl | ⟨e', y, rfl⟩
            · obtain ⟨_, he⟩ := List.append_inj' he rfl
              injection he with he
              rw [he]; exact h3
            · have : vs ++ [v] = (b ++ w :: e') ++ [y] := by rw [he]; simp
              obtain ⟨_, he⟩ := List.append_inj' this rfl
              injection he with he
              exact absurd (by rw [he]; exact h4 y (by simp)) hv
          · exact absurd (h3 v (by simp)) hv
        have : ∃ c, MembersSay kind cur vs c := by
          clear h1 h2 hone ih
          induction vs using List.reverseRecOn with
          | nil => exact ⟨cur, by simp, Or.inr ⟨by simp, rfl⟩⟩
          | append_singleton vs w ih =>
            rcases h1' w (by simp) with rfl | ⟨x, hx⟩
            · obtain ⟨c, i1, i2⟩ := ih (fun w hw => h1' w (by simp [hw]))
              refine ⟨c, h1', ?_⟩
              rcases i2 with ⟨b, y, e, rfl, h5, h6⟩ | ⟨h5, h6⟩
              · refine Or.inl ⟨b, y, e ++ [.null], by simp, h5, ?_⟩
                intro x hx
                rcases List.mem_append.mp hx with hx | hx
                · exact h6 x hx
                · exact List.mem_singleton.mp hx
              · refine Or.inr ⟨?_, h6⟩
                intro x hx
                rcases List.mem_append.mp hx with hx | hx
                · exact h5 x hx
                · exact List.mem_singleton.mp hx
            · exact ⟨x, h1', Or.inl ⟨vs, w, [], rfl, hx, by simp⟩⟩
        obtain ⟨c, hc⟩ := this
        exact ⟨c, (ih c).mpr hc, (hd _ _ _).mpr (Or.inr ⟨hv, hka⟩)⟩

theorem fold_latest {α : Type} (kind : Json → α → Prop) (d : α → Json → Outcome α) (hd : ∀ c v x, d c v = .ok x ↔ kind v x) (vs : List Json) (cur a : α) :
    vs.foldlM d cur = .ok a ↔ LastSays kind cur vs a := by
  have key : ∀ (vs : List Json), (∀ v ∈ vs, ∃ x, kind v x) ↔ ∃ c, vs.foldlM d cur = .ok c := by
    intro vs
    induction vs using List.reverseRecOn with
    | nil => exact ⟨fun _ => ⟨cur, rfl⟩, fun _ => by simp⟩
    | append_singleton vs v ih =>
      constructor
      · intro h
        obtain ⟨c, hc⟩ := ih.mp (fun w hw => h w (by simp [hw]))
        obtain ⟨x, hx⟩ := h v (by simp)
        refine ⟨x, ?_⟩
        rw [foldlM_snoc, hc, Outcome.bind_ok]
        exact foldlM_one _ _ _ _ ((hd _ _ _).mpr hx)
      · rintro ⟨c, hc⟩ w hw
        rw [foldlM_snoc] at hc
        obtain ⟨e, he, hc⟩ := bound_ok hc
        rcases List.mem_append.mp hw with hw | hw
        · exact ih.mpr ⟨e, he⟩ w hw
        · rw [List.mem_singleton.mp hw]
          rw [List.foldlM_cons] at hc
          obtain ⟨x, hx, _⟩ := bound_ok hc
          exact ⟨x, (hd _ _ _).mp hx⟩
  rcases List.eq_nil_or_concat vs with rfl | ⟨init, v, rfl⟩
  · constructor
    · intro h
      injection h with h
      exact ⟨by simp, Or.inr ⟨rfl, h.symm⟩⟩
    · rintro ⟨_, ⟨b, v, h, _⟩ | ⟨_, h⟩⟩
      · simp at h
      · rw [h]; rfl
  · rw [List.concat_eq_append]
    constructor
    · intro h
      refine ⟨(key _).mpr ⟨a, h⟩, Or.inl ⟨init, v, rfl, ?_⟩⟩
      rw [foldlM_snoc] at h
      obtain ⟨e, he, h⟩ := bound_ok h
      rw [List.foldlM_cons] at h
      obtain ⟨x, hx, h⟩ := bound_ok h
      injection h with h
      rw [← h]
      exact (hd _ _ _).mp hx
    · rintro ⟨h1, ⟨b, w, he, hk⟩ | ⟨he, _⟩⟩
      · obtain ⟨rfl, he'⟩ := List.append_inj' he rfl
        injection he' with he'
        subst he'
        obtain ⟨c, hc⟩ := (key init).mp (fun x hx => h1 x (by simp [hx]))
        rw [foldlM_snoc, hc, Outcome.bind_ok]
        exact foldlM_one _ _ _ _ ((hd _ _ _).mpr hk)
      · simp at he

/-! ### Values -/

theorem uint_iff (bits c : Nat) (v : Json) (n : Nat) : uintJson bits c v = .ok n ↔ v = .null ∧ n = c ∨ v ≠ .null ∧ NumberBelow (2 ^ bits) v n := by
  cases v with
  | null =>
    constructor
    · intro h; injection h with h; exact Or.inl ⟨rfl, h.symm⟩
    · rintro (⟨_, rfl⟩ | ⟨h, _⟩)
      · rfl
      · exact absurd rfl h
  | num lit =>
    constructor
    · intro h
      obtain ⟨h1, h2⟩ := parseUint_numeral h
      exact Or.inr ⟨by simp, lit, rfl, h1, h2⟩
    · rintro (⟨h, _⟩ | ⟨_, l, h, h1, h2⟩)
      · cases h
      · injection h with h
        subst h
        exact numeral_parseUint h1 h2
  | _ =>
    constructor
    · intro h; cases h
    · rintro (⟨h, _⟩ | ⟨_, l, h, _⟩) <;> cases h

theorem digits_of_numeral {s : Bytes} {v : Nat} (h : Numeral s v) : digitsValue s 0 = some v := by
  have := numeral_parseUint (bits := v) h Nat.lt_two_pow_self
  unfold parseUint at this
  rw [if_neg h.1] at this
  split at this
  · rename_i w hw
    split at this
    · injection this with this
      rw [hw, this]
    · cases this
  · cases this

theorem int8_iff (c : Int) (v : Json) (n : Int) : int8Json c v = .ok n ↔ v = .null ∧ n = c ∨ v ≠ .null ∧ SignedByte v n := by
  cases v with
  | null =>
    constructor
    · intro h; injection h with h; exact Or.inl ⟨rfl, h.symm⟩
    · rintro (⟨_, rfl⟩ | ⟨h, _⟩)
      · rfl
      · exact absurd rfl h
  | num lit =>
    constructor
    · intro h
      obtain ⟨⟨k, h1 | ⟨ds, h1, h2, h3⟩⟩, h4, h5⟩ := parseInt8_numeral h
      · exact Or.inr ⟨by simp, lit, k, rfl, Or.inl ⟨h1.1, h1.2, by omega⟩⟩
      · exact Or.inr ⟨by simp, lit, k, rfl, Or.inr ⟨ds, h1, h2, h3, by omega⟩⟩
    · rintro (⟨h, _⟩ | ⟨_, l, k, h, h1⟩)
      · cases h
      · injection h with h
        subst h
        show parseInt8 lit = .ok n
        unfold parseInt8
        rcases h1 with ⟨h1, rfl, h2⟩ | ⟨ds, rfl, h1, rfl, h2⟩
        · split
          · rename_i rest
            have := h1.2.1 45 (by simp)
            simp at this
          · rw [if_neg h1.1, digits_of_numeral h1]
            simp only
            rw [if_pos (by omega)]
        · simp only
          rw [if_neg h1.1, digits_of_numeral h1]
          simp only
          rw [if_pos (by omega)]
  | _ =>
    constructor
    · intro h; cases h
    · rintro (⟨h, _⟩ | ⟨_, l, k, h, _⟩) <;> cases h

theorem string_iff (c : Bytes) (v : Json) (s : Bytes) : stringJson c v = .ok s ↔ v = .null ∧ s = c ∨ v ≠ .null ∧ StringIs v s := by
  cases v with
  | null =>
    constructor
    · intro h; injection h with h; exact Or.inl ⟨rfl, h.symm⟩
    · rintro (⟨_, rfl⟩ | ⟨h, _⟩)
      · rfl
      · exact absurd rfl h
  | str cs =>
    constructor
    · intro h; injection h with h; exact Or.inr ⟨by simp, cs, rfl, h.symm⟩
    · rintro (⟨h, _⟩ | ⟨_, l, h, rfl⟩)
      · cases h
      · injection h with h
        subst h
        rfl
  | _ =>
    constructor
    · intro h; cases h
    · rintro (⟨h, _⟩ | ⟨_, l, h, _⟩) <;> cases h

theorem bool_iff (c : Bool) (v : Json) (b : Bool) : boolJson c v = .ok b ↔ v = .null ∧ b = c ∨ v ≠ .null ∧ TruthIs v b := by
  cases v with
  | null =>
    constructor
    · intro h; injection h with h; exact Or.inl ⟨rfl, h.symm⟩
    · rintro (⟨_, rfl⟩ | ⟨h, _⟩)
      · rfl
      · exact absurd rfl h
  | bool x =>
    constructor
    · intro h; injection h with h; exact Or.inr ⟨by simp, by rw [h]; rfl⟩
    · rintro (⟨h, _⟩ | ⟨_, h⟩)
      · cases h
      · injection h with h
        rw [h]; rfl
  | _ =>
    constructor
    · intro h; cases h
    · rintro (⟨h, _⟩ | ⟨_, h⟩) <;> cases h

theorem channel_iff (c : UInt8) (v : Json) (ch : UInt8) : channelJson c v = .ok ch ↔ ChannelIs v ch := by
  unfold channelJson
  rw [bind_iff]
  constructor
  · rintro ⟨n, h1, h2⟩
    split at h2
    · cases h2
    rename_i h15
    injection h2 with h2
    rcases (uint_iff _ _ _ _).mp h1 with ⟨rfl, rfl⟩ | ⟨_, lit, rfl, h3, _⟩
    · exact Or.inl ⟨rfl, h2.symm⟩
    · right
      have : ch.toNat = n := by rw [← h2, UInt8.toNat_ofNat']; omega
      rw [this]
      exact ⟨lit, rfl, h3, by omega⟩
  · rintro (⟨rfl, rfl⟩ | ⟨lit, rfl, h1, h2⟩)
    · exact ⟨0, rfl, rfl⟩
    · refine ⟨ch.toNat, (uint_iff _ _ _ _).mpr (Or.inr ⟨by simp, lit, rfl, h1, by omega⟩), ?_⟩
      rw [if_neg (by omega), UInt8.ofNat_toNat]

theorem elements_iff {α : Type} (d : α → Json → Outcome α) (zero : α) (l : List Json) (as : List α) :
    (∃ s, elementsJson d zero [] l = .ok s ∧ s.els = as) ↔ List.Forall₂ (fun x a => d zero x = .ok a) l as := by
  induction l generalizing as with
  | nil =>
    constructor
    · rintro ⟨s, h, rfl⟩
      injection h with h
      subst h
      exact .nil
    · intro h
      cases h
      exact ⟨⟨[], []⟩, rfl, rfl⟩
  | cons j l ih =>
    constructor
    · rintro ⟨s, h, rfl⟩
      rw [elementsJson] at h
      obtain ⟨a, ha, h⟩ := bound_ok h
      obtain ⟨t, ht, h⟩ := bound_ok h
      injection h with h
      subst h
      exact .cons ha ((ih _).mp ⟨t, ht, rfl⟩)
    · intro h
      cases h with
      | cons h1 h2 =>
        obtain ⟨t, ht, rfl⟩ := (ih _).mpr h2
        refine ⟨⟨_ :: t.els, t.behind⟩, ?_, rfl⟩
        rw [elementsJson]
        show (d zero j >>= _) = _
        rw [h1, Outcome.bind_ok]
        show (elementsJson d zero [] l >>= _) = _
        rw [ht]
        rfl

theorem bytes_iff (v : Json) (bs : Bytes) : bytesJson v = .ok bs ↔ BytesAre v bs := by
  unfold bytesJson
  rw [bind_iff]
  have harr : ∀ l, (∃ s, elementsJson (uintJson 64) 0 [] l = .ok s ∧ Outcome.ok (s.els.map UInt8.ofNat) = .ok bs) ↔ BytesAre (.arr l) bs := by
    intro l
    have h1 : (∃ s, elementsJson (uintJson 64) 0 [] l = .ok s ∧ Outcome.ok (s.els.map UInt8.ofNat) = .ok bs) ↔
        ∃ as, List.Forall₂ (fun x a => uintJson 64 0 x = .ok a) l as ∧ as.map UInt8.ofNat = bs := by
      constructor
      · rintro ⟨s, h1, h2⟩
        injection h2 with h2
        exact ⟨s.els, (elements_iff _ _ _ _).mp ⟨s, h1, rfl⟩, h2⟩
      · rintro ⟨as, h1, h2⟩
        obtain ⟨s, h3, rfl⟩ := (elements_iff _ _ _ _).mpr h1
        exact ⟨s, h3, by rw [h2]⟩
    rw [h1]
    have h2 : BytesAre (.arr l) bs ↔ List.Forall₂ (fun x b => x = .null ∧ b = 0 ∨ ∃ n, NumberBelow (2 ^ 64) x n ∧ b = UInt8.ofNat n) l bs := by
      constructor
      · rintro (⟨h, _⟩ | ⟨l', h, h2⟩)
        · cases h
        · injection h with h
          rw [h]; exact h2
      · intro h
        exact Or.inr ⟨l, rfl, h⟩
    rw [h2]
    clear h1 h2
    induction l generalizing bs with
    | nil =>
      constructor
      · rintro ⟨as, h, rfl⟩
        cases h
        exact .nil
      · intro h
        cases h
        exact ⟨[], .nil, rfl⟩
    | cons x l ih =>
      constructor
      · rintro ⟨as, h, rfl⟩
        cases h with
        | cons h1 h2 =>
          refine .cons ?_ ((ih _).mp ⟨_, h2, rfl⟩)
          rcases (uint_iff _ _ _ _).mp h1 with ⟨rfl, rfl⟩ | ⟨_, h⟩
          · exact Or.inl ⟨rfl, rfl⟩
          · exact Or.inr ⟨_, h, rfl⟩
      · intro h
        cases h with
        | cons h1 h2 =>
          obtain ⟨as, h3, rfl⟩ := (ih _).mpr h2
          rcases h1 with ⟨rfl, rfl⟩ | ⟨n, h1, rfl⟩
          · exact ⟨0 :: as, .cons rfl h3, rfl⟩
          · refine ⟨n :: as, .cons ((uint_iff _ _ _ _).mpr (Or.inr ⟨?_, h1⟩)) h3, rfl⟩
            rintro rfl
            obtain ⟨_, h, _⟩ := h1
            cases h
  cases v with
  | arr l =>
    rw [← harr l]
    cases l with
    | nil => exact Iff.rfl
    | cons _ _ => exact Iff.rfl
  | null =>
    constructor
    · rintro ⟨s, h1, h2⟩
      injection h1 with h1
      subst h1
      injection h2 with h2
      exact Or.inl ⟨rfl, h2.symm⟩
    · rintro (⟨_, rfl⟩ | ⟨l, h, _⟩)
      · exact ⟨⟨[], []⟩, rfl, rfl⟩
      · cases h
  | _ =>
    constructor
    · rintro ⟨s, h1, _⟩; cases h1
    · rintro (⟨h, _⟩ | ⟨l, h, _⟩) <;> cases h

theorem members_some {α : Type} (kind : Json → α → Prop) (zero : α) (vs : List Json) :
    (∃ a, MembersSay kind zero vs a) ↔ ∀ v ∈ vs, v = .null ∨ ∃ x, kind v x := by
  constructor
  · rintro ⟨a, h, _⟩
    exact h
  · intro h
    induction vs using List.reverseRecOn with
    | nil => exact ⟨zero, h, Or.inr ⟨by simp, rfl⟩⟩
    | append_singleton vs w ih =>
      rcases h w (by simp) with rfl | ⟨x, hx⟩
      · obtain ⟨c, i1, i2⟩ := ih (fun w hw => h w (by simp [hw]))
        refine ⟨c, h, ?_⟩
        rcases i2 with ⟨b, y, e, rfl, h5, h6⟩ | ⟨h5, h6⟩
        · refine Or.inl ⟨b, y, e ++ [.null], by simp, h5, ?_⟩
          intro x hx
          rcases List.mem_append.mp hx with hx | hx
          · exact h6 x hx
          · exact List.mem_singleton.mp hx
        · refine Or.inr ⟨?_, h6⟩
          intro x hx
          rcases List.mem_append.mp hx with hx | hx
          · exact h5 x hx
          · exact List.mem_singleton.mp hx
      · exact ⟨x, h, Or.inl ⟨vs, w, [], rfl, hx, by simp⟩⟩

theorem fold_number (bits c : Nat) (vs : List Json) (n : Nat) :
    vs.foldlM (uintJson bits) c = .ok n ↔ MembersSay (NumberBelow (2 ^ bits)) c vs n :=
  fold_members _ _ (fun c v x => uint_iff bits c v x) (by rintro x ⟨_, h, _⟩; cases h) vs c n

theorem fold_string (c : Bytes) (vs : List Json) (s : Bytes) : vs.foldlM stringJson c = .ok s ↔ MembersSay StringIs c vs s :=
  fold_members _ _ string_iff (by rintro x ⟨_, h, _⟩; cases h) vs c s

theorem fold_strings (c : Bytes) (vs : List Json) : (∃ s, vs.foldlM stringJson c = .ok s) ↔ ∀ v ∈ vs, v = .null ∨ ∃ s, StringIs v s := by
  rw [← members_some StringIs c]
  exact exists_congr fun s => fold_string c vs s

theorem says_below {bound c n : Nat} {vs : List Json} (h : MembersSay (NumberBelow bound) c vs n) (hc : c < bound) : n < bound := by
  rcases h.2 with ⟨_, _, _, _, ⟨_, _, _, h⟩, _⟩ | ⟨_, rfl⟩
  · exact h
  · exact hc

/-! ### Objects taken together -/

theorem values_append (name : String) (a b : List (List Nat × Json)) : valuesOf name (.obj (a ++ b)) = valuesOf name (.obj a) ++ valuesOf name (.obj b) := by
  simp only [valuesOf, membersOf, List.filter_append, List.map_append]

theorem struct_fold {σ : Type} (D : σ → Json → Outcome σ) (F : σ → List (List Nat × Json) → σ → Prop)
    (hD : ∀ c v r, D c v = .ok r ↔ ObjectLike v ∧ F c (membersOf v) r) (h0 : ∀ c r, F c [] r ↔ c = r)
    (hA : ∀ c a b r, F c (a ++ b) r ↔ ∃ m, F c a m ∧ F m b r) (vs : List Json) (c r : σ) :
    vs.foldlM D c = .ok r ↔ (∀ v ∈ vs, ObjectLike v) ∧ F c (vs.map membersOf).flatten r := by
  induction vs generalizing c with
  | nil =>
    rw [List.map_nil, List.flatten_nil, h0]
    constructor
    · intro h
      injection h with h
      exact ⟨by simp, h⟩
    · rintro ⟨_, h⟩
      rw [h]; rfl
  | cons v vs ih =>
    rw [List.foldlM_cons, bind_iff, List.map_cons, List.flatten_cons, hA]
    constructor
    · rintro ⟨m, h1, h2⟩
      obtain ⟨h3, h4⟩ := (hD _ _ _).mp h1
      obtain ⟨h5, h6⟩ := (ih m).mp h2
      refine ⟨?_, m, h4, h6⟩
      intro w hw
      rcases List.mem_cons.mp hw with rfl | hw
      · exact h3
      · exact h5 w hw
    · rintro ⟨h1, m, h2, h3⟩
      exact ⟨m, (hD _ _ _).mpr ⟨h1 v (by simp), h2⟩, (ih m).mpr ⟨fun w hw => h1 w (by simp [hw]), h3⟩⟩

theorem fold_append {α : Type} (d : α → Json → Outcome α) (vs ws : List Json) (c r : α) :
    (vs ++ ws).foldlM d c = .ok r ↔ ∃ m, vs.foldlM d c = .ok m ∧ ws.foldlM d m = .ok r := by
  rw [foldlM_snoc, bind_iff]

theorem note_iff (c : UInt8) (v : Json) (r : UInt8) : noteJson c v = .ok r ↔ ObjectLike v ∧
    (valuesOf "value" (.obj (membersOf v))).foldlM (uintJson 8) c.toNat = .ok r.toNat ∧ Strings "name" (.obj (membersOf v)) ∧
      Strings "alias" (.obj (membersOf v)) := by
  unfold noteJson
  simp only [bind_iff, members_iff]
  constructor
  · rintro ⟨n, ⟨h1, h2⟩, s, ⟨_, h3⟩, t, ⟨_, h4⟩, h5⟩
    injection h5 with h5
    have hn := says_below ((fold_number _ _ _ _).mp h2) c.toNat_lt
    have : r.toNat = n := by rw [← h5, UInt8.toNat_ofNat']; omega
    rw [this]
    exact ⟨h1, h2, (fold_strings _ _).mp ⟨s, h3⟩, (fold_strings _ _).mp ⟨t, h4⟩⟩
  · rintro ⟨h1, h2, h3, h4⟩
    obtain ⟨s, h3⟩ := (fold_strings [] _).mpr h3
    obtain ⟨t, h4⟩ := (fold_strings [] _).mpr h4
    exact ⟨r.toNat, ⟨h1, h2⟩, s, ⟨h1, h3⟩, t, ⟨h1, h4⟩, by rw [UInt8.ofNat_toNat]⟩

theorem strings_append (name : String) (a b : List (List Nat × Json)) : Strings name (.obj (a ++ b)) ↔ Strings name (.obj a) ∧ Strings name (.obj b) := by
  unfold Strings
  rw [values_append]
  constructor
  · intro h
    exact ⟨fun v hv => h v (by simp [hv]), fun v hv => h v (by simp [hv])⟩
  · rintro ⟨h1, h2⟩ v hv
    rcases List.mem_append.mp hv with hv | hv
    · exact h1 v hv
    · exact h2 v hv

theorem fold_u8 (vs ws : List Json) (c r : UInt8) : (vs ++ ws).foldlM (uintJson 8) c.toNat = .ok r.toNat ↔
    ∃ m : UInt8, vs.foldlM (uintJson 8) c.toNat = .ok m.toNat ∧ ws.foldlM (uintJson 8) m.toNat = .ok r.toNat := by
  rw [fold_append]
  constructor
  · rintro ⟨m, h1, h2⟩
    have hn := says_below ((fold_number _ _ _ _).mp h1) c.toNat_lt
    have : (UInt8.ofNat m).toNat = m := by rw [UInt8.toNat_ofNat']; omega
    exact ⟨UInt8.ofNat m, by rw [this]; exact h1, by rw [this]; exact h2⟩
  · rintro ⟨m, h1, h2⟩
    exact ⟨m.toNat, h1, h2⟩

theorem ok_iff {α : Type} (a b : α) : (Outcome.ok a : Outcome α) = .ok b ↔ a = b := by
  constructor
  · intro h; injection h
  · intro h; rw [h]

theorem fold_note (ev : Json) (n : UInt8) : (valuesOf "note" ev).foldlM noteJson 0 = .ok n ↔ NoteIs ev n := by
  rw [struct_fold noteJson (fun c ms r => (valuesOf "value" (.obj ms)).foldlM (uintJson 8) c.toNat = .ok r.toNat ∧ Strings "name" (.obj ms) ∧
    Strings "alias" (.obj ms)) note_iff]
  · unfold NoteIs NumberIn together
    rw [show (0 : UInt8).toNat = 0 from rfl, fold_number]
  · intro c r
    have h : ∀ name, Strings name (.obj []) := fun name v hv => by cases hv
    constructor
    · rintro ⟨h1, _⟩
      injection h1 with h1
      exact UInt8.toNat_inj.mp h1
    · rintro rfl
      exact ⟨rfl, h _, h _⟩
  · intro c a b r
    simp only [values_append, strings_append, fold_u8]
    constructor
    · rintro ⟨⟨m, h1, h2⟩, ⟨h3, h4⟩, h5, h6⟩
      exact ⟨m, ⟨h1, h3, h5⟩, h2, h4, h6⟩
    · rintro ⟨m, ⟨h1, h3, h5⟩, h2, h4, h6⟩
      exact ⟨⟨m, h1, h2⟩, ⟨h3, h4⟩, h5, h6⟩

/-- The number of the controller decides the rest. -/
theorem fold_controller (ev : Json) (n : UInt8) : (∃ c, (valuesOf "controller" ev).foldlM controllerJson ⟨0, ""⟩ = .ok c ∧ c.id = n) ↔ ControllerIs ev n := by
  have key : ∀ (vs : List Json) (c0 : Lib.Controller), (∃ c, vs.foldlM controllerJson c0 = .ok c ∧ c.id = n) ↔
      (∀ v ∈ vs, ObjectLike v) ∧ (valuesOf "id" (.obj (vs.map membersOf).flatten)).foldlM (uintJson 8) c0.id.toNat = .ok n.toNat ∧
        Strings "name" (.obj (vs.map membersOf).flatten) := by
    intro vs
    induction vs with
    | nil =>
      intro c0
      constructor
      · rintro ⟨c, h, rfl⟩
        injection h with h
        subst h
        exact ⟨by simp, rfl, fun v hv => by cases hv⟩
      · rintro ⟨_, h, _⟩
        injection h with h
        exact ⟨c0, rfl, UInt8.toNat_inj.mp h⟩
    | cons v vs ih =>
      intro c0
      rw [List.map_cons, List.flatten_cons, values_append, strings_append, fold_u8]
      have hone : ∀ c1, controllerJson c0 v = .ok c1 ↔ ObjectLike v ∧ ∃ m : UInt8,
          (valuesOf "id" (.obj (membersOf v))).foldlM (uintJson 8) c0.id.toNat = .ok m.toNat ∧ Strings "name" (.obj (membersOf v)) ∧
          c1 = Lib.lookupController m := by
        intro c1
        unfold controllerJson
        simp only [bind_iff, members_iff]
        constructor
        · rintro ⟨n, ⟨h1, h2⟩, s, ⟨_, h3⟩, h5⟩
          injection h5 with h5
          have hn := says_below ((fold_number _ _ _ _).mp h2) c0.id.toNat_lt
          have : (UInt8.ofNat n).toNat = n := by rw [UInt8.toNat_ofNat']; omega
          exact ⟨h1, UInt8.ofNat n, by rw [this]; exact h2, (fold_strings _ _).mp ⟨s, h3⟩, h5.symm⟩
        · rintro ⟨h1, m, h2, h3, rfl⟩
          obtain ⟨s, h3⟩ := (fold_strings [] _).mpr h3
          exact ⟨m.toNat, ⟨h1, h2⟩, s, ⟨h1, h3⟩, by rw [UInt8.ofNat_toNat]⟩
      constructor
      · rintro ⟨c, h, hc⟩
        rw [List.foldlM_cons] at h
        obtain ⟨c1, h1, h2⟩ := bound_ok h
        obtain ⟨h3, m, h4, h5, rfl⟩ := (hone c1).mp h1
        obtain ⟨h6, h7, h8⟩ := (ih _).mp ⟨c, h2, hc⟩
        rw [Lib.lookupController_id] at h7
        refine ⟨?_, ⟨m, h4, h7⟩, h5, h8⟩
        intro w hw
        rcases List.mem_cons.mp hw with rfl | hw
        · exact h3
        · exact h6 w hw
      · rintro ⟨h1, ⟨m, h2, h3⟩, h4, h5⟩
        have := (ih (Lib.lookupController m)).mpr ⟨fun w hw => h1 w (by simp [hw]), by rw [Lib.lookupController_id]; exact h3, h5⟩
        obtain ⟨c, h6, h7⟩ := this
        refine ⟨c, ?_, h7⟩
        rw [List.foldlM_cons, (hone _).mpr ⟨h1 v (by simp), m, h2, h4, rfl⟩]
        exact h6
  rw [key]
  unfold ControllerIs NumberIn together
  rw [show (0 : UInt8).toNat = 0 from rfl, fold_number]

/-! ### Slices -/

theorem elements_ok {α : Type} (d : α → Json → Outcome α) (zero : α) (ok : Json → Prop) (hd : ∀ c x, (∃ a, d c x = .ok a) ↔ ok x) (cells : List α) (l : List Json) :
    (∃ s, elementsJson d zero cells l = .ok s) ↔ ∀ x ∈ l, ok x := by
  induction l generalizing cells with
  | nil => exact ⟨fun _ => by simp, fun _ => ⟨_, rfl⟩⟩
  | cons j l ih =>
    constructor
    · rintro ⟨s, h⟩ x hx
      rw [elementsJson] at h
      obtain ⟨a, ha, h⟩ := bound_ok h
      obtain ⟨t, ht, h⟩ := bound_ok h
      rcases List.mem_cons.mp hx with rfl | hx
      · exact (hd _ _).mp ⟨a, ha⟩
      · exact (ih _).mp ⟨t, ht⟩ x hx
    · intro h
      obtain ⟨a, ha⟩ := (hd (cells.headD zero) j).mpr (h j (by simp))
      obtain ⟨t, ht⟩ := (ih cells.tail).mpr (fun x hx => h x (by simp [hx]))
      exact ⟨⟨a :: t.els, t.behind⟩, by rw [elementsJson, ha, Outcome.bind_ok, ht]; rfl⟩

/-- Slices can be decoded if all elements of all arrays can. -/
theorem slices_ok {α : Type} (d : α → Json → Outcome α) (zero : α) (ok : Json → Prop) (hd : ∀ c x, (∃ a, d c x = .ok a) ↔ ok x) (vs : List Json) (cur : Slice α) :
    (∃ s, vs.foldlM (sliceJson d zero) cur = .ok s) ↔ ∀ v ∈ vs, v = .null ∨ ∃ l, v = .arr l ∧ ∀ x ∈ l, ok x := by
  have one : ∀ (c : Slice α) v, (∃ s, sliceJson d zero c v = .ok s) ↔ v = .null ∨ ∃ l, v = .arr l ∧ ∀ x ∈ l, ok x := by
    intro c v
    cases v with
    | null => exact ⟨fun _ => Or.inl rfl, fun _ => ⟨_, rfl⟩⟩
    | arr l =>
      cases l with
      | nil => exact ⟨fun _ => Or.inr ⟨[], rfl, by simp⟩, fun _ => ⟨_, rfl⟩⟩
      | cons j js =>
        rw [sliceJson, elements_ok d zero ok hd]
        constructor
        · intro h
          exact Or.inr ⟨_, rfl, h⟩
        · rintro (h | ⟨l, h, h1⟩)
          · cases h
          · injection h with h
            rw [h]; exact h1
    | _ =>
      constructor
      · rintro ⟨_, h⟩; cases h
      · rintro (h | ⟨l, h, _⟩) <;> cases h
  induction vs generalizing cur with
  | nil => exact ⟨fun _ => by simp, fun _ => ⟨_, rfl⟩⟩
  | cons v vs ih =>
    constructor
    · rintro ⟨s, h⟩ w hw
      rw [List.foldlM_cons] at h
      obtain ⟨c, hc, h⟩ := bound_ok h
      rcases List.mem_cons.mp hw with rfl | hw
      · exact (one _ _).mp ⟨c, hc⟩
      · exact (ih c).mp ⟨s, h⟩ w hw
    · intro h
      obtain ⟨c, hc⟩ := (one cur v).mpr (h v (by simp))
      obtain ⟨s, hs⟩ := (ih c).mpr (fun w hw => h w (by simp [hw]))
      exact ⟨s, by rw [List.foldlM_cons, hc]; exact hs⟩

theorem long_ids : ∀ e ∈ Lib.manufacturers, (match e.2.id with | [_] => true | [x, _, _] => x == 0 | _ => false) = true := by
  decide +kernel

theorem short_ids : ∀ n : Fin 256, (Lib.lookupManufacturer [UInt8.ofNat n]).id = writtenId [UInt8.ofNat n] := by
  decide +kernel

theorem writtenId_eq (id : Bytes) : (Lib.lookupManufacturer id).id = writtenId id := by
  match id with
  | [] => rfl
  | [a] => exact all8 (P := fun a => (Lib.lookupManufacturer [a]).id = writtenId [a]) short_ids a
  | [_, _] => rfl
  | [x, b, c] =>
    show _ = if ∃ e ∈ Lib.manufacturers, e.2.id = [0, b, c] then [0, b, c] else [x, b, c]
    rcases lookup_cases [x, b, c] (Or.inr rfl) with ⟨h1, h2⟩ | ⟨m, h1, h2, _, _, _, _, h3, h4⟩
    · rw [h2, if_neg]
      rintro ⟨e, he, hid⟩
      have := table_entries e he
      simp only [Bool.and_eq_true, Bool.or_eq_true, beq_iff_eq, bne_iff_ne, ne_eq] at this
      rcases this.2 with h | ⟨_, h⟩
      · unfold Lib.lookupKey at h1
        rw [Option.map_eq_none_iff, List.find?_eq_none] at h1
        refine h1 e he ?_
        rw [← h, hid]
        exact beq_self_eq_true _
      · rw [hid] at h; simp at h
    · have hm := lookupKey_mem h1
      have hne : Lib.manufacturerKey [x, b, c] ≠ "7F" := by
        intro h
        rw [← Lib.hex2_7f] at h
        exact Lib.hex2_ne_hex22 h.symm
      have hk : Lib.manufacturerKey m.id = Lib.manufacturerKey [x, b, c] := by
        rcases h4 with h4 | ⟨h4, _⟩
        · exact h4
        · exact absurd h4 hne
      have hl := long_ids _ hm
      have hid : m.id = [0, b, c] := by
        match hmid : m.id with
        | [] => rw [hmid] at h3; simp at h3
        | [y] =>
          rw [hmid] at hk
          exact absurd hk Lib.hex2_ne_hex22
        | [_, _] => rw [hmid] at h3; simp at h3
        | [y, b', c'] =>
          simp only [hmid] at hl hk
          obtain ⟨rfl, rfl⟩ := Lib.hex22_inj hk
          rw [eq_of_beq hl]
        | _ :: _ :: _ :: _ :: _ => rw [hmid] at h3; simp at h3
      rw [h2, hid, if_pos ⟨_, hm, hid⟩]
  | _ :: _ :: _ :: _ :: _ => rfl

theorem uint_ok (bits : Nat) (c : Nat) (v : Json) : (∃ n, uintJson bits c v = .ok n) ↔ v = .null ∨ ∃ n, NumberBelow (2 ^ bits) v n := by
  constructor
  · rintro ⟨n, h⟩
    rcases (uint_iff _ _ _ _).mp h with ⟨h, _⟩ | ⟨_, h⟩
    · exact Or.inl h
    · exact Or.inr ⟨n, h⟩
  · rintro (rfl | ⟨n, h⟩)
    · exact ⟨c, rfl⟩
    · refine ⟨n, (uint_iff _ _ _ _).mpr (Or.inr ⟨?_, h⟩)⟩
      rintro rfl
      obtain ⟨_, h, _⟩ := h
      cases h

/-- The bytes of an ID that can be read. -/
theorem id_bytes (cols : List (List Json)) (ns : List Nat) (h : List.Forall₂ (fun col n => col.foldlM (uintJson 64) 0 = .ok n) cols ns) (id : Bytes) :
    List.Forall₂ IdByte cols id ↔ id = ns.map UInt8.ofNat := by
  induction h generalizing id with
  | nil =>
    constructor
    · intro h; cases h; rfl
    · rintro rfl; exact .nil
  | cons h1 _ ih =>
    rename_i col n cols ns _
    have hb : ∀ b, IdByte col b ↔ b = UInt8.ofNat n := by
      intro b
      obtain ⟨_, hs⟩ := (fold_number _ _ _ _).mp h1
      constructor
      · intro h
        have key : ∀ {p q : List Json} {x y : Json} {r t : List Json}, p ++ x :: r = q ++ y :: t → x ≠ .null → y ≠ .null →
            (∀ v ∈ r, v = .null) → (∀ v ∈ t, v = .null) → x = y := by
          intro p q x y r t he hx hy hr ht
          rcases List.append_eq_append_iff.mp he with ⟨c, rfl, hc⟩ | ⟨c, rfl, hc⟩
          · cases c with
            | nil => injection hc
            | cons z c =>
              injection hc with h1 h2
              exact absurd (hr y (by rw [h2]; simp)) hy
          · cases c with
            | nil => injection hc with hc; exact hc.symm
            | cons z c =>
              injection hc with h1 h2
              exact absurd (ht x (by rw [h2]; simp)) hx
        rcases h with ⟨h2, rfl⟩ | ⟨before, lit, k, after, rfl, h2, h3, rfl⟩
        · rcases hs with ⟨p, v, q, rfl, ⟨lit, rfl, _⟩, _⟩ | ⟨_, rfl⟩
          · cases h2 (.num lit) (by simp)
          · rfl
        · rcases hs with ⟨p, v, q, he, ⟨lit', rfl, h4, _⟩, h5⟩ | ⟨h4, _⟩
          · have := key he (by simp) (by simp) h2 h5
            injection this with this
            subst this
            rw [show k = n from by rw [← h3.2.2, ← h4.2.2]]
          · cases h4 (.num lit) (by simp)
      · rintro rfl
        exact idByte col n h1
    constructor
    · intro h
      cases h with
      | cons h2 h3 => rw [List.map_cons, (hb _).mp h2, (ih _).mp h3]
    · rintro rfl
      exact .cons ((hb _).mpr rfl) ((ih _).mpr rfl)

theorem maker_iff (c : Lib.Manufacturer) (v : Json) (id : Bytes) : (∃ m, manufacturerJson c v = .ok m ∧ m.id = id) ↔ MakerIs v id := by
  unfold manufacturerJson
  constructor
  · rintro ⟨m, h, rfl⟩
    obtain ⟨s, h1, h⟩ := bound_ok h
    injection h with h
    obtain ⟨h2, h3⟩ := (members_iff _ _ _ _ _).mp h1
    refine ⟨h2, (slices_ok _ _ _ (uint_ok 64) _ _).mp ⟨s, h3⟩, s.els.map UInt8.ofNat, ?_, ?_⟩
    · exact (id_bytes _ _ (slice_stacked _ _ _ _ h3) _).mpr rfl
    · rw [← h, writtenId_eq]
  · rintro ⟨h1, h2, given, h3, rfl⟩
    obtain ⟨s, h4⟩ := (slices_ok (uintJson 64) 0 _ (uint_ok 64) _ ⟨[], []⟩).mpr h2
    refine ⟨Lib.lookupManufacturer (s.els.map UInt8.ofNat), ?_, ?_⟩
    · rw [(members_iff _ _ _ _ _).mpr ⟨h1, h4⟩]
      rfl
    · rw [writtenId_eq, (id_bytes _ _ (slice_stacked _ _ _ _ h4) _).mp h3]

theorem fold_maker (vs : List Json) (id : Bytes) : (∃ m, vs.foldlM manufacturerJson noManufacturer = .ok m ∧ m.id = id) ↔ LastSays MakerIs [] vs id := by
  have hall : (∃ m, vs.foldlM manufacturerJson noManufacturer = .ok m ∧ m.id = id) ↔
      ∃ m, LastSays (fun v m => manufacturerJson noManufacturer v = .ok m) noManufacturer vs m ∧ m.id = id :=
    exists_congr fun m => and_congr_left fun _ => fold_latest (fun v m => manufacturerJson noManufacturer v = .ok m) manufacturerJson (fun _ _ _ => Iff.rfl) _ _ _
  rw [hall]
  constructor
  · rintro ⟨m, ⟨h1, h2⟩, rfl⟩
    refine ⟨fun v hv => ?_, ?_⟩
    · obtain ⟨x, hx⟩ := h1 v hv
      exact ⟨x.id, (maker_iff noManufacturer _ _).mp ⟨x, hx, rfl⟩⟩
    · rcases h2 with ⟨b, v, rfl, h2⟩ | ⟨rfl, rfl⟩
      · exact Or.inl ⟨b, v, rfl, (maker_iff noManufacturer _ _).mp ⟨m, h2, rfl⟩⟩
      · exact Or.inr ⟨rfl, rfl⟩
  · rintro ⟨h1, h2⟩
    have h1' : ∀ v ∈ vs, ∃ x, manufacturerJson noManufacturer v = .ok x := by
      intro v hv
      obtain ⟨x, hx⟩ := h1 v hv
      obtain ⟨m, hm, _⟩ := (maker_iff noManufacturer _ _).mpr hx
      exact ⟨m, hm⟩
    rcases h2 with ⟨b, v, rfl, h2⟩ | ⟨rfl, rfl⟩
    · obtain ⟨m, hm, rfl⟩ := (maker_iff noManufacturer _ _).mpr h2
      exact ⟨m, ⟨h1', Or.inl ⟨b, v, rfl, hm⟩⟩, rfl⟩
    · exact ⟨noManufacturer, ⟨h1', Or.inr ⟨rfl, rfl⟩⟩, rfl⟩

end Midiasm
