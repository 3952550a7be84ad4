import Verif.Spec.Rearranged
import Verif.Props.JsonAgain
import Mathlib.Data.List.Forall2

/-!
C172: the order of the members of a JSON document, the case of their names and members that mean nothing do not change the assembled file.
-/

set_option linter.unusedSimpArgs false

namespace Midiasm
open Spec

/-! ### What a rearrangement leaves alone -/

/-- The members that mean something have the same values, rearranged. -/
def SameViews (v w : Json) : Prop := ∀ name ∈ memberNames, List.Forall₂ Rearranged (valuesOf name v) (valuesOf name w)

/-- A value and its rearrangement, one level deep. -/
def OneLevel (v w : Json) : Prop :=
  v = w ∨ (∃ l l', v = .arr l ∧ w = .arr l' ∧ List.Forall₂ Rearranged l l') ∨ (∃ ms ms', v = .obj ms ∧ w = .obj ms' ∧ SameViews v w)

theorem forall2_rearranged_same (l : List Json) : List.Forall₂ Rearranged l l := List.forall₂_same.mpr fun v _ => .same v

theorem forall2_rearranged_back {l l' : List Json} (h : List.Forall₂ Rearranged l l') : List.Forall₂ Rearranged l' l := by
  induction h with
  | nil => exact .nil
  | cons a _ ih => exact .cons a.back ih

theorem forall2_rearranged_trans {k l m : List Json} (h : List.Forall₂ Rearranged k l) (h' : List.Forall₂ Rearranged l m) :
    List.Forall₂ Rearranged k m := by
  induction h generalizing m with
  | nil => cases h'; exact .nil
  | cons a _ ih => cases h' with
    | cons b hb => exact .cons (a.trans b) (ih hb)

theorem valuesOf_obj_append (name : String) (a b : List (List Nat × Json)) :
    valuesOf name (.obj (a ++ b)) = valuesOf name (.obj a) ++ valuesOf name (.obj b) := by
  simp [valuesOf, membersOf]

theorem valuesOf_obj_cons (name : String) (n : List Nat) (v : Json) (b : List (List Nat × Json)) :
    valuesOf name (.obj ((n, v) :: b)) = (if SameName name n then [v] else []) ++ valuesOf name (.obj b) := by
  by_cases h : SameName name n <;> simp [valuesOf, membersOf, h]

theorem forall2_rearranged_append {a a' b b' : List Json} (h : List.Forall₂ Rearranged a a') (h' : List.Forall₂ Rearranged b b') :
    List.Forall₂ Rearranged (a ++ b) (a' ++ b') := List.rel_append h h'

theorem rearranged_alike {v w : Json} (h : Rearranged v w) : OneLevel v w := by
  induction h with
  | same v => exact .inl rfl
  | back _ ih =>
    rcases ih with rfl | ⟨l, l', rfl, rfl, h⟩ | ⟨ms, ms', rfl, rfl, h⟩
    · exact .inl rfl
    · exact .inr (.inl ⟨_, _, rfl, rfl, forall2_rearranged_back h⟩)
    · exact .inr (.inr ⟨_, _, rfl, rfl, fun name hn => forall2_rearranged_back (h name hn)⟩)
  | trans _ _ ih ih' =>
    rcases ih with rfl | ⟨l, l', rfl, rfl, h⟩ | ⟨ms, ms', rfl, rfl, h⟩
    · exact ih'
    · rcases ih' with rfl | ⟨k, k', e, rfl, h'⟩ | ⟨_, _, e, _, _⟩
      · exact .inr (.inl ⟨_, _, rfl, rfl, h⟩)
      · cases e
        exact .inr (.inl ⟨_, _, rfl, rfl, forall2_rearranged_trans h h'⟩)
      · cases e
    · rcases ih' with rfl | ⟨k, k', e, rfl, h'⟩ | ⟨_, _, e, rfl, h'⟩
      · exact .inr (.inr ⟨_, _, rfl, rfl, h⟩)
      · cases e
      · exact .inr (.inr ⟨_, _, rfl, rfl, fun name hn => forall2_rearranged_trans (h name hn) (h' name hn)⟩)
  | element a b h _ =>
    exact .inr (.inl ⟨_, _, rfl, rfl, forall2_rearranged_append (forall2_rearranged_same a) (.cons h (forall2_rearranged_same b))⟩)
  | member a b n h _ =>
    refine .inr (.inr ⟨_, _, rfl, rfl, fun name _ => ?_⟩)
    rw [valuesOf_obj_append, valuesOf_obj_append, valuesOf_obj_cons, valuesOf_obj_cons]
    refine forall2_rearranged_append (forall2_rearranged_same _) (forall2_rearranged_append ?_ (forall2_rearranged_same _))
    split
    · exact .cons h .nil
    · exact .nil
  | order a b n m v w h =>
    refine .inr (.inr ⟨_, _, rfl, rfl, fun name _ => ?_⟩)
    simp only [valuesOf_obj_append, valuesOf_obj_cons]
    by_cases h1 : SameName name n
    · have h2 : ¬ SameName name m := fun h2 => h (h1.trans h2.symm)
      rw [if_pos h1, if_neg h2, List.nil_append, List.nil_append]
      exact forall2_rearranged_same _
    · rw [if_neg h1, List.nil_append, List.nil_append]
      exact forall2_rearranged_same _
  | spelling a b n m v h =>
    refine .inr (.inr ⟨_, _, rfl, rfl, fun name _ => ?_⟩)
    have e : SameName name n ↔ SameName name m := by unfold SameName; rw [h]
    simpa only [valuesOf_obj_append, valuesOf_obj_cons, e] using forall2_rearranged_same _
  | meaningless a b n v h =>
    refine .inr (.inr ⟨_, _, rfl, rfl, fun name hn => ?_⟩)
    rw [valuesOf_obj_append, valuesOf_obj_append, valuesOf_obj_cons, if_neg (h name hn), List.nil_append]
    exact forall2_rearranged_same _

theorem rearranged_views {v w : Json} (h : Rearranged v w) : SameViews v w := by
  rcases rearranged_alike h with rfl | ⟨l, l', rfl, rfl, _⟩ | ⟨_, _, _, _, h⟩
  · exact fun name _ => forall2_rearranged_same _
  · exact fun name _ => .nil
  · exact h

theorem sameViews_back {v w : Json} (h : SameViews v w) : SameViews w v := fun name hn => forall2_rearranged_back (h name hn)

theorem rearranged_null {v w : Json} (h : Rearranged v w) (e : v = .null) : w = .null := by
  rcases rearranged_alike h with rfl | ⟨l, l', rfl, rfl, _⟩ | ⟨_, _, rfl, _, h⟩
  · exact e
  · cases e
  · cases e

theorem rearranged_arr {w : Json} {l : List Json} (h : Rearranged (.arr l) w) : ∃ l', w = .arr l' ∧ List.Forall₂ Rearranged l l' := by
  rcases rearranged_alike h with rfl | ⟨_, l', e, rfl, h'⟩ | ⟨_, _, e, _, h⟩
  · exact ⟨l, rfl, forall2_rearranged_same l⟩
  · cases e
    exact ⟨_, rfl, h'⟩
  · cases e

theorem rearranged_objectLike {v w : Json} (h : Rearranged v w) (o : ObjectLike v) : ObjectLike w := by
  rcases rearranged_alike h with rfl | ⟨l, l', rfl, rfl, _⟩ | ⟨_, ms', _, rfl, h⟩
  · exact o
  · rcases o with o | ⟨_, o⟩ <;> cases o
  · exact .inr ⟨_, rfl⟩

theorem rearranged_leaf {v w : Json} (h : Rearranged v w) (ha : ∀ l, v ≠ .arr l) (ho : ∀ ms, v ≠ .obj ms) : w = v := by
  rcases rearranged_alike h with rfl | ⟨l, l', rfl, rfl, _⟩ | ⟨ms, _, rfl, _, h⟩
  · rfl
  · exact absurd rfl (ha l)
  · exact absurd rfl (ho ms)

/-! ### Kinds of values -/

/-- A kind of value for which the arrangement does not count. -/
def Unarranged {α : Type} (kind : Json → α → Prop) : Prop := ∀ v w a, Rearranged v w → kind v a → kind w a

theorem unarranged_number (bound : Nat) : Unarranged (NumberBelow bound) := by
  rintro v w a h ⟨lit, rfl, hn⟩
  exact ⟨lit, rearranged_leaf h (by simp) (by simp), hn⟩

theorem unarranged_signed : Unarranged SignedByte := by
  rintro v w a h ⟨lit, k, rfl, hn⟩
  exact ⟨lit, k, rearranged_leaf h (by simp) (by simp), hn⟩

theorem unarranged_string : Unarranged StringIs := by
  rintro v w a h ⟨cs, rfl, hn⟩
  exact ⟨cs, rearranged_leaf h (by simp) (by simp), hn⟩

theorem unarranged_truth : Unarranged TruthIs := by
  rintro v w a h rfl
  exact rearranged_leaf h (by simp) (by simp)

theorem unarranged_channel : Unarranged ChannelIs := by
  rintro v w a h (⟨rfl, e⟩ | hn)
  · exact .inl ⟨rearranged_null h rfl, e⟩
  · exact .inr (unarranged_number _ _ _ _ h hn)

theorem unarranged_bytes : Unarranged BytesAre := by
  rintro v w a h (⟨rfl, e⟩ | ⟨l, rfl, hl⟩)
  · exact .inl ⟨rearranged_null h rfl, e⟩
  · obtain ⟨l', rfl, h'⟩ := rearranged_arr h
    refine .inr ⟨l', rfl, ?_⟩
    clear h
    induction h' generalizing a with
    | nil => exact hl
    | cons hx _ ih =>
      cases hl with
      | cons h1 h2 =>
        refine .cons ?_ (ih _ h2)
        rcases h1 with ⟨rfl, e⟩ | ⟨n, hn, e⟩
        · exact .inl ⟨rearranged_null hx rfl, e⟩
        · exact .inr ⟨n, unarranged_number _ _ _ _ hx hn, e⟩

/-! ### Members of the same name -/

theorem rearranged_mem {vs ws : List Json} (h : List.Forall₂ Rearranged vs ws) {P : Json → Prop} (hP : ∀ v w, Rearranged v w → P v → P w)
    (hv : ∀ v ∈ vs, P v) : ∀ w ∈ ws, P w := by
  induction h with
  | nil => simp
  | cons a _ ih =>
    intro w hw
    rcases List.mem_cons.mp hw with rfl | hw
    · exact hP _ _ a (hv _ (by simp))
    · exact ih (fun v h => hv v (by simp [h])) w hw

theorem rearranged_split {before after ws : List Json} {v : Json} (h : List.Forall₂ Rearranged (before ++ v :: after) ws) :
    ∃ before' w after', ws = before' ++ w :: after' ∧ Rearranged v w ∧ List.Forall₂ Rearranged after after' := by
  induction before generalizing ws with
  | nil =>
    cases h with
    | cons h1 h2 => exact ⟨[], _, _, rfl, h1, h2⟩
  | cons x before ih =>
    cases h with
    | cons h1 h2 =>
      obtain ⟨b', w, a', rfl, h3, h4⟩ := ih h2
      exact ⟨_ :: b', w, a', rfl, h3, h4⟩

theorem rearranged_split_last {before ws : List Json} {v : Json} (h : List.Forall₂ Rearranged (before ++ [v]) ws) :
    ∃ before' w, ws = before' ++ [w] ∧ Rearranged v w := by
  obtain ⟨b', w, a', e, h1, h2⟩ := rearranged_split h
  cases h2
  exact ⟨b', w, e, h1⟩

theorem null_or {α : Type} {kind : Json → α → Prop} (hk : Unarranged kind) (v w : Json) (h : Rearranged v w) :
    (v = .null ∨ ∃ x, kind v x) → (w = .null ∨ ∃ x, kind w x) := by
  rintro (e | ⟨x, hx⟩)
  · exact .inl (rearranged_null h e)
  · exact .inr ⟨x, hk _ _ _ h hx⟩

theorem rearranged_membersSay {α : Type} {kind : Json → α → Prop} (hk : Unarranged kind) {zero a : α} {vs ws : List Json}
    (h : List.Forall₂ Rearranged vs ws) (hs : MembersSay kind zero vs a) : MembersSay kind zero ws a := by
  refine ⟨rearranged_mem h (null_or hk) hs.1, ?_⟩
  rcases hs.2 with ⟨b, v, c, rfl, h1, h2⟩ | ⟨h1, h2⟩
  · obtain ⟨b', w, c', rfl, h3, h4⟩ := rearranged_split h
    exact .inl ⟨b', w, c', rfl, hk _ _ _ h3 h1, rearranged_mem h4 (fun _ _ => rearranged_null) h2⟩
  · exact .inr ⟨rearranged_mem h (fun _ _ => rearranged_null) h1, h2⟩

theorem rearranged_lastSays {α : Type} {kind : Json → α → Prop} (hk : Unarranged kind) {zero a : α} {vs ws : List Json}
    (h : List.Forall₂ Rearranged vs ws) (hs : LastSays kind zero vs a) : LastSays kind zero ws a := by
  refine ⟨rearranged_mem h (fun v w h ⟨x, hx⟩ => ⟨x, hk _ _ _ h hx⟩) hs.1, ?_⟩
  rcases hs.2 with ⟨b, v, rfl, h1⟩ | ⟨rfl, h2⟩
  · obtain ⟨b', w, rfl, h3⟩ := rearranged_split_last h
    exact .inl ⟨b', w, rfl, hk _ _ _ h3 h1⟩
  · cases h
    exact .inr ⟨rfl, h2⟩

theorem rearranged_lastIs {α : Type} {kind : Json → α → Prop} (hk : Unarranged kind) {a : α} {vs ws : List Json}
    (h : List.Forall₂ Rearranged vs ws) (hs : LastIs kind vs a) : LastIs kind ws a := by
  refine ⟨rearranged_mem h (null_or hk) hs.1, ?_⟩
  obtain ⟨b, v, rfl, h1⟩ := hs.2
  obtain ⟨b', w, rfl, h3⟩ := rearranged_split_last h
  exact ⟨b', w, rfl, hk _ _ _ h3 h1⟩

/-! ### Objects and arrays taken together -/

theorem valuesOf_flatten (name : String) (vs : List Json) :
    valuesOf name (.obj (vs.map membersOf).flatten) = (vs.map (valuesOf name)).flatten := by
  induction vs with
  | nil => rfl
  | cons v vs ih =>
    rw [List.map_cons, List.flatten_cons, valuesOf_obj_append, ih, List.map_cons, List.flatten_cons]
    rfl

theorem sameViews_flatten {vs ws : List Json} (h : List.Forall₂ Rearranged vs ws) :
    SameViews (.obj (vs.map membersOf).flatten) (.obj (ws.map membersOf).flatten) := by
  intro name hn
  rw [valuesOf_flatten, valuesOf_flatten]
  induction h with
  | nil => exact .nil
  | cons a _ ih =>
    simp only [List.map_cons, List.flatten_cons]
    exact forall2_rearranged_append (rearranged_views a name hn) ih

theorem sameViews_together {name : String} {v w : Json} (hn : name ∈ memberNames) (h : SameViews v w) :
    SameViews (together name v) (together name w) := sameViews_flatten (h name hn)

theorem rearranged_elements {v w : Json} (h : Rearranged v w) : List.Forall₂ Rearranged (elementsOf v) (elementsOf w) := by
  rcases rearranged_alike h with rfl | ⟨l, l', rfl, rfl, h⟩ | ⟨_, _, rfl, rfl, h⟩
  · exact forall2_rearranged_same _
  · assumption
  · exact .nil

theorem takeWhile_rearranged {as bs : List (List Json)} (h : List.Forall₂ (List.Forall₂ Rearranged) as bs) :
    List.Forall₂ (List.Forall₂ Rearranged) (as.takeWhile fun l => !l.isEmpty) (bs.takeWhile fun l => !l.isEmpty) := by
  induction h with
  | nil => exact .nil
  | cons a _ ih =>
    cases a with
    | nil => exact .nil
    | cons a as => exact .cons (.cons a as) ih

theorem lastArrays_rearranged {vs ws : List Json} (h : List.Forall₂ Rearranged vs ws) :
    List.Forall₂ (List.Forall₂ Rearranged) (lastArrays vs) (lastArrays ws) := by
  unfold lastArrays
  refine List.forall₂_reverse_iff.mpr (takeWhile_rearranged (List.forall₂_reverse_iff.mpr ?_))
  induction h with
  | nil => exact .nil
  | cons a _ ih => exact .cons (rearranged_elements a) ih

theorem places_rearranged (i : Nat) {as bs : List (List Json)} (h : List.Forall₂ (List.Forall₂ Rearranged) as bs) :
    List.Forall₂ Rearranged (as.filterMap fun l => l[i]?) (bs.filterMap fun l => l[i]?) := by
  induction h with
  | nil => exact .nil
  | @cons l l' _ _ a _ ih =>
    simp only [List.filterMap_cons]
    by_cases hi : i < l.length
    · have hi' : i < l'.length := by rw [← a.length_eq]; exact hi
      rw [List.getElem?_eq_getElem hi, List.getElem?_eq_getElem hi']
      exact .cons (a.get hi hi') ih
    · have hi' : ¬ i < l'.length := by rw [← a.length_eq]; exact hi
      rw [List.getElem?_eq_none (by omega), List.getElem?_eq_none (by omega)]
      exact ih

theorem getLastD_rearranged {as bs : List (List Json)} (h : List.Forall₂ (List.Forall₂ Rearranged) as bs) :
    (as.getLastD []).length = (bs.getLastD []).length := by
  have h' := List.forall₂_reverse_iff.mpr h
  rw [← List.reverse_reverse as, ← List.reverse_reverse bs]
  generalize as.reverse = as' at h' ⊢
  generalize bs.reverse = bs' at h' ⊢
  cases h' with
  | nil => rfl
  | cons a _ => simpa using a.length_eq

theorem stacked_rearranged {as bs : List (List Json)} (h : List.Forall₂ (List.Forall₂ Rearranged) as bs) :
    List.Forall₂ (List.Forall₂ Rearranged) (stacked as) (stacked bs) := by
  unfold stacked
  rw [getLastD_rearranged h]
  rw [List.forall₂_map_left_iff, List.forall₂_map_right_iff]
  exact List.forall₂_same.mpr fun i _ => places_rearranged i h

theorem tracksOf_rearranged {j k : Json} (h : SameViews j k) : List.Forall₂ SameViews (tracksOf j) (tracksOf k) := by
  unfold tracksOf
  rw [List.forall₂_map_left_iff, List.forall₂_map_right_iff]
  exact (stacked_rearranged (lastArrays_rearranged (h "tracks" (by decide)))).imp fun _ _ => sameViews_flatten

theorem unarranged_id {v w : Json} (h : SameViews v w) {id : Bytes} (hi : IdOf v id) : IdOf w id := by
  have hs := stacked_rearranged (lastArrays_rearranged (h "id" (by decide)))
  unfold IdOf at hi ⊢
  generalize stacked (lastArrays (valuesOf "id" v)) = as at hs hi
  generalize stacked (lastArrays (valuesOf "id" w)) = bs at hs ⊢
  induction hs generalizing id with
  | nil => exact hi
  | cons a _ ih =>
    cases hi with
    | cons h1 h2 =>
      refine .cons ?_ (ih h2)
      rcases h1 with ⟨h1, e⟩ | ⟨b, lit, n, c, rfl, h1, h2⟩
      · exact .inl ⟨rearranged_mem a (fun _ _ => rearranged_null) h1, e⟩
      · obtain ⟨b', x, c', rfl, h3, h4⟩ := rearranged_split a
        cases rearranged_leaf h3 (by simp) (by simp)
        exact .inr ⟨b', lit, n, c', rfl, rearranged_mem h4 (fun _ _ => rearranged_null) h1, h2⟩

theorem unarranged_maker : Unarranged MakerIs := by
  rintro v w a h ⟨h1, h2, given, h3, h4⟩
  refine ⟨rearranged_objectLike h h1, rearranged_mem (rearranged_views h "id" (by decide)) ?_ h2, given, unarranged_id (rearranged_views h) h3, h4⟩
  rintro x y hx (rfl | ⟨l, rfl, hl⟩)
  · exact .inl (rearranged_null hx rfl)
  · obtain ⟨l', rfl, hl'⟩ := rearranged_arr hx
    exact .inr ⟨l', rfl, rearranged_mem hl' (null_or (unarranged_number _)) hl⟩

/-! ### Events, tracks and documents -/

theorem views_number {bound : Nat} {name : String} {v w : Json} {n : Nat} (hn : name ∈ memberNames) (h : SameViews v w) (hs : NumberIn bound name v n) :
    NumberIn bound name w n := rearranged_membersSay (unarranged_number _) (h name hn) hs

theorem views_strings {name : String} {v w : Json} (hn : name ∈ memberNames) (h : SameViews v w) (hs : Strings name v) : Strings name w :=
  rearranged_mem (h name hn) (null_or unarranged_string) hs

theorem views_note {v w : Json} {n : UInt8} (h : SameViews v w) (hs : NoteIs v n) : NoteIs w n := by
  have ht := sameViews_together (name := "note") (by decide) h
  exact ⟨rearranged_mem (h "note" (by decide)) (fun _ _ => rearranged_objectLike) hs.1, views_number (by decide) ht hs.2.1,
    views_strings (by decide) ht hs.2.2.1, views_strings (by decide) ht hs.2.2.2⟩

theorem views_controller {v w : Json} {n : UInt8} (h : SameViews v w) (hs : ControllerIs v n) : ControllerIs w n := by
  have ht := sameViews_together (name := "controller") (by decide) h
  exact ⟨rearranged_mem (h "controller" (by decide)) (fun _ _ => rearranged_objectLike) hs.1, views_number (by decide) ht hs.2.1,
    views_strings (by decide) ht hs.2.2⟩

theorem views_event {v w : Json} (h : SameViews v w) {delta : UInt32} {b : Body} (hs : JsonSays v delta b) : JsonSays w delta b := by
  obtain ⟨h1, h2, h3⟩ := hs
  have num : ∀ bound name n, name ∈ memberNames → NumberIn bound name v n → NumberIn bound name w n := fun _ _ _ hn hs => views_number hn h hs
  have ch : ∀ c, LastSays ChannelIs 0 (valuesOf "channel" v) c → LastSays ChannelIs 0 (valuesOf "channel" w) c :=
    fun _ hs => rearranged_lastSays unarranged_channel (h "channel" (by decide)) hs
  have dat : ∀ c, LastSays BytesAre [] (valuesOf "data" v) c → LastSays BytesAre [] (valuesOf "data" w) c :=
    fun _ hs => rearranged_lastSays unarranged_bytes (h "data" (by decide)) hs
  have mak : ∀ c, LastSays MakerIs [] (valuesOf "manufacturer" v) c → LastSays MakerIs [] (valuesOf "manufacturer" w) c :=
    fun _ hs => rearranged_lastSays unarranged_maker (h "manufacturer" (by decide)) hs
  refine ⟨rearranged_membersSay unarranged_string (h "tag" (by decide)) h1, num _ _ _ (by decide) h2, ?_⟩
  cases b with
  | sequenceNumber n => exact num _ _ _ (by decide) h3
  | text k s => exact rearranged_membersSay unarranged_string (h (textMember k) (by cases k <;> decide)) h3
  | midiChannelPrefix c => exact ⟨num _ _ _ (by decide) h3.1, h3.2⟩
  | midiPort p => exact ⟨num _ _ _ (by decide) h3.1, h3.2⟩
  | endOfTrack => trivial
  | tempo t => exact num _ _ _ (by decide) h3
  | smpteOffset a b c d e f =>
    obtain ⟨a1, a2, a3, a4, a5, a6, a7⟩ := h3
    exact ⟨num _ _ _ (by decide) a1, num _ _ _ (by decide) a2, num _ _ _ (by decide) a3, num _ _ _ (by decide) a4, num _ _ _ (by decide) a5,
      num _ _ _ (by decide) a6, a7⟩
  | timeSignature n d c q =>
    obtain ⟨a1, a2, a3, a4, a5⟩ := h3
    exact ⟨num _ _ _ (by decide) a1, num _ _ _ (by decide) a2, num _ _ _ (by decide) a3, num _ _ _ (by decide) a4, a5⟩
  | keySignature a k n =>
    obtain ⟨a1, a2, a3⟩ := h3
    exact ⟨rearranged_membersSay unarranged_signed (h "accidentals" (by decide)) a1, num _ _ _ (by decide) a2, a3⟩
  | sequencerSpecific m data => exact ⟨mak _ h3.1, dat _ h3.2⟩
  | noteOff c n v => exact ⟨ch _ h3.1, views_note h h3.2.1, num _ _ _ (by decide) h3.2.2⟩
  | noteOn c n v => exact ⟨ch _ h3.1, views_note h h3.2.1, num _ _ _ (by decide) h3.2.2.1, h3.2.2.2⟩
  | polyphonicPressure c p => exact ⟨ch _ h3.1, num _ _ _ (by decide) h3.2.1, h3.2.2⟩
  | controller c n v => exact ⟨ch _ h3.1, views_controller h h3.2.1, num _ _ _ (by decide) h3.2.2⟩
  | programChange c bank p => exact ⟨ch _ h3.1, num _ _ _ (by decide) h3.2.1, num _ _ _ (by decide) h3.2.2⟩
  | channelPressure c p => exact ⟨ch _ h3.1, num _ _ _ (by decide) h3.2.1, h3.2.2⟩
  | pitchBend c v => exact ⟨ch _ h3.1, num _ _ _ (by decide) h3.2⟩
  | sysExMessage m data single =>
    exact ⟨mak _ h3.1, dat _ h3.2.1, rearranged_membersSay unarranged_truth (h "single" (by decide)) h3.2.2⟩
  | sysExContinuation data last =>
    obtain ⟨a1, ⟨x, a2⟩, a3⟩ := h3
    exact ⟨dat _ a1, ⟨x, rearranged_membersSay unarranged_truth (h "end" (by decide)) a2⟩, a3⟩
  | sysExEscape data => exact dat _ h3

theorem rearranged_event {v w : Json} (h : Rearranged v w) {e : Event} (hs : EventSays v e) : EventSays w e := by
  obtain ⟨b, ev, h1, h2⟩ := hs
  have hv := rearranged_views h "event" (by decide)
  rw [h1] at hv
  obtain ⟨b', ev', h3, h4⟩ := rearranged_split_last hv
  exact ⟨b', ev', h3, views_event (rearranged_views h4) h2⟩

theorem views_track {v w : Json} (h : SameViews v w) {es : List Event} (hs : TrackSays v es) : TrackSays w es := by
  obtain ⟨⟨b, x, h1, h2⟩, b1, l, given, h3, h4, h5⟩ := hs
  have ht := h "tag" (by decide)
  rw [h1] at ht
  obtain ⟨b', x', h6, h7⟩ := rearranged_split_last ht
  have he := h "events" (by decide)
  rw [h3] at he
  obtain ⟨b1', y, h8, h9⟩ := rearranged_split_last he
  obtain ⟨l', rfl, hl⟩ := rearranged_arr h9
  refine ⟨⟨b', x', h6, unarranged_string _ _ _ h7 h2⟩, b1', l', given, h8, ?_, h5⟩
  clear h3 h5 h8 h9 he
  induction hl generalizing given with
  | nil => exact h4
  | cons a _ ih =>
    cases h4 with
    | cons e1 e2 => exact .cons (rearranged_event a e1) (ih _ e2)

theorem rearranged_trackLike {v w : Json} (h : Rearranged v w) (hs : TrackLike v) : TrackLike w := by
  have hv := rearranged_views h
  refine ⟨rearranged_objectLike h hs.1, views_strings (by decide) hv hs.2.1,
    rearranged_mem (hv "tracknumber" (by decide)) (null_or (unarranged_number _)) hs.2.2.1, rearranged_mem (hv "events" (by decide)) ?_ hs.2.2.2⟩
  rintro x y hx (rfl | ⟨l, rfl⟩)
  · exact .inl (rearranged_null hx rfl)
  · obtain ⟨l', rfl, _⟩ := rearranged_arr hx
    exact .inr ⟨l', rfl⟩

theorem rearranged_document {j k : Json} (h : Rearranged j k) {f d : Nat} {ts : List (List Event)} (hs : DocumentSays j f d ts) :
    DocumentSays k f d ts := by
  have hv := rearranged_views h
  obtain ⟨⟨h1, h2, h3, h4, h5⟩, h6, h7⟩ := hs
  have ht := sameViews_together (name := "header") (by decide) hv
  refine ⟨⟨rearranged_mem (hv "header" (by decide)) (fun _ _ => rearranged_objectLike) h1, rearranged_lastIs unarranged_string (ht "tag" (by decide)) h2,
    rearranged_lastIs (unarranged_number _) (ht "format" (by decide)) h3, rearranged_lastIs (unarranged_number _) (ht "PPQN" (by decide)) h4, h5⟩,
    rearranged_mem (hv "tracks" (by decide)) ?_ h6, ?_⟩
  · rintro x y hx (rfl | ⟨l, rfl, hl⟩)
    · exact .inl (rearranged_null hx rfl)
    · obtain ⟨l', rfl, hl'⟩ := rearranged_arr hx
      exact .inr ⟨l', rfl, rearranged_mem hl' (fun _ _ => rearranged_trackLike) hl⟩
  · have hts := tracksOf_rearranged hv
    clear h6
    generalize tracksOf j = as at hts h7
    generalize tracksOf k = bs at hts ⊢
    induction hts generalizing ts with
    | nil => exact h7
    | cons a _ ih =>
      cases h7 with
      | cons e1 e2 => exact .cons (views_track a e1) (ih e2)

/-! ### The property -/

/-- **C172.** The order of the members, the case of their names and members that mean nothing do not change the assembled file. -/
theorem C172_same_file (mc mc' : MiddleC) {j k : Json} (h : Rearranged j k) (b : Bytes) : assembleJson mc j = .ok b ↔ assembleJson mc' k = .ok b := by
  rw [C137_json_file, C137_json_file]
  exact ⟨fun ⟨f, d, ts, cs, h1, h2⟩ => ⟨f, d, ts, cs, rearranged_document h h1, h2⟩,
    fun ⟨f, d, ts, cs, h1, h2⟩ => ⟨f, d, ts, cs, rearranged_document h.back h1, h2⟩⟩

/-- **C172.** The same for texts, with any spaces and line ends and anything behind the documents. -/
theorem C172_same_file_text (mc mc' : MiddleC) {ms ms' : List (List Nat × Json)} (h : Rearranged (.obj ms) (.obj ms')) (a s rest a' s' rest' : Bytes)
    (ha : Space a) (ha' : Space a') (hs : JsonText CharsRead (.obj ms) s) (hs' : JsonText CharsRead (.obj ms') s') (hd : nesting (.obj ms) ≤ 10000)
    (hd' : nesting (.obj ms') ≤ 10000) (b : Bytes) :
    assembleJsonText mc (a ++ s ++ rest) = .ok b ↔ assembleJsonText mc' (a' ++ s' ++ rest') = .ok b := by
  unfold assembleJsonText
  rw [readJson_text read_readable ha hs hd (by intro lit h; cases h), readJson_text read_readable ha' hs' hd' (by intro lit h; cases h)]
  exact C172_same_file mc mc' h b

/-- **C172.** The members of an object whose names are all different can be put in any order. -/
theorem C172_any_order (a b : List (List Nat × Json)) {ms ms' : List (List Nat × Json)} (h : ms.Perm ms')
    (hd : ms.Pairwise fun x y => x.1.map lowerCase ≠ y.1.map lowerCase) : Rearranged (.obj (a ++ ms ++ b)) (.obj (a ++ ms' ++ b)) := by
  induction h generalizing a with
  | nil => exact .same _
  | cons x _ ih =>
    have := ih (a ++ [x]) (List.pairwise_cons.mp hd).2
    simpa using this
  | swap x y l =>
    have hne := (List.pairwise_cons.mp hd).1 x (by simp)
    have := Rearranged.order a (l ++ b) y.1 x.1 y.2 x.2 hne
    simpa using this
  | trans h1 _ ih1 ih2 => exact (ih1 a hd).trans (ih2 a (h1.pairwise hd fun h => h.symm))

/-- **C172.** The same with the program: two files of JSON with the same document, rearranged. -/
theorem C172_two_runs (w w' : World) (args argv args' argv' : List Bytes) (s s' : List (Bytes × FlagValue)) (r r' : List Bytes)
    (hi : Invokes .assemble args argv) (hl : CommandLine (options .assemble) args s r)
    (hi' : Invokes .assemble args' argv') (hl' : CommandLine (options .assemble) args' s' r')
    (a doc rest a' doc' rest' : Bytes) (hr : r.headD [] ≠ []) (hrd : w.read (r.headD []) = some (a ++ doc ++ rest))
    (hext : extPath (r.headD []) = str ".json") (hr' : r'.headD [] ≠ []) (hrd' : w'.read (r'.headD []) = some (a' ++ doc' ++ rest'))
    (hext' : extPath (r'.headD []) = str ".json") {ms ms' : List (List Nat × Json)} (h : Rearranged (.obj ms) (.obj ms')) (ha : Space a) (ha' : Space a')
    (hs : JsonText CharsRead (.obj ms) doc) (hs' : JsonText CharsRead (.obj ms') doc') (hd : nesting (.obj ms) ≤ 10000)
    (hd' : nesting (.obj ms') ≤ 10000) (out out' : Bytes) (ho : Output s out) (hc : w.create out = true) (ho' : Output s' out')
    (hc' : w'.create out' = true) (mc : MiddleC) (file : Bytes) (hrun : assembleJsonText mc (a ++ doc ++ rest) = .ok file) :
    midiasm w argv = ⟨[(out, file)], [], .success⟩ ∧ midiasm w' argv' = ⟨[(out', file)], [], .success⟩ := by
  constructor
  · rw [midiasm_runs hi hl, does_assemble hr hrd, if_pos hext,
      (C172_same_file_text mc (middleC s) (.same _) a doc rest a doc rest ha ha hs hs hd hd file).1 hrun]
    exact save_ok_out ho hc
  · rw [midiasm_runs hi' hl', does_assemble hr' hrd', if_pos hext',
      (C172_same_file_text mc (middleC s') h a doc rest a' doc' rest' ha ha' hs hs' hd hd' file).1 hrun]
    exact save_ok_out ho' hc'

/-! ### Examples -/

/-- `bendDocument` with the tracks before the header, the members of the header and of the event in another order, a name in capitals and a comment
in the event. -/
def bendRearranged : Json :=
  jobj [("tracks", .arr [jobj [("tag", .str (runes (str "MTrk"))), ("events", .arr [
      jobj [("event", jobj [("comment", .arr []), ("bend", .num (str "100")), ("CHANNEL", .num (str "3")), ("tag", .str (runes (str "PitchBend"))),
        ("delta", .num (str "7"))])],
      jobj [("event", jobj [("tag", .str (runes (str "EndOfTrack")))])]])]]),
    ("header", jobj [("PPQN", .num (str "96")), ("tag", .str (runes (str "MThd"))), ("format", .num (str "0"))])]

/-- C172: it is a rearrangement, and both documents are assembled to the same file. -/
theorem bend_rearranged : Rearranged bendDocument bendRearranged := by
  unfold bendDocument bendRearranged jobj
  simp only [List.map_cons, List.map_nil]
  have hdr : Rearranged (.obj [(runes (str "tag"), .str (runes (str "MThd"))), (runes (str "format"), .num (str "0")), (runes (str "PPQN"), .num (str "96"))])
      (.obj [(runes (str "PPQN"), .num (str "96")), (runes (str "tag"), .str (runes (str "MThd"))), (runes (str "format"), .num (str "0"))]) := by
    refine (Rearranged.order [_] [] _ _ _ _ ?_).trans (Rearranged.order [] [_] _ _ _ _ ?_) <;> decide +kernel
  have ev : Rearranged (.obj [(runes (str "tag"), .str (runes (str "PitchBend"))), (runes (str "delta"), .num (str "7")),
        (runes (str "channel"), .num (str "3")), (runes (str "bend"), .num (str "100"))])
      (.obj [(runes (str "comment"), .arr []), (runes (str "bend"), .num (str "100")), (runes (str "CHANNEL"), .num (str "3")),
        (runes (str "tag"), .str (runes (str "PitchBend"))), (runes (str "delta"), .num (str "7"))]) := by
    refine Rearranged.trans ?_ (Rearranged.meaningless [] _ (runes (str "comment")) (.arr []) (by decide +kernel))
    refine Rearranged.trans ?_ (Rearranged.spelling [_] _ (runes (str "channel")) _ _ (by decide +kernel))
    have hp := C172_any_order [] [] ((List.perm_append_comm (l₁ := [(runes (str "tag"), Json.str (runes (str "PitchBend"))), (runes (str "delta"), .num (str "7"))])
      (l₂ := [(runes (str "channel"), .num (str "3")), (runes (str "bend"), .num (str "100"))])).trans (List.Perm.swap _ _ _))
    simp only [List.append_nil, List.nil_append, List.cons_append] at hp
    exact hp (by decide +kernel)
  refine Rearranged.trans (Rearranged.order [] [] _ _ _ _ (by decide +kernel)) ?_
  refine Rearranged.trans (Rearranged.member [_] [] _ hdr) ?_
  refine Rearranged.member [] [_] _ (Rearranged.element [] [] (Rearranged.member [_] [] _ (Rearranged.element [] [_] (Rearranged.member [] [] _ ev))))

example : assembleJson .c3 bendDocument =
      .ok [0x4d, 0x54, 0x68, 0x64, 0, 0, 0, 6, 0, 0, 0, 1, 0, 96, 0x4d, 0x54, 0x72, 0x6b, 0, 0, 0, 8, 7, 0xe3, 0, 0x64, 0, 0xff, 0x2f, 0] ∧
    assembleJson .c4 bendRearranged = assembleJson .c3 bendDocument := by
  obtain ⟨b, h1, h2⟩ := Outcome.of_test (o := assembleJson .c3 bendDocument)
    (p := fun b => decide (b = [0x4d, 0x54, 0x68, 0x64, 0, 0, 0, 6, 0, 0, 0, 1, 0, 96, 0x4d, 0x54, 0x72, 0x6b, 0, 0, 0, 8, 7, 0xe3, 0, 0x64, 0, 0xff, 0x2f, 0]))
    (by decide +kernel)
  have h2 := of_decide_eq_true h2
  exact ⟨by rw [h1, h2], by rw [(C172_same_file .c3 .c4 bend_rearranged b).1 h1, h1]⟩

/-- A document that states the division twice. -/
def twiceDivided (first second : String × Json) : Json :=
  jobj [("header", jobj [("tag", jstr (str "MThd")), ("format", jnum 0), first, second]),
    ("tracks", .arr [jobj [("tag", jstr (str "MTrk")), ("events", .arr [jobj [("event", jobj [("tag", jstr (str "EndOfTrack"))])]])]])]

/-- **C172.** Members of the same name are another matter: the last one counts, so their order changes the file. -/
theorem C172_same_name : ∃ b c, assembleJson .c3 (twiceDivided ("PPQN", jnum 96) ("ppqn", jnum 480)) = .ok b ∧
    assembleJson .c3 (twiceDivided ("ppqn", jnum 480) ("PPQN", jnum 96)) = .ok c ∧ b ≠ c := by
  obtain ⟨b, h1, h2⟩ := Outcome.of_test (o := assembleJson .c3 (twiceDivided ("PPQN", jnum 96) ("ppqn", jnum 480)))
    (p := fun b => decide (b[13]? = some 224)) (by decide +kernel)
  obtain ⟨c, h3, h4⟩ := Outcome.of_test (o := assembleJson .c3 (twiceDivided ("ppqn", jnum 480) ("PPQN", jnum 96)))
    (p := fun b => decide (b[13]? = some 96)) (by decide +kernel)
  refine ⟨b, c, h1, h3, ?_⟩
  rintro rfl
  have e := (of_decide_eq_true h2).symm.trans (of_decide_eq_true h4)
  exact absurd e (by decide)

end Midiasm
