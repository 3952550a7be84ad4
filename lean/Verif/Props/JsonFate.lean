import Verif.Spec.Json
import Verif.Lemmas.Slices
import Verif.Props.AssembleJson
import Verif.Props.AssembleFate

/-!
C59 and C60 for JSON documents.
-/

set_option linter.unusedSimpArgs false

namespace Midiasm
open Spec

/-! ### Members -/

theorem bound_ok {α β : Type} {o : Outcome α} {f : α → Outcome β} {b : β} (h : (o >>= f) = .ok b) : ∃ a, o = .ok a ∧ f a = .ok b := by
  cases o with
  | ok a => exact ⟨a, rfl, h⟩
  | _ => cases h

theorem fold_lower (a b : Nat) : foldRune a = foldRune b ↔ lowerCase a = lowerCase b := by
  unfold foldRune lowerCase
  repeat' split
  all_goals omega

theorem map_fold (l m : List Nat) : l.map foldRune = m.map foldRune ↔ l.map lowerCase = m.map lowerCase := by
  induction l generalizing m with
  | nil => cases m <;> simp
  | cons a l ih =>
    cases m with
    | nil => simp
    | cons b m => simp only [List.map_cons, List.cons.injEq, fold_lower, ih]

theorem keyIs_iff (name : String) (key : List Nat) : keyIs name key = true ↔ SameName name key := by
  unfold keyIs SameName
  rw [beq_iff_eq, map_fold]
  have : runes (str name) = name.toList.map fun c => c.val.toNat := by
    rw [← runes_chars]
    rfl
  rw [this, List.map_map]
  rfl

theorem tame_field {α : Type} (d : α → Json → Outcome α) (name : String) (cur : α) (j : Json) (hd : ∀ a v, Tame (d a v)) :
    Tame (field d name cur j) := by
  cases j with
  | obj ms =>
    simp only [field]
    generalize ms.filter (fun m => keyIs name m.1) = l
    induction l generalizing cur with
    | nil => trivial
    | cons m l ih =>
      rw [List.foldlM_cons]
      exact tame_bind (hd _ _) fun a _ => ih a
  | _ => trivial

/-- Members read one after the other. -/
theorem field_append {α : Type} (d : α → Json → Outcome α) (name : String) (cur : α) (a b : List (List Nat × Json)) :
    field d name cur (.obj (a ++ b)) = field d name cur (.obj a) >>= fun c => field d name c (.obj b) := by
  simp only [field, List.filter_append, foldlM_snoc]

/-- Only objects and `null` have fields. -/
theorem field_members {α : Type} (d : α → Json → Outcome α) (name : String) (cur r : α) (j : Json) (h : field d name cur j = .ok r) :
    field d name cur (.obj (membersOf j)) = .ok r ∧ (j = .null ∨ j = .obj (membersOf j)) := by
  cases j with
  | null => exact ⟨h, Or.inl rfl⟩
  | obj ms => exact ⟨h, Or.inr rfl⟩
  | _ => cases h

/-- A field is read from the values of the members of its name. -/
theorem field_values {α : Type} (d : α → Json → Outcome α) (name : String) (cur : α) (ms : List (List Nat × Json)) :
    field d name cur (.obj ms) = (valuesOf name (.obj ms)).foldlM d cur := by
  have he : (ms.filter fun m => keyIs name m.1) = ms.filter fun m => SameName name m.1 := by
    apply List.filter_congr
    intro m _
    rw [Bool.eq_iff_iff, keyIs_iff, decide_eq_true_eq]
  simp only [field, he]
  unfold valuesOf
  rw [foldlM_map']
  rfl

theorem values_of {α : Type} (d : α → Json → Outcome α) (name : String) (cur r : α) (j : Json) (h : field d name cur j = .ok r) :
    (valuesOf name j).foldlM d cur = .ok r := by
  have := (field_members _ _ _ _ _ h).1
  rw [field_values] at this
  exact this

/-- What is in a field comes from the last member of that name. -/
theorem field_latest {α : Type} (missing : Json → Prop) (d : α → Json → Outcome α) (name : String) (cur : α) (j : Json) (r : α)
    (hd : ∀ a v b, missing v → d a v = .ok b → b = a) (h : field d name cur j = .ok r) :
    (∃ v a, Latest missing name j v ∧ d a v = .ok r) ∨ r = cur ∧ ∀ v, Member name j v → missing v := by
  cases j with
  | null =>
    injection h with h
    refine Or.inr ⟨h.symm, fun v hm => ?_⟩
    obtain ⟨ms, key, he, _⟩ := hm
    cases he
  | obj ms =>
    simp only [field] at h
    induction ms using List.reverseRecOn generalizing r with
    | nil =>
      simp only [List.filter_nil, List.foldlM_nil] at h
      injection h with h
      refine Or.inr ⟨h.symm, fun v hm => ?_⟩
      obtain ⟨ms, key, he, hm, _⟩ := hm
      injection he with he
      subst he
      simp at hm
    | append_singleton ms m ih =>
      have up : ∀ v, (missing m.2 ∨ ¬ SameName name m.1) → Latest missing name (.obj ms) v → Latest missing name (.obj (ms ++ [m])) v := by
        rintro v hn ⟨a, key, b, he, h1, h2, h3⟩
        injection he with he
        subst he
        refine ⟨a, key, b ++ [m], by simp, h1, h2, fun x hx hs => ?_⟩
        rcases List.mem_append.mp hx with hx | hx
        · exact h3 x hx hs
        · rw [List.mem_singleton] at hx
          subst hx
          rcases hn with hn | hn
          · exact hn
          · exact absurd hs hn
      have up2 : (missing m.2 ∨ ¬ SameName name m.1) → (∀ v, Member name (.obj ms) v → missing v) → ∀ v, Member name (.obj (ms ++ [m])) v → missing v := by
        rintro hn hall v ⟨l, key, he, hm, hs⟩
        injection he with he
        subst he
        rcases List.mem_append.mp hm with hm | hm
        · exact hall v ⟨ms, key, rfl, hm, hs⟩
        · rw [List.mem_singleton] at hm
          subst hm
          rcases hn with hn | hn
          · exact hn
          · exact absurd hs hn
      rw [List.filter_append, foldlM_snoc] at h
      cases hf : (ms.filter fun m => keyIs name m.1).foldlM (fun a m => d a m.2) cur with
      | ok a =>
        rw [hf, Outcome.bind_ok] at h
        by_cases hk : keyIs name m.1 = true
        · simp only [List.filter_cons, hk, if_true, List.filter_nil, List.foldlM_cons, List.foldlM_nil] at h
          cases hm : d a m.2 with
          | ok b =>
            rw [hm, Outcome.bind_ok] at h
            injection h with h
            subst h
            by_cases hmiss : missing m.2
            · have := hd _ _ _ hmiss hm
              subst this
              rcases ih _ hf with ⟨v, a', h1, h2⟩ | ⟨h1, h2⟩
              · exact Or.inl ⟨v, a', up v (Or.inl hmiss) h1, h2⟩
              · exact Or.inr ⟨h1, up2 (Or.inl hmiss) h2⟩
            · exact Or.inl ⟨m.2, a, ⟨ms, m.1, [], by simp, (keyIs_iff _ _).mp hk, hmiss, by simp⟩, hm⟩
          | err e => rw [hm] at h; cases h
          | panic => rw [hm] at h; cases h
          | diverge => rw [hm] at h; cases h
        · simp only [List.filter_cons, hk, if_false, List.filter_nil, List.foldlM_nil] at h
          have hn : ¬ SameName name m.1 := fun hs => hk ((keyIs_iff _ _).mpr hs)
          injection h with h
          subst h
          rcases ih _ hf with ⟨v, a', h1, h2⟩ | ⟨h1, h2⟩
          · exact Or.inl ⟨v, a', up v (Or.inr hn) h1, h2⟩
          · exact Or.inr ⟨h1, up2 (Or.inr hn) h2⟩
      | err e => rw [hf] at h; cases h
      | panic => rw [hf] at h; cases h
      | diverge => rw [hf] at h; cases h
  | _ => cases h

theorem tame_uintJson (bits cur : Nat) (j : Json) : Tame (uintJson bits cur j) := by
  cases j <;> first | trivial | exact tame_parseUint _ _

theorem tame_stringJson (cur : Bytes) (j : Json) : Tame (stringJson cur j) := by
  cases j <;> trivial

theorem tame_boolJson (cur : Bool) (j : Json) : Tame (boolJson cur j) := by
  cases j <;> trivial

theorem tame_int8Json (cur : Int) (j : Json) : Tame (int8Json cur j) := by
  cases j <;> first | trivial | exact tame_parseInt8 _

theorem tame_elementsJson {α : Type} (d : α → Json → Outcome α) (zero : α) (hd : ∀ a j, Tame (d a j)) (cells : List α) (l : List Json) :
    Tame (elementsJson d zero cells l) := by
  induction l generalizing cells with
  | nil => trivial
  | cons j l ih => exact tame_bind (hd _ j) fun _ _ => tame_bind (ih _) fun _ _ => trivial

theorem tame_sliceJson {α : Type} (d : α → Json → Outcome α) (zero : α) (cur : Slice α) (hd : ∀ a j, Tame (d a j)) (j : Json) :
    Tame (sliceJson d zero cur j) := by
  cases j with
  | arr l =>
    cases l with
    | nil => trivial
    | cons j l => exact tame_elementsJson _ _ hd _ _
  | _ => trivial

theorem tame_rawsJson (cur : List Json) (j : Json) : Tame (rawsJson cur j) := by
  cases j <;> trivial

theorem tame_ptrJson {α : Type} (d : α → Json → Outcome α) (zero : α) (cur : Option α) (hd : ∀ a j, Tame (d a j)) (j : Json) :
    Tame (ptrJson d zero cur j) := by
  cases j <;> first | trivial | exact tame_bind (hd _ _) fun _ _ => trivial

theorem amount_field (bits : Nat) (name : String) (j : Json) (n : Nat) (h : field (uintJson bits) name 0 j = .ok n) :
    Amount name j n ∧ n < 2 ^ bits := by
  rcases field_latest (· = .null) (uintJson bits) name 0 j n (by
    rintro a v b rfl h
    injection h with h
    exact h.symm) h with ⟨v, a, h1, h2⟩ | ⟨h1, h2⟩
  · cases v with
    | num lit =>
      obtain ⟨q1, q2⟩ := parseUint_numeral h2
      exact ⟨Or.inl ⟨lit, h1, q1⟩, q2⟩
    | null =>
      obtain ⟨_, _, _, _, _, h, _⟩ := h1
      exact absurd rfl h
    | _ => cases h2
  · subst h1
    exact ⟨Or.inr ⟨rfl, h2⟩, Nat.two_pow_pos _⟩

theorem fate_byte (P Q : Prop) (name : String) (j : Json) : Fate P Q (fun b => Amount name j b.toNat) (byteField name j) := by
  unfold byteField
  refine fate_bind (fate_tame (tame_field _ _ _ _ fun _ _ => tame_uintJson _ _ _)) fun v hv _ => ?_
  obtain ⟨h1, h2⟩ := amount_field _ _ _ _ hv
  show Amount name j (UInt8.ofNat v).toNat
  rw [UInt8.toNat_ofNat', Nat.mod_eq_of_lt h2]
  exact h1

theorem parseInt8_numeral {s : Bytes} {n : Int} (h : parseInt8 s = .ok n) :
    (∃ k, Numeral s k ∧ n = k ∨ ∃ ds, s = 45 :: ds ∧ Numeral ds k ∧ n = -k) ∧ -128 ≤ n ∧ n ≤ 127 := by
  unfold parseInt8 at h
  split at h
  · split at h
    · cases h
    · rename_i rest hr
      split at h
      · rename_i v hv
        split at h
        · injection h with h
          refine ⟨⟨v, Or.inr ⟨rest, rfl, ⟨hr, (digitsValue_fold _ 0 _ hv).1, (digitsValue_fold _ 0 _ hv).2⟩, h.symm⟩⟩, ?_⟩
          omega
        · cases h
      · cases h
  · split at h
    · cases h
    · rename_i hs
      split at h
      · rename_i v hv
        split at h
        · injection h with h
          refine ⟨⟨v, Or.inl ⟨⟨hs, (digitsValue_fold _ 0 _ hv).1, (digitsValue_fold _ 0 _ hv).2⟩, h.symm⟩⟩, ?_⟩
          omega
        · cases h
      · cases h

theorem signed_field (name : String) (j : Json) (n : Int) (h : field int8Json name 0 j = .ok n) : SignedAmount name j n ∧ -128 ≤ n ∧ n ≤ 127 := by
  rcases field_latest (· = .null) int8Json name 0 j n (by
    rintro a v b rfl h
    injection h with h
    exact h.symm) h with ⟨v, a, h1, h2⟩ | ⟨h1, h2⟩
  · cases v with
    | num lit =>
      obtain ⟨⟨k, q1⟩, q2⟩ := parseInt8_numeral h2
      exact ⟨Or.inl ⟨lit, k, h1, q1⟩, q2⟩
    | null =>
      obtain ⟨_, _, _, _, _, h, _⟩ := h1
      exact absurd rfl h
    | _ => cases h2
  · subst h1
    exact ⟨Or.inr ⟨rfl, h2⟩, by decide, by decide⟩

theorem fate_prologue (P Q : Prop) (tag : String) (ht : str tag ≠ []) (j : Json) : Fate P Q (fun _ => Tagged tag j) (prologueJson tag j) := by
  unfold prologueJson
  refine fate_bind (fate_tame (tame_field _ _ _ _ tame_stringJson)) fun t h _ => ?_
  refine fate_bind (fate_tame (tame_field _ _ _ _ fun _ _ => tame_uintJson _ _ _)) fun d _ _ => ?_
  split
  · trivial
  · rename_i he
    rw [Classical.not_not] at he
    subst he
    rcases field_latest (· = .null) stringJson "tag" [] j _ (by
      rintro a v b rfl h
      injection h with h
      exact h.symm) h with ⟨v, a, h1, h2⟩ | ⟨h1, _⟩
    · cases v with
      | str s =>
        injection h2 with h2
        exact ⟨s, h1, h2⟩
      | null =>
        obtain ⟨_, _, _, _, _, h, _⟩ := h1
        exact absurd rfl h
      | _ => cases h2
    · exact absurd h1 ht

theorem tame_bytesJson (j : Json) : Tame (bytesJson j) :=
  tame_bind (tame_sliceJson _ _ _ (fun _ _ => tame_uintJson _ _ _) j) fun _ _ => trivial

theorem tame_manufacturerJson (cur : Lib.Manufacturer) (j : Json) : Tame (manufacturerJson cur j) :=
  tame_bind (tame_field _ _ _ _ fun _ j => tame_sliceJson _ _ _ (fun _ _ => tame_uintJson _ _ _) j) fun _ _ => trivial

theorem tame_noteJson (cur : UInt8) (j : Json) : Tame (noteJson cur j) :=
  tame_bind (tame_field _ _ _ _ fun _ _ => tame_uintJson _ _ _) fun _ _ => tame_bind (tame_field _ _ _ _ tame_stringJson) fun _ _ =>
    tame_bind (tame_field _ _ _ _ tame_stringJson) fun _ _ => trivial

theorem tame_controllerJson (cur : Lib.Controller) (j : Json) : Tame (controllerJson cur j) :=
  tame_bind (tame_field _ _ _ _ fun _ _ => tame_uintJson _ _ _) fun _ _ => tame_bind (tame_field _ _ _ _ tame_stringJson) fun _ _ => trivial

theorem tame_channelJson (cur : UInt8) (j : Json) : Tame (channelJson cur j) :=
  tame_bind (tame_uintJson _ _ _) fun _ _ => by split <;> trivial

theorem fate_channel (P Q : Prop) (j : Json) : Fate P Q (fun ch : UInt8 => ¬ ch > 15) (field channelJson "channel" 0 j) := by
  refine fate_mono (fate_tame (P := P) (Q := Q) (tame_field _ _ _ _ tame_channelJson)) id id fun ch h _ => ?_
  rcases field_latest (fun _ => False) channelJson "channel" 0 j ch (by simp) h with ⟨v, a, _, h2⟩ | ⟨h1, _⟩
  · unfold channelJson at h2
    cases hu : uintJson 64 0 v with
    | ok n =>
      rw [hu, Outcome.bind_ok] at h2
      split at h2
      · cases h2
      · rename_i hn
        injection h2 with h2
        subst h2
        rw [gt_iff_lt, UInt8.lt_iff_toNat_lt, UInt8.toNat_ofNat']
        have : (15 : UInt8).toNat = 15 := rfl
        omega
    | err e => rw [hu] at h2; cases h2
    | panic => rw [hu] at h2; cases h2
    | diverge => rw [hu] at h2; cases h2
  · subst h1
    decide

/-- What reading an event may do. -/
abbrev EventFate (j : Json) (o : Outcome (UInt32 × Body)) : Prop := Fate (Fatal j) (Endless j) (fun r => r.2.Writable) o

theorem tag_ne (tag : String) (h : (str tag).isEmpty = false) : str tag ≠ [] := by
  intro e
  rw [e] at h
  cases h

theorem fate_short (P Q : Prop) (name : String) (j : Json) : Fate P Q (fun _ => True) (shortField name j) :=
  fate_tame (tame_bind (tame_field _ _ _ _ fun _ _ => tame_uintJson _ _ _) fun _ _ => trivial)

theorem gt127 (v : UInt8) (h : v > 127) : 127 < v.toNat := by
  rw [gt_iff_lt, UInt8.lt_iff_toNat_lt] at h
  exact h

theorem fate_noteOn (mc : MiddleC) (j : Json) : EventFate j (jsonNoteOn mc j) := by
  unfold jsonNoteOn
  refine fate_bind (fate_prologue _ _ _ (tag_ne _ (by decide +kernel)) j) fun delta _ ht => ?_
  refine fate_bind (fate_channel _ _ j) fun ch _ hch => ?_
  refine fate_bind (fate_tame (tame_field _ _ _ _ tame_noteJson)) fun n _ _ => ?_
  refine fate_bind (fate_byte _ _ _ _) fun v _ hv => ?_
  refine fate_bind (R := fun b => b.Writable) ?_ fun b _ hb => hb
  unfold makeNoteOn
  rw [if_neg hch]
  split
  · exact Or.inr (Or.inr (Or.inl ⟨ht, _, hv, gt127 _ ‹_›⟩))
  · trivial

theorem fate_polyphonicPressure (j : Json) : EventFate j (jsonPolyphonicPressure j) := by
  unfold jsonPolyphonicPressure
  refine fate_bind (fate_prologue _ _ _ (tag_ne _ (by decide +kernel)) j) fun delta _ ht => ?_
  refine fate_bind (fate_channel _ _ j) fun ch _ hch => ?_
  refine fate_bind (fate_byte _ _ _ _) fun v _ hv => ?_
  refine fate_bind (R := fun b => b.Writable) ?_ fun b _ hb => hb
  unfold makePolyphonicPressure
  rw [if_neg hch]
  split
  · exact Or.inr (Or.inr (Or.inr (Or.inl ⟨ht, _, hv, gt127 _ ‹_›⟩)))
  · trivial

theorem fate_channelPressure (j : Json) : EventFate j (jsonChannelPressure j) := by
  unfold jsonChannelPressure
  refine fate_bind (fate_prologue _ _ _ (tag_ne _ (by decide +kernel)) j) fun delta _ ht => ?_
  refine fate_bind (fate_channel _ _ j) fun ch _ hch => ?_
  refine fate_bind (fate_byte _ _ _ _) fun v _ hv => ?_
  refine fate_bind (R := fun b => b.Writable) ?_ fun b _ hb => hb
  unfold makeChannelPressure
  rw [if_neg hch]
  split
  · exact Or.inr (Or.inr (Or.inr (Or.inr ⟨ht, _, hv, gt127 _ ‹_›⟩)))
  · trivial

theorem fate_timeSignature (j : Json) : EventFate j (jsonTimeSignature j) := by
  unfold jsonTimeSignature
  refine fate_bind (fate_prologue _ _ _ (tag_ne _ (by decide +kernel)) j) fun delta _ ht => ?_
  refine fate_bind (fate_byte _ _ _ _) fun num _ _ => ?_
  refine fate_bind (fate_byte _ _ _ _) fun den _ hden => ?_
  refine fate_bind (fate_byte _ _ _ _) fun _ _ _ => ?_
  refine fate_bind (fate_byte _ _ _ _) fun _ _ _ => ?_
  refine fate_bind (R := fun b => b.Writable) ?_ fun b _ hb => hb
  unfold makeTimeSignature
  have key : ∀ x : UInt8, (match denomLoop x 8 1 0 with | .ok _ => decide (x.toNat ≤ 128) | .diverge => decide (128 < x.toNat) | _ => false) = true :=
    all8 (by decide +kernel)
  have hk := key den
  cases hl : denomLoop den 8 1 0 with
  | ok n =>
    rw [hl] at hk
    rw [Outcome.bind_ok]
    show den.toNat ≤ 128
    exact of_decide_eq_true hk
  | diverge =>
    rw [hl] at hk
    exact ⟨ht, _, hden, of_decide_eq_true hk, den.toNat_lt⟩
  | err e => trivial
  | panic => rw [hl] at hk; cases hk

theorem fate_smpteOffset (j : Json) : EventFate j (jsonSMPTEOffset j) := by
  unfold jsonSMPTEOffset
  refine fate_bind (fate_prologue _ _ _ (tag_ne _ (by decide +kernel)) j) fun delta _ ht => ?_
  refine fate_bind (fate_byte _ _ _ _) fun h _ hh => ?_
  refine fate_bind (fate_byte _ _ _ _) fun m _ hm => ?_
  refine fate_bind (fate_byte _ _ _ _) fun s _ hs => ?_
  refine fate_bind (fate_byte _ _ _ _) fun r _ hr => ?_
  refine fate_bind (fate_byte _ _ _ _) fun f _ hf => ?_
  refine fate_bind (fate_byte _ _ _ _) fun ff _ hff => ?_
  refine fate_bind (R := fun b => b.Writable) ?_ fun b _ hb => hb
  have bad : (24 < h.toNat ∨ 59 < m.toNat ∨ 59 < s.toNat ∨ (r.toNat ≠ 24 ∧ r.toNat ≠ 25 ∧ r.toNat ≠ 29 ∧ r.toNat ≠ 30) ∨ r.toNat ≤ f.toNat ∨ 100 < ff.toNat) →
      Fatal j := fun hb => Or.inl ⟨ht, _, _, _, _, _, _, hh, hm, hs, hr, hf, hff, hb⟩
  unfold makeSMPTEOffset
  split
  · rename_i h1; rw [gt_iff_lt, UInt8.lt_iff_toNat_lt] at h1; exact bad (Or.inl h1)
  split
  · rename_i h1; rw [gt_iff_lt, UInt8.lt_iff_toNat_lt] at h1; exact bad (Or.inr (Or.inl h1))
  split
  · rename_i h1; rw [gt_iff_lt, UInt8.lt_iff_toNat_lt] at h1; exact bad (Or.inr (Or.inr (Or.inl h1)))
  split
  · rename_i h1
    rw [ne_eq, ne_eq, ne_eq, ne_eq, ← UInt8.toNat_inj, ← UInt8.toNat_inj, ← UInt8.toNat_inj, ← UInt8.toNat_inj] at h1
    exact bad (Or.inr (Or.inr (Or.inr (Or.inl h1))))
  split
  · rename_i h1; rw [ge_iff_le, UInt8.le_iff_toNat_le] at h1; exact bad (Or.inr (Or.inr (Or.inr (Or.inr (Or.inl h1)))))
  split
  · rename_i h1; rw [gt_iff_lt, UInt8.lt_iff_toNat_lt] at h1; exact bad (Or.inr (Or.inr (Or.inr (Or.inr (Or.inr h1)))))
  trivial

theorem fate_keySignature (j : Json) : EventFate j (jsonKeySignature j) := by
  unfold jsonKeySignature
  refine fate_bind (fate_prologue _ _ _ (tag_ne _ (by decide +kernel)) j) fun delta _ ht => ?_
  refine fate_bind (fate_tame (tame_field _ _ _ _ tame_int8Json)) fun a ha _ => ?_
  obtain ⟨h1, h2, h3⟩ := signed_field _ _ _ ha
  refine fate_bind (fate_byte _ _ _ _) fun k _ hk => ?_
  refine fate_bind (R := fun b => b.Writable) ?_ fun b _ hb => hb
  have bad : (a < -7 ∨ 7 < a ∨ 1 < k.toNat) → Fatal j := fun hb => Or.inr (Or.inl ⟨ht, _, _, h1, hk, hb⟩)
  by_cases hb : a < -7 ∨ 7 < a ∨ 1 < k.toNat
  · generalize Int8.ofInt a = i
    unfold makeKeySignature
    repeat' split
    all_goals first | trivial | exact bad hb
  · have e : a = -7 ∨ a = -6 ∨ a = -5 ∨ a = -4 ∨ a = -3 ∨ a = -2 ∨ a = -1 ∨ a = 0 ∨ a = 1 ∨ a = 2 ∨ a = 3 ∨ a = 4 ∨ a = 5 ∨ a = 6 ∨ a = 7 := by omega
    have e2 : k = 0 ∨ k = 1 := by
      rw [← UInt8.toNat_inj, ← UInt8.toNat_inj]
      show k.toNat = 0 ∨ k.toNat = 1
      omega
    have : (makeKeySignature (Int8.ofInt a) k).test (fun b => match b with | .keySignature .. => true | _ => false) = true := by
      rcases e with rfl | rfl | rfl | rfl | rfl | rfl | rfl | rfl | rfl | rfl | rfl | rfl | rfl | rfl | rfl <;> rcases e2 with rfl | rfl <;> decide +kernel
    obtain ⟨b, hb1, hb2⟩ := Outcome.of_test this
    rw [hb1]
    cases b <;> trivial

theorem fate_case (mc : MiddleC) (j : Json) : ∀ c ∈ jsonCases mc, EventFate j (c.2 j) := by
  have text : ∀ k, EventFate j (jsonText k j) := by
    intro k
    unfold jsonText
    refine fate_bind (fate_prologue _ _ _ (tag_ne _ (by cases k <;> decide +kernel)) j) fun delta _ _ => ?_
    exact fate_bind (fate_tame (tame_field _ _ _ _ tame_stringJson)) fun _ _ _ => trivial
  intro c hc
  unfold jsonCases at hc
  simp only [List.mem_cons, List.not_mem_nil, or_false] at hc
  rcases hc with rfl | rfl | rfl | rfl | rfl | rfl | rfl | rfl | rfl | rfl | rfl | rfl | rfl | rfl | rfl | rfl | rfl | rfl | rfl | rfl | rfl | rfl | rfl |
    rfl | rfl | rfl | rfl | rfl
  · show EventFate j (jsonSequenceNumber j)
    unfold jsonSequenceNumber
    refine fate_bind (fate_prologue _ _ _ (tag_ne _ (by decide +kernel)) j) fun delta _ _ => ?_
    exact fate_bind (fate_short _ _ _ _) fun _ _ _ => trivial
  · exact text _
  · exact text _
  · exact text _
  · exact text _
  · exact text _
  · exact text _
  · exact text _
  · exact text _
  · exact text _
  · show EventFate j (jsonMIDIChannelPrefix j)
    unfold jsonMIDIChannelPrefix
    refine fate_bind (fate_prologue _ _ _ (tag_ne _ (by decide +kernel)) j) fun delta _ _ => ?_
    refine fate_bind (fate_byte _ _ _ _) fun ch _ _ => ?_
    split
    · trivial
    · rename_i h
      unfold makeMIDIChannelPrefix
      rw [if_neg h]
      trivial
  · show EventFate j (jsonMIDIPort j)
    unfold jsonMIDIPort
    refine fate_bind (fate_prologue _ _ _ (tag_ne _ (by decide +kernel)) j) fun delta _ _ => ?_
    refine fate_bind (fate_byte _ _ _ _) fun ch _ _ => ?_
    split
    · trivial
    · rename_i h
      unfold makeMIDIPort
      rw [if_neg h]
      trivial
  · show EventFate j (jsonTempo j)
    unfold jsonTempo
    refine fate_bind (fate_prologue _ _ _ (tag_ne _ (by decide +kernel)) j) fun delta _ _ => ?_
    exact fate_bind (fate_tame (tame_field _ _ _ _ fun _ _ => tame_uintJson _ _ _)) fun _ _ _ => trivial
  · exact fate_timeSignature j
  · exact fate_keySignature j
  · exact fate_smpteOffset j
  · show EventFate j (jsonEndOfTrack j)
    unfold jsonEndOfTrack
    exact fate_bind (fate_prologue _ _ _ (tag_ne _ (by decide +kernel)) j) fun delta _ _ => trivial
  · show EventFate j (jsonSequencerSpecific j)
    unfold jsonSequencerSpecific
    refine fate_bind (fate_prologue _ _ _ (tag_ne _ (by decide +kernel)) j) fun delta _ _ => ?_
    refine fate_bind (fate_tame (tame_field _ _ _ _ tame_manufacturerJson)) fun _ _ _ => ?_
    exact fate_bind (fate_tame (tame_field _ _ _ _ fun _ => tame_bytesJson)) fun _ _ _ => trivial
  · show EventFate j (jsonNoteOff mc j)
    unfold jsonNoteOff
    refine fate_bind (fate_prologue _ _ _ (tag_ne _ (by decide +kernel)) j) fun delta _ _ => ?_
    refine fate_bind (fate_channel _ _ j) fun _ _ _ => ?_
    refine fate_bind (fate_tame (tame_field _ _ _ _ tame_noteJson)) fun _ _ _ => ?_
    exact fate_bind (fate_byte _ _ _ _) fun _ _ _ => trivial
  · exact fate_noteOn mc j
  · exact fate_polyphonicPressure j
  · show EventFate j (jsonController j)
    unfold jsonController
    refine fate_bind (fate_prologue _ _ _ (tag_ne _ (by decide +kernel)) j) fun delta _ _ => ?_
    refine fate_bind (fate_channel _ _ j) fun ch _ hch => ?_
    refine fate_bind (fate_tame (tame_field _ _ _ _ tame_controllerJson)) fun _ _ _ => ?_
    refine fate_bind (fate_byte _ _ _ _) fun _ _ _ => ?_
    unfold makeController
    rw [if_neg hch]
    trivial
  · show EventFate j (jsonProgramChange j)
    unfold jsonProgramChange
    refine fate_bind (fate_prologue _ _ _ (tag_ne _ (by decide +kernel)) j) fun delta _ _ => ?_
    refine fate_bind (fate_channel _ _ j) fun ch _ hch => ?_
    refine fate_bind (fate_short _ _ _ _) fun _ _ _ => ?_
    refine fate_bind (fate_byte _ _ _ _) fun _ _ _ => ?_
    unfold makeProgramChange
    rw [if_neg hch]
    trivial
  · exact fate_channelPressure j
  · show EventFate j (jsonPitchBend j)
    unfold jsonPitchBend
    refine fate_bind (fate_prologue _ _ _ (tag_ne _ (by decide +kernel)) j) fun delta _ _ => ?_
    refine fate_bind (fate_channel _ _ j) fun ch _ hch => ?_
    refine fate_bind (fate_short _ _ _ _) fun _ _ _ => ?_
    unfold makePitchBend
    rw [if_neg hch]
    trivial
  · show EventFate j (jsonSysExMessage j)
    unfold jsonSysExMessage
    refine fate_bind (fate_prologue _ _ _ (tag_ne _ (by decide +kernel)) j) fun delta _ _ => ?_
    refine fate_bind (fate_tame (tame_field _ _ _ _ tame_manufacturerJson)) fun _ _ _ => ?_
    refine fate_bind (fate_tame (tame_field _ _ _ _ fun _ => tame_bytesJson)) fun _ _ _ => ?_
    exact fate_bind (fate_tame (tame_field _ _ _ _ tame_boolJson)) fun _ _ _ => trivial
  · show EventFate j (jsonSysExContinuation j)
    unfold jsonSysExContinuation
    refine fate_bind (fate_prologue _ _ _ (tag_ne _ (by decide +kernel)) j) fun delta _ _ => ?_
    refine fate_bind (fate_tame (tame_field _ _ _ _ fun _ => tame_bytesJson)) fun _ _ _ => ?_
    exact fate_bind (fate_tame (tame_field _ _ _ _ tame_boolJson)) fun _ _ _ => trivial
  · show EventFate j (jsonSysExEscape j)
    unfold jsonSysExEscape
    refine fate_bind (fate_prologue _ _ _ (tag_ne _ (by decide +kernel)) j) fun delta _ _ => ?_
    exact fate_bind (fate_tame (tame_field _ _ _ _ fun _ => tame_bytesJson)) fun _ _ _ => trivial

/-- Reading one event. -/
theorem fate_eventOfJson (mc : MiddleC) (j : Json) :
    Fate (∃ ev, Last "event" j ev ∧ Fatal ev) (∃ ev, Last "event" j ev ∧ Endless ev) (fun e => e.body.Writable) (eventOfJson mc j) := by
  unfold eventOfJson
  refine fate_bind (fate_tame (tame_field _ _ _ _ fun _ _ => trivial)) fun raw hraw _ => ?_
  cases raw with
  | none => trivial
  | some ev =>
    have hlast : Last "event" j ev := by
      rcases field_latest (fun _ => False) rawJson "event" none j _ (by simp) hraw with ⟨v, a, h1, h2⟩ | ⟨h1, _⟩
      · injection h2 with h2
        injection h2 with h2
        subst h2
        exact h1
      · cases h1
    refine fate_bind (fate_tame (tame_field _ _ _ _ tame_stringJson)) fun tag _ _ => ?_
    split
    · rename_i c hc
      refine fate_bind (fate_mono (fate_case mc ev c (List.mem_of_find?_eq_some hc)) (fun h => ⟨ev, hlast, h⟩) (fun h => ⟨ev, hlast, h⟩) fun _ _ h => h) ?_
      intro r _ hr
      exact hr
    · trivial

theorem fate_parseJsonEvents (mc : MiddleC) (js : List Json) :
    Fate (∃ w ∈ js, ∃ ev, Last "event" w ev ∧ Fatal ev) (∃ w ∈ js, ∃ ev, Last "event" w ev ∧ Endless ev)
      (fun es => es.length = js.length ∧ ∀ e ∈ es, e.body.Writable) (parseJsonEvents mc js) := by
  induction js with
  | nil => exact ⟨rfl, by simp⟩
  | cons j js ih =>
    rw [parseJsonEvents]
    refine fate_bind (fate_mono (fate_eventOfJson mc j) (fun h => ⟨j, by simp, h⟩) (fun h => ⟨j, by simp, h⟩) fun _ _ h => h) ?_
    intro e _ he
    refine fate_bind (fate_mono ih (fun ⟨x, hx, h⟩ => ⟨x, by simp [hx], h⟩) (fun ⟨x, hx, h⟩ => ⟨x, by simp [hx], h⟩) fun _ _ h => h) ?_
    intro es _ ⟨h1, h2⟩
    refine ⟨by simp [h1], ?_⟩
    intro x hx
    rcases List.mem_cons.mp hx with rfl | hx
    · exact he
    · exact h2 x hx

/-- Assembling one track. -/
theorem fate_parseJsonMTrk (mc : MiddleC) (t : TrackFields) :
    Fate (t.events = [] ∨ ∃ w ∈ t.events, ∃ ev, Last "event" w ev ∧ Fatal ev) (∃ w ∈ t.events, ∃ ev, Last "event" w ev ∧ Endless ev)
      (fun m => ∀ e ∈ m.events, e.body.Writable) (parseJsonMTrk mc t) := by
  unfold parseJsonMTrk
  split
  · trivial
  · refine fate_bind (fate_mono (fate_parseJsonEvents mc t.events) Or.inr id fun _ _ h => h) ?_
    intro es _ ⟨h1, h2⟩
    cases es with
    | nil => exact Or.inl (List.eq_nil_of_length_eq_zero h1.symm)
    | cons e es =>
      show ∀ x ∈ _, _
      exact fixContinuations_writable _ (fixMessages_writable _ h2)

theorem fate_parseJsonTracks (mc : MiddleC) (ts : List TrackFields) (h : MThd) (done : List MTrk) (hd : ∀ t ∈ done, ∀ e ∈ t.events, e.body.Writable) :
    Fate (∃ t ∈ ts, t.events = [] ∨ ∃ w ∈ t.events, ∃ ev, Last "event" w ev ∧ Fatal ev) (∃ t ∈ ts, ∃ w ∈ t.events, ∃ ev, Last "event" w ev ∧ Endless ev)
      (fun s => s.mthd ≠ none ∧ ∀ t ∈ s.tracks, ∀ e ∈ t.events, e.body.Writable) (parseJsonTracks mc ts h done) := by
  induction ts generalizing h done with
  | nil => exact ⟨by simp, hd⟩
  | cons t ts ih =>
    rw [parseJsonTracks]
    refine fate_bind (fate_mono (fate_parseJsonMTrk mc t) (fun h => ⟨t, by simp, h⟩) (fun h => ⟨t, by simp, h⟩) fun _ _ h => h) ?_
    intro m _ hm
    refine fate_mono (ih _ _ ?_) (fun ⟨x, hx, h⟩ => ⟨x, by simp [hx], h⟩) (fun ⟨x, hx, h⟩ => ⟨x, by simp [hx], h⟩) fun _ _ h => h
    intro x hx
    rcases List.mem_append.mp hx with hx | hx
    · exact hd x hx
    · rw [List.mem_singleton] at hx
      subst hx
      exact hm

theorem fate_parseJsonMThd (h : HeaderFields) : Tame (parseJsonMThd h) := by
  unfold parseJsonMThd
  split
  · trivial
  split
  · trivial
  split
  · trivial
  rename_i format _ hformat
  split
  · trivial
  rename_i ppqn _
  dsimp only
  generalize UInt16.ofNat ppqn = d
  by_cases hd : d &&& 0x8000 = 0x8000 ∧ fpsOf d = none
  · rw [if_pos hd]; trivial
  · rw [if_neg hd]
    unfold makeMThd
    rw [if_neg]
    · by_cases h0 : d &&& 0x8000 = 0
      · rw [if_pos h0]; trivial
      · rw [if_neg h0]
        cases hfps : fpsOf d with
        | none => exact absurd ⟨division_smpte d h0, hfps⟩ hd
        | some x => trivial
    · have : format = 0 ∨ format = 1 ∨ format = 2 := by omega
      rcases this with rfl | rfl | rfl <;> decide

theorem tame_headerFields (cur : HeaderFields) (j : Json) : Tame (headerFields cur j) :=
  tame_bind (tame_field _ _ _ _ fun c j => tame_ptrJson _ _ c tame_stringJson j) fun _ _ =>
    tame_bind (tame_field _ _ _ _ fun c j => tame_ptrJson _ _ c (fun _ _ => tame_uintJson _ _ _) j) fun _ _ =>
      tame_bind (tame_field _ _ _ _ fun c j => tame_ptrJson _ _ c (fun _ _ => tame_uintJson _ _ _) j) fun _ _ => trivial

theorem tame_trackFields (cur : TrackFields) (j : Json) : Tame (trackFields cur j) :=
  tame_bind (tame_field _ _ _ _ fun c j => tame_ptrJson _ _ c tame_stringJson j) fun _ _ =>
    tame_bind (tame_field _ _ _ _ fun c j => tame_ptrJson _ _ c (fun _ _ => tame_uintJson _ _ _) j) fun _ _ =>
      tame_bind (tame_field _ _ _ _ fun c j => tame_rawsJson c j) fun _ _ => trivial

/-- The events of a track read from JSON. -/
theorem trackFields_events (j : Json) (t : TrackFields) (h : trackFields ⟨none, []⟩ j = .ok t) :
    (t.events = [] ∧ Eventless j) ∨ ∃ es, t.events = es ∧ Last "events" j (.arr es) := by
  unfold trackFields at h
  cases h1 : field (ptrJson stringJson []) "tag" none j with
  | ok tag =>
    simp only at h
    rw [h1, Outcome.bind_ok] at h
    cases h2 : field (ptrJson (uintJson 16) 0) "tracknumber" none j with
    | ok n =>
      rw [h2, Outcome.bind_ok] at h
      cases h3 : field rawsJson "events" [] j with
      | ok events =>
        rw [h3, Outcome.bind_ok] at h
        injection h with h
        subst h
        rcases field_latest (fun _ => False) _ "events" [] j _ (by simp) h3 with ⟨v, a, q1, q2⟩ | ⟨q1, q2⟩
        · cases v with
          | null =>
            injection q2 with q2
            exact Or.inl ⟨q2.symm, Or.inr (Or.inl q1)⟩
          | arr l =>
            injection q2 with q2
            subst q2
            exact Or.inr ⟨_, rfl, q1⟩
          | _ => cases q2
        · exact Or.inl ⟨q1, Or.inl q2⟩
      | err e => rw [h3] at h; cases h
      | panic => rw [h3] at h; cases h
      | diverge => rw [h3] at h; cases h
    | err e => rw [h2] at h; cases h
    | panic => rw [h2] at h; cases h
    | diverge => rw [h2] at h; cases h
  | err e => simp only at h; rw [h1] at h; cases h
  | panic => simp only at h; rw [h1] at h; cases h
  | diverge => simp only at h; rw [h1] at h; cases h

/-- Whether a pointer to a number can be read does not depend on its value before. -/
theorem ptr_again {name : String} {cur r : Option Nat} {ms : List (List Nat × Json)}
    (h : field (ptrJson (uintJson 16) 0) name cur (.obj ms) = .ok r) (cur' : Option Nat) :
    ∃ r', field (ptrJson (uintJson 16) 0) name cur' (.obj ms) = .ok r' := by
  rw [field_values] at h ⊢
  generalize valuesOf name (.obj ms) = vs at h ⊢
  induction vs generalizing cur cur' with
  | nil => exact ⟨_, rfl⟩
  | cons v vs ih =>
    rw [List.foldlM_cons] at h ⊢
    cases v with
    | null => exact ih none h
    | num lit =>
      have e : ∀ c : Option Nat, ptrJson (uintJson 16) 0 c (.num lit) = (parseUint lit 16 >>= fun n => .ok (some n)) := fun _ => rfl
      rw [e] at h ⊢
      cases hp : parseUint lit 16 with
      | ok n =>
        rw [hp] at h
        exact ih _ h
      | _ => rw [hp] at h; cases h
    | _ => cases h

theorem track_fields_ok (cur r : TrackFields) (j : Json) (h : trackFields cur j = .ok r) :
    field (ptrJson stringJson []) "tag" cur.tag (.obj (membersOf j)) = .ok r.tag ∧
    (∃ n, field (ptrJson (uintJson 16) 0) "tracknumber" none (.obj (membersOf j)) = .ok n) ∧
    field rawsJson "events" cur.events (.obj (membersOf j)) = .ok r.events := by
  unfold trackFields at h
  obtain ⟨a, ha, h⟩ := bound_ok h
  obtain ⟨b, hb, h⟩ := bound_ok h
  obtain ⟨c, hc, h⟩ := bound_ok h
  injection h with h
  subst h
  exact ⟨(field_members _ _ _ _ _ ha).1, ⟨_, (field_members _ _ _ _ _ hb).1⟩, (field_members _ _ _ _ _ hc).1⟩

/-- A track read from several objects is read from all their members. -/
theorem tracks_together (vs : List Json) (cur t : TrackFields) (h : vs.foldlM trackFields cur = .ok t) :
    trackFields cur (.obj (vs.map membersOf).flatten) = .ok t := by
  have key : ∀ (vs : List Json) (cur : TrackFields), vs.foldlM trackFields cur = .ok t →
      field (ptrJson stringJson []) "tag" cur.tag (.obj (vs.map membersOf).flatten) = .ok t.tag ∧
      (∃ n, field (ptrJson (uintJson 16) 0) "tracknumber" none (.obj (vs.map membersOf).flatten) = .ok n) ∧
      field rawsJson "events" cur.events (.obj (vs.map membersOf).flatten) = .ok t.events := by
    intro vs
    induction vs with
    | nil =>
      intro cur h
      injection h with h
      subst h
      exact ⟨rfl, ⟨_, rfl⟩, rfl⟩
    | cons v vs ih =>
      intro cur h
      rw [List.foldlM_cons] at h
      obtain ⟨c, hc, h⟩ := bound_ok h
      obtain ⟨h1, ⟨n, h2⟩, h3⟩ := track_fields_ok _ _ _ hc
      obtain ⟨i1, ⟨n', i2⟩, i3⟩ := ih c h
      rw [List.map_cons, List.flatten_cons, field_append, field_append, field_append, h1, h2, h3]
      exact ⟨i1, ptr_again i2 n, i3⟩
  obtain ⟨h1, ⟨n, h2⟩, h3⟩ := key vs cur h
  unfold trackFields
  rw [h1, Outcome.bind_ok, h2, Outcome.bind_ok, h3]
  rfl

/-- The tracks of a document are read from its tracks. -/
theorem tracks_read (j : Json) (s : Slice TrackFields) (h : field (sliceJson trackFields ⟨none, []⟩) "tracks" ⟨[], []⟩ j = .ok s) :
    List.Forall₂ (fun track t => trackFields ⟨none, []⟩ track = .ok t) (tracksOf j) s.els := by
  unfold tracksOf
  rw [List.forall₂_map_left_iff]
  exact (slice_stacked _ _ _ _ (values_of _ _ _ _ _ h)).imp fun vs t ht => tracks_together _ _ _ ht

/-- What can become of a JSON document. -/
theorem json_fate (mc : MiddleC) (j : Json) :
    Fate (∃ track, TrackIn j track ∧ (Eventless track ∨ ∃ ev, EventIn track ev ∧ Fatal ev)) (∃ track ev, TrackIn j track ∧ EventIn track ev ∧ Endless ev)
      (fun _ => True) (assembleJson mc j) := by
  unfold assembleJson
  refine fate_bind (fate_tame (tame_field _ _ _ _ tame_headerFields)) fun header _ _ => ?_
  refine fate_bind (fate_tame (tame_field _ _ _ _ fun c j => tame_sliceJson _ _ c tame_trackFields j)) fun tracks htracks _ => ?_
  refine fate_bind (fate_tame (fate_parseJsonMThd header)) fun h _ _ => ?_
  have hin : ∀ t ∈ tracks.els, ∃ track, TrackIn j track ∧ trackFields ⟨none, []⟩ track = .ok t := by
    intro t ht
    obtain ⟨i, hi, rfl⟩ := List.mem_iff_getElem.mp ht
    have h2 := tracks_read j tracks htracks
    have hl := h2.length_eq
    exact ⟨(tracksOf j)[i], List.getElem_mem _, h2.get (by omega) hi⟩
  refine fate_bind (fate_mono (fate_parseJsonTracks mc tracks.els h [] (by simp)) ?_ ?_ fun _ _ h => h) ?_
  · rintro ⟨t, ht, hb⟩
    obtain ⟨track, h1, h2⟩ := hin t ht
    refine ⟨track, h1, ?_⟩
    rcases trackFields_events track t h2 with ⟨q1, q2⟩ | ⟨es, rfl, q2⟩
    · exact Or.inl q2
    · rcases hb with hb | ⟨w, hw, ev, hl, hf⟩
      · rw [hb] at q2
        exact Or.inl (Or.inr (Or.inr q2))
      · exact Or.inr ⟨ev, ⟨_, w, q2, hw, hl⟩, hf⟩
  · rintro ⟨t, ht, w, hw, ev, hl, hf⟩
    obtain ⟨track, h1, h2⟩ := hin t ht
    rcases trackFields_events track t h2 with ⟨q1, q2⟩ | ⟨es, rfl, q2⟩
    · rw [q1] at hw
      cases hw
    · exact ⟨track, ev, h1, ⟨_, w, q2, hw, hl⟩, hf⟩
  · intro s _ hs
    obtain ⟨c1, c2, c3⟩ := C26_encode_errors s
    cases hen : encode s with
    | ok b => trivial
    | err x => trivial
    | panic => exact absurd hen c2
    | diverge =>
      exfalso
      cases hm : s.mthd with
      | none => exact hs.1 hm
      | some h =>
        by_cases hn : h.tracks.toNat = s.tracks.length
        · obtain ⟨bs, hb⟩ := (c3 h hm hn).1.mpr hs.2
          rw [hen] at hb; cases hb
        · obtain ⟨e, h⟩ := c1.mpr (by intro x hx; rw [hm] at hx; injection hx with hx; rw [← hx]; exact hn)
          rw [hen] at h; cases h

/-- C59, JSON: assembling a JSON document terminates unless one of its events is a time signature with a denominator from 129 to 255.  (Missing for
the full property: such documents, see `C59_json_fails`.) -/
theorem C59_json_terminates_partial (mc : MiddleC) (j : Json) (h : assembleJson mc j = .diverge) :
    ∃ track ev, TrackIn j track ∧ EventIn track ev ∧ Endless ev := by
  have := json_fate mc j
  rw [h] at this
  exact this

/-- C60, JSON: assembling a JSON document panics only if one of its tracks has no events, or one of its events is an SMPTE offset out of range, a key
signature that does not exist, a note with a velocity or a pressure above 127.  (Missing for the full property: such documents, see `C60_json_fails`
and `C58_empty_track_fails`.) -/
theorem C60_json_panics_partial (mc : MiddleC) (j : Json) (h : assembleJson mc j = .panic) :
    ∃ track, TrackIn j track ∧ (Eventless track ∨ ∃ ev, EventIn track ev ∧ Fatal ev) := by
  have := json_fate mc j
  rw [h] at this
  exact this

/-! ### Exports that panic or loop -/

/-- An event that cannot be read, after others that can. -/
theorem bad_event (mc : MiddleC) (smf : SMF) (m : MThd) (hm : smf.mthd = some m) (h : Header) (hs : m.Shows h) (hf : h.format ≤ 2)
    (htag : ∀ t ∈ smf.tracks, t.tag = tagMTrk) (before after : List MTrk) (t : MTrk) (htr : smf.tracks = before ++ t :: after)
    (hb : ∀ t ∈ before, t.events ≠ [] ∧ ∀ e ∈ t.events, e.body.InRange) (es es' : List Event) (e : Event) (he : t.events = es ++ e :: es')
    (hes : ∀ e ∈ es, e.body.InRange) :
    (e.body.imported mc = .panic → assembleJson mc (exportJson smf) = .panic) ∧
    (e.body.imported mc = .diverge → assembleJson mc (exportJson smf) = .diverge) := by
  have htagh : tagMThd = str "MThd" := by decide +kernel
  have htagt : tagMTrk = str "MTrk" := by decide +kernel
  obtain ⟨s1, s2, s3, s4, s5, s6, s7⟩ := hs
  have hdlt : m.ppqn.toNat < 32768 := by
    by_cases hd : h.division < 32768
    · rw [(s6 hd).1]; exact hd
    · rw [(s7 (by omega)).1]; decide
  rw [exportJson_eq]
  unfold assembleJson
  rw [hm]
  simp only
  jfield 0
  jfield 1
  rw [headerFields_json m (by rw [s1, htagh]), Outcome.bind_ok, slice_tracks _ (fun t h => by rw [htag t h, htagt]), Outcome.bind_ok,
    parseJsonMThd_ok m (by rw [s3]; exact hf) hdlt, Outcome.bind_ok, htr]
  generalize (⟨str "MThd", 6, m.format, 0, m.ppqn, m.ppqn &&& 0x7fff, false, 0, 0, false, []⟩ : MThd) = hd0
  generalize ([] : List MTrk) = ts
  have hevents : ∀ o : Outcome (List Event), (o = .panic ∨ o = .diverge) → (e.body.imported mc >>= fun b => .ok [⟨0, e.delta, [], b⟩]) = o →
      parseJsonEvents mc (t.events.map fun e => jobj [("event", eventToJson e)]) = o := by
    intro o ho hi
    rw [he]
    clear he
    induction es with
    | nil =>
      rw [List.nil_append, List.map_cons, parseJsonEvents, read_exported]
      cases hb : e.body.imported mc with
      | panic => rw [hb] at hi; exact hi
      | diverge => rw [hb] at hi; exact hi
      | ok b => rw [hb] at hi; rcases ho with rfl | rfl <;> cases hi
      | err b => rw [hb] at hi; rcases ho with rfl | rfl <;> cases hi
    | cons a es ih =>
      rw [List.cons_append, List.map_cons, parseJsonEvents, imported_event mc a (hes a (by simp)), Outcome.bind_ok,
        ih (fun x hx => hes x (by simp [hx]))]
      rcases ho with rfl | rfl <;> rfl
  have key : (e.body.imported mc = .panic →
        parseJsonTracks mc ((before ++ t :: after).map fun t => ⟨some (str "MTrk"), t.events.map fun e => jobj [("event", eventToJson e)]⟩) hd0 ts = .panic) ∧
      (e.body.imported mc = .diverge →
        parseJsonTracks mc ((before ++ t :: after).map fun t => ⟨some (str "MTrk"), t.events.map fun e => jobj [("event", eventToJson e)]⟩) hd0 ts = .diverge) := by
    clear htr
    induction before generalizing hd0 ts with
    | nil =>
      rw [List.nil_append, List.map_cons, parseJsonTracks]
      unfold parseJsonMTrk
      rw [if_neg (by simp)]
      constructor
      · intro hi
        rw [hevents .panic (Or.inl rfl) (by rw [hi]; rfl)]
        rfl
      · intro hi
        rw [hevents .diverge (Or.inr rfl) (by rw [hi]; rfl)]
        rfl
    | cons b before ih =>
      rw [List.cons_append, List.map_cons, parseJsonTracks]
      obtain ⟨b1, b2⟩ := hb b (by simp)
      have hne : importedEvents mc b.events ≠ [] := by
        cases hbe : b.events with
        | nil => exact absurd hbe b1
        | cons a l => simp [importedEvents]
      obtain ⟨fixed, hfx, _⟩ := (C73_fixups_exact _).2 hne
      have : parseJsonMTrk mc ⟨some (str "MTrk"), b.events.map fun e => jobj [("event", eventToJson e)]⟩ =
          .ok ⟨str "MTrk", 0, 0, [0x4d, 0x54, 0x72, 0x6b, 0x00, 0x00, 0x00, 0x00], fixed, newContext⟩ := by
        unfold parseJsonMTrk
        rw [if_neg (by simp)]
        simp only
        rw [imported_events mc _ b2, Outcome.bind_ok, hfx, Outcome.bind_ok]
      rw [this, Outcome.bind_ok]
      exact ih (fun x hx => hb x (by simp [hx])) _ _
  exact ⟨fun hi => by rw [key.1 hi]; rfl, fun hi => by rw [key.2 hi]; rfl⟩

/-- Events that crash the assembler when they are exported. -/
def Body.Crashes : Body → Prop
  | .smpteOffset h m s r f ff => ¬ (h ≤ 24 ∧ m ≤ 59 ∧ s ≤ 59 ∧ (r = 24 ∨ r = 25 ∨ r = 29 ∨ r = 30) ∧ f < r ∧ ff ≤ 100)
  | .keySignature a k _ => ¬ (-7 ≤ a.toInt ∧ a.toInt ≤ 7 ∧ k ≤ 1)
  | .noteOn ch _ v => ch ≤ 15 ∧ 127 < v
  | .polyphonicPressure ch p => ch ≤ 15 ∧ 127 < p
  | .channelPressure ch p => ch ≤ 15 ∧ 127 < p
  | _ => False

theorem crashes_panic (mc : MiddleC) (b : Body) (h : b.Crashes) : b.imported mc = .panic := by
  cases b with
  | smpteOffset hh m s r f ff =>
    simp only [Body.imported, makeSMPTEOffset]
    split
    · rfl
    split
    · rfl
    split
    · rfl
    split
    · rfl
    split
    · rfl
    split
    · rfl
    exfalso
    rename_i h1 h2 h3 h4 h5 h6
    refine h ⟨UInt8.not_lt.mp h1, UInt8.not_lt.mp h2, UInt8.not_lt.mp h3, ?_, UInt8.not_le.mp h5, UInt8.not_lt.mp h6⟩
    by_cases e1 : r = 24
    · exact Or.inl e1
    by_cases e2 : r = 25
    · exact Or.inr (Or.inl e2)
    by_cases e3 : r = 29
    · exact Or.inr (Or.inr (Or.inl e3))
    by_cases e4 : r = 30
    · exact Or.inr (Or.inr (Or.inr e4))
    exact absurd ⟨e1, e2, e3, e4⟩ h4
  | keySignature a k key =>
    simp only [Body.imported]
    have hk : Lib.Major = 0 ∧ Lib.Minor = 1 := ⟨rfl, rfl⟩
    have hma : ∀ a : Int8, Lib.majorScale a ≠ none → -7 ≤ a.toInt ∧ a.toInt ≤ 7 := by
      intro a
      have : ∀ x : UInt8, Lib.majorScale x.toInt8 ≠ none → -7 ≤ x.toInt8.toInt ∧ x.toInt8.toInt ≤ 7 := all8 (by decide +kernel)
      have := this a.toUInt8
      simpa using this
    have hmi : ∀ a : Int8, Lib.minorScale a ≠ none → -7 ≤ a.toInt ∧ a.toInt ≤ 7 := by
      intro a
      have : ∀ x : UInt8, Lib.minorScale x.toInt8 ≠ none → -7 ≤ x.toInt8.toInt ∧ x.toInt8.toInt ≤ 7 := all8 (by decide +kernel)
      have := this a.toUInt8
      simpa using this
    unfold makeKeySignature
    rw [hk.1, hk.2]
    split
    · rename_i e
      cases hsc : Lib.majorScale a with
      | none => rfl
      | some s =>
        have := hma a (by rw [hsc]; simp)
        exact absurd ⟨this.1, this.2, by rw [e]; decide⟩ h
    · split
      · rename_i e
        cases hsc : Lib.minorScale a with
        | none => rfl
        | some s =>
          have := hmi a (by rw [hsc]; simp)
          exact absurd ⟨this.1, this.2, by rw [e]; decide⟩ h
      · rfl
  | noteOn ch n v => simp only [Body.imported]; rw [if_neg (UInt8.not_lt.mpr h.1), if_pos h.2]
  | polyphonicPressure ch v => simp only [Body.imported]; rw [if_neg (UInt8.not_lt.mpr h.1), if_pos h.2]
  | channelPressure ch v => simp only [Body.imported]; rw [if_neg (UInt8.not_lt.mpr h.1), if_pos h.2]
  | _ => exact h.elim

/-- C60, JSON, is false: the export of a file with such an event crashes the assembler, whatever follows. -/
theorem C60_json_fails (mc : MiddleC) (smf : SMF) (m : MThd) (hm : smf.mthd = some m) (h : Header) (hs : m.Shows h) (hf : h.format ≤ 2)
    (htag : ∀ t ∈ smf.tracks, t.tag = tagMTrk) (before after : List MTrk) (t : MTrk) (htr : smf.tracks = before ++ t :: after)
    (hb : ∀ t ∈ before, t.events ≠ [] ∧ ∀ e ∈ t.events, e.body.InRange) (es es' : List Event) (e : Event) (he : t.events = es ++ e :: es')
    (hes : ∀ e ∈ es, e.body.InRange) (hc : e.body.Crashes) : assembleJson mc (exportJson smf) = .panic :=
  (bad_event mc smf m hm h hs hf htag before after t htr hb es es' e he hes).1 (crashes_panic mc _ hc)

/-- C59, JSON, is false: the export of a file with a time signature with a denominator above 128 is never assembled, whatever follows. -/
theorem C59_json_fails (mc : MiddleC) (smf : SMF) (m : MThd) (hm : smf.mthd = some m) (h : Header) (hs : m.Shows h) (hf : h.format ≤ 2)
    (htag : ∀ t ∈ smf.tracks, t.tag = tagMTrk) (before after : List MTrk) (t : MTrk) (htr : smf.tracks = before ++ t :: after)
    (hb : ∀ t ∈ before, t.events ≠ [] ∧ ∀ e ∈ t.events, e.body.InRange) (es es' : List Event) (e : Event) (he : t.events = es ++ e :: es')
    (hes : ∀ e ∈ es, e.body.InRange) (n d c q : UInt8) (hc : e.body = .timeSignature n d c q) (hd : 128 < d) :
    assembleJson mc (exportJson smf) = .diverge := by
  refine (bad_event mc smf m hm h hs hf htag before after t htr hb es es' e he hes).2 ?_
  rw [hc]
  simp only [Body.imported, makeTimeSignature]
  have key : ∀ x : UInt8, 128 < x → (match denomLoop x 8 1 0 with | .diverge => true | _ => false) = true := all8 (by decide +kernel)
  have := key d hd
  cases hl : denomLoop d 8 1 0 with
  | diverge => rfl
  | ok v => rw [hl] at this; cases this
  | err _ => rw [hl] at this; cases this
  | panic => rw [hl] at this; cases this

/-- A file with one track of two events. -/
def twoEvents (b : Body) : SMF :=
  ⟨some ⟨tagMThd, 6, 0, 1, 96, 96, false, 0, 0, false, []⟩, [⟨tagMTrk, 0, 0, [], [⟨0, 0, [], .tempo 500000⟩, ⟨0, 0, [], b⟩, ⟨0, 0, [], .endOfTrack⟩], newContext⟩]⟩

/-- The hypotheses of `C59_json_fails` and `C60_json_fails` hold for a file with a tempo before the bad event. -/
example (mc : MiddleC) : assembleJson mc (exportJson (twoEvents (.noteOn 3 ⟨60, "C4", "C4"⟩ 200))) = .panic :=
  C60_json_fails mc _ _ rfl ⟨0, 1, 96⟩ ⟨rfl, rfl, rfl, rfl, rfl, fun _ => ⟨rfl, rfl, rfl, rfl, rfl⟩, fun h => by simp at h⟩ (by decide) (by simp [twoEvents])
    [] [] _ rfl (by simp) [⟨0, 0, [], .tempo 500000⟩] [⟨0, 0, [], .endOfTrack⟩] _ rfl (by simp [Body.InRange]) ⟨by decide, by decide⟩

example (mc : MiddleC) : assembleJson mc (exportJson (twoEvents (.timeSignature 4 129 24 8))) = .diverge :=
  C59_json_fails mc _ _ rfl ⟨0, 1, 96⟩ ⟨rfl, rfl, rfl, rfl, rfl, fun _ => ⟨rfl, rfl, rfl, rfl, rfl⟩, fun h => by simp at h⟩ (by decide) (by simp [twoEvents])
    [] [] _ rfl (by simp) [⟨0, 0, [], .tempo 500000⟩] [⟨0, 0, [], .endOfTrack⟩] _ rfl (by simp [Body.InRange]) 4 129 24 8 rfl (by decide)

/-- Non-vacuity of `C59_json_terminates_partial` and `C60_json_panics_partial`: these documents are not assembled. -/
example (mc : MiddleC) : ∃ track ev, TrackIn (exportJson (twoEvents (.timeSignature 4 129 24 8))) track ∧ EventIn track ev ∧ Endless ev :=
  C59_json_terminates_partial mc _ (C59_json_fails mc _ _ rfl ⟨0, 1, 96⟩ ⟨rfl, rfl, rfl, rfl, rfl, fun _ => ⟨rfl, rfl, rfl, rfl, rfl⟩, fun h => by simp at h⟩
    (by decide) (by simp [twoEvents]) [] [] _ rfl (by simp) [⟨0, 0, [], .tempo 500000⟩] [⟨0, 0, [], .endOfTrack⟩] _ rfl (by simp [Body.InRange])
    4 129 24 8 rfl (by decide))

end Midiasm
