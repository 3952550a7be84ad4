import Verif.Spec.Manufacturers
import Verif.Model.Manufacturers
import Verif.Props.JsonFate

/-!
C61 and C86: manufacturer configurations.
-/

set_option linter.unusedSimpArgs false

namespace Midiasm
open Spec Lib

theorem key_same (id c : Bytes) (h : id.length = 1 ∨ id.length = 3) (h' : c.length = 1 ∨ c.length = 3) :
    manufacturerKey c = manufacturerKey id ↔ SameMaker id c := by
  match id, c, h, h' with
  | [a], [b], _, _ =>
    simp only [manufacturerKey, SameMaker]
    exact ⟨fun e => (hex_inj e).symm, fun e => by rw [e]⟩
  | [a], [x, y, z], _, _ =>
    simp only [manufacturerKey, SameMaker]
    exact ⟨fun e => absurd e.symm (key_lengths _ _ _), False.elim⟩
  | [x, y, z], [a], _, _ =>
    simp only [manufacturerKey, SameMaker]
    exact ⟨fun e => absurd e (key_lengths _ _ _), False.elim⟩
  | [x, y, z], [u, v, w], _, _ =>
    simp only [manufacturerKey, SameMaker]
    exact ⟨fun e => ⟨(hexes_inj e).1.symm, (hexes_inj e).2.symm⟩, fun ⟨e1, e2⟩ => by rw [e1, e2]⟩
  | [], _, h, _ => simp at h
  | [_, _], _, h, _ => simp at h
  | _ :: _ :: _ :: _ :: _, _, h, _ => simp at h
  | [_], [], _, h => simp at h
  | [_], [_, _], _, h => simp at h
  | [_], _ :: _ :: _ :: _ :: _, _, h => simp at h
  | [_, _, _], [], _, h => simp at h
  | [_, _, _], [_, _], _, h => simp at h
  | [_, _, _], _ :: _ :: _ :: _ :: _, _, h => simp at h

theorem lookup_in (table : List (String × Manufacturer)) (id : Bytes) (h : id.length = 1 ∨ id.length = 3) :
    lookupManufacturerIn table id = (lookupKey table (manufacturerKey id)).getD ⟨id, "<unknown>", "<unknown>"⟩ := by
  match id, h with
  | [a], _ => rfl
  | [x, y, z], _ => rfl
  | [], h => simp at h
  | [_, _], h => simp at h
  | _ :: _ :: _ :: _ :: _, h => simp at h

theorem table_entries : ∀ e ∈ manufacturers, (trimSpaces e.2.name == e.2.name && trimSpaces e.2.region == e.2.region && e.2.name != "" &&
    e.2.name != "<unknown>" && (e.2.id.length == 1 || e.2.id.length == 3) && (manufacturerKey e.2.id == e.1 || e.1 == "7F" && e.2.id == [0x7e])) = true := by
  decide +kernel

/-- The entry made for a configured ID. -/
def configured (c : Bytes) : String × Manufacturer := (manufacturerKey (lookupManufacturer c).id, lookupManufacturer c)

theorem lookup_cases (c : Bytes) (h : c.length = 1 ∨ c.length = 3) :
    (lookupKey manufacturers (manufacturerKey c) = none ∧ lookupManufacturer c = ⟨c, "<unknown>", "<unknown>"⟩) ∨
    ∃ m, lookupKey manufacturers (manufacturerKey c) = some m ∧ lookupManufacturer c = m ∧ trimSpaces m.name = m.name ∧ trimSpaces m.region = m.region ∧
      m.name ≠ "" ∧ m.name ≠ "<unknown>" ∧ (m.id.length = 1 ∨ m.id.length = 3) ∧
      (manufacturerKey m.id = manufacturerKey c ∨ manufacturerKey c = "7F" ∧ m.id = [0x7e]) := by
  unfold lookupManufacturer
  rw [lookup_in _ _ h]
  cases hk : lookupKey manufacturers (manufacturerKey c) with
  | none => exact Or.inl ⟨rfl, rfl⟩
  | some m =>
    right
    have := table_entries _ (lookupKey_mem hk)
    simp only [Bool.and_eq_true, Bool.or_eq_true, beq_iff_eq, bne_iff_ne, ne_eq] at this
    obtain ⟨⟨⟨⟨⟨h1, h2⟩, h3⟩, h4⟩, h5⟩, h6⟩ := this
    exact ⟨m, rfl, rfl, h1, h2, h3, h4, h5, h6⟩

theorem lookup_length (c : Bytes) : (lookupManufacturer c).id.length = 1 ∨ (lookupManufacturer c).id.length = 3 ↔ c.length = 1 ∨ c.length = 3 := by
  constructor
  · intro h
    match c with
    | [a] => simp
    | [x, y, z] => simp
    | [] => simp [lookupManufacturer, lookupManufacturerIn] at h
    | [_, _] => simp [lookupManufacturer, lookupManufacturerIn] at h
    | _ :: _ :: _ :: _ :: _ => simp [lookupManufacturer, lookupManufacturerIn] at h
  · intro h
    rcases lookup_cases c h with ⟨_, h'⟩ | ⟨m, _, h', _, _, _, _, h5, _⟩
    · rw [h']; exact h
    · rw [h']; exact h5

theorem make_configured (c : Bytes) : makeManufacturer (lookupManufacturer c).id (lookupManufacturer c).region (lookupManufacturer c).name =
    if c.length = 1 ∨ c.length = 3 then .ok (configured c) else .err .other := by
  unfold makeManufacturer
  by_cases h : c.length = 1 ∨ c.length = 3
  · rw [if_pos h, if_neg (by have := (lookup_length c).mpr h; omega)]
    rcases lookup_cases c h with ⟨_, h'⟩ | ⟨m, _, h', h1, h2, h3, _⟩
    · unfold configured
      rw [h']
      have e : trimSpaces "<unknown>" = "<unknown>" := by decide +kernel
      rw [e, if_neg (by decide)]
    · unfold configured
      rw [h', h1, h2, if_neg h3]
  · rw [if_neg h, if_pos]
    have := mt (lookup_length c).mp h
    omega

theorem make_all (ids : List Bytes) (list : List (String × Manufacturer)) :
    makeManufacturers (ids.map lookupManufacturer) list =
      if ∀ c ∈ ids, c.length = 1 ∨ c.length = 3 then .ok ((ids.map configured).reverse ++ list) else .err .other := by
  induction ids generalizing list with
  | nil => simp [makeManufacturers]
  | cons c ids ih =>
    rw [List.map_cons, makeManufacturers, make_configured]
    by_cases h : c.length = 1 ∨ c.length = 3
    · rw [if_pos h, Outcome.bind_ok, ih]
      by_cases h' : ∀ c ∈ ids, c.length = 1 ∨ c.length = 3
      · rw [if_pos h', if_pos (by simpa using ⟨h, h'⟩)]
        simp
      · rw [if_neg h', if_neg (fun hh => h' fun c hc => hh c (by simp [hc]))]
    · rw [if_neg h, if_neg (fun hh => h (hh c (by simp)))]
      rfl

/-! ### Reading the configuration -/

theorem idByte (vs : List Json) (n : Nat) (h : vs.foldlM (uintJson 64) 0 = .ok n) : IdByte vs (UInt8.ofNat n) := by
  induction vs using List.reverseRecOn generalizing n with
  | nil =>
    injection h with h
    subst h
    exact Or.inl ⟨by simp, rfl⟩
  | append_singleton vs v ih =>
    rw [foldlM_snoc] at h
    obtain ⟨m, hm, h⟩ := bound_ok h
    rw [List.foldlM_cons] at h
    obtain ⟨k, hk, h⟩ := bound_ok h
    injection h with h
    subst h
    cases v with
    | null =>
      injection hk with hk
      subst hk
      rcases ih _ hm with ⟨h1, h2⟩ | ⟨a, lit, n, b, h1, h2, h3, h4⟩
      · refine Or.inl ⟨?_, h2⟩
        intro x hx
        rcases List.mem_append.mp hx with hx | hx
        · exact h1 x hx
        · exact List.mem_singleton.mp hx
      · refine Or.inr ⟨a, lit, n, b ++ [.null], by rw [h1]; simp, ?_, h3, h4⟩
        intro x hx
        rcases List.mem_append.mp hx with hx | hx
        · exact h2 x hx
        · exact List.mem_singleton.mp hx
    | num lit => exact Or.inr ⟨vs, lit, k, [], rfl, by simp, (parseUint_numeral hk).1, rfl⟩
    | _ => cases hk

theorem manufacturerJson_id (cur m : Manufacturer) (j : Json) (h : manufacturerJson cur j = .ok m) :
    ∃ id, m = lookupManufacturer id ∧ IdOf j id := by
  unfold manufacturerJson at h
  obtain ⟨s, hf, h⟩ := bound_ok h
  injection h with h
  refine ⟨_, h.symm, ?_⟩
  unfold IdOf
  rw [List.forall₂_map_right_iff]
  exact (slice_stacked _ _ _ _ (values_of _ _ _ _ _ hf)).imp fun vs n hn => idByte vs n hn

theorem elements_ids (ms : List Json) (cells : List Manufacturer) (r : Slice Manufacturer)
    (h : elementsJson manufacturerJson noManufacturer cells ms = .ok r) :
    ∃ ids, r.els = ids.map lookupManufacturer ∧ List.Forall₂ IdOf ms ids := by
  induction ms generalizing r cells with
  | nil =>
    injection h with h
    subst h
    exact ⟨[], rfl, .nil⟩
  | cons j ms ih =>
    rw [elementsJson] at h
    obtain ⟨m, hj, h⟩ := bound_ok h
    obtain ⟨w, hl, h⟩ := bound_ok h
    injection h with h
    subst h
    obtain ⟨id, rfl, h1⟩ := manufacturerJson_id _ _ _ hj
    obtain ⟨ids, he, h2⟩ := ih _ w hl
    exact ⟨id :: ids, by rw [List.map_cons, ← he], .cons h1 h2⟩

/-- What is loaded. -/
theorem load_ids (j : Json) (list : List (String × Manufacturer)) (h : loadManufacturers j = .ok list) :
    ∃ ids, Configures j ids ∧ (∀ c ∈ ids, c.length = 1 ∨ c.length = 3) ∧ list = (ids.map configured).reverse := by
  unfold loadManufacturers at h
  cases hf : field (sliceJson manufacturerJson noManufacturer) "manufacturers" ⟨[], []⟩ j with
  | ok ms =>
    rw [hf, Outcome.bind_ok] at h
    have key : ∀ ids : List Bytes, ms.els = ids.map lookupManufacturer → (∀ c ∈ ids, c.length = 1 ∨ c.length = 3) ∧ list = (ids.map configured).reverse := by
      intro ids he
      rw [he, make_all] at h
      split at h
      · injection h with h
        exact ⟨‹_›, by rw [← h, List.append_nil]⟩
      · cases h
    rcases field_latest (fun _ => False) (sliceJson manufacturerJson noManufacturer) "manufacturers" ⟨[], []⟩ j _ (by simp) hf with ⟨v, a, h1, h2⟩ | ⟨h1, h2⟩
    · cases v with
      | null =>
        injection h2 with h2
        obtain ⟨k1, k2⟩ := key [] (by rw [← h2]; rfl)
        exact ⟨[], Or.inr ⟨rfl, Or.inr h1⟩, k1, k2⟩
      | arr l =>
        have : ∃ ids, ms.els = ids.map lookupManufacturer ∧ List.Forall₂ IdOf l ids := by
          cases l with
          | nil =>
            injection h2 with h2
            rw [← h2]
            exact ⟨[], rfl, .nil⟩
          | cons v l => exact elements_ids _ _ ms h2
        obtain ⟨ids, he, hall⟩ := this
        obtain ⟨k1, k2⟩ := key ids he
        exact ⟨ids, Or.inl ⟨l, h1, hall⟩, k1, k2⟩
      | _ => cases h2
    · obtain ⟨k1, k2⟩ := key [] (by rw [h1]; rfl)
      exact ⟨[], Or.inr ⟨rfl, Or.inl h2⟩, k1, k2⟩
  | err e => rw [hf] at h; cases h
  | panic => rw [hf] at h; cases h
  | diverge => rw [hf] at h; cases h

/-! ### Lookups after loading -/

theorem maker_one {id : Bytes} {b : UInt8} (h : SameMaker id [b]) : id = [b] := by
  unfold SameMaker at h
  split at h
  · rename_i a c hc
    injection hc with hc
    rw [h, hc]
  · rename_i hc
    cases hc
  · exact h.elim

theorem one_maker {c : Bytes} {b : UInt8} (h : SameMaker [b] c) : c = [b] := by
  unfold SameMaker at h
  split at h
  · rename_i a c hc
    injection hc with hc
    rw [← h, hc]
  · rename_i hc
    cases hc
  · exact h.elim

/-- The configured ID determines what is shown for the other one. -/
def Replaces (id c : Bytes) : Prop := c ≠ [0x7f] ∧ SameMaker id c ∨ c = [0x7f] ∧ id = [0x7e]

theorem replaces_iff (id c : Bytes) (h : id.length = 1 ∨ id.length = 3) (h' : c.length = 1 ∨ c.length = 3) :
    (configured c).1 = manufacturerKey id ↔ Replaces id c := by
  unfold configured Replaces
  by_cases hc : c = [0x7f]
  · subst hc
    have e : manufacturerKey (lookupManufacturer [0x7f]).id = manufacturerKey [0x7e] := by decide +kernel
    simp only [ne_eq, not_true, false_and, true_and, false_or]
    rw [e]
    constructor
    · intro he
      exact maker_one ((key_same id [0x7e] h (by simp)).mp he)
    · rintro rfl
      rfl
  · have hk : manufacturerKey (lookupManufacturer c).id = manufacturerKey c := by
      rcases lookup_cases c h' with ⟨_, e⟩ | ⟨m, _, e, _, _, _, _, _, h6⟩
      · rw [e]
      · rw [e]
        rcases h6 with h6 | ⟨h6, _⟩
        · exact h6
        · exfalso
          have : manufacturerKey c = manufacturerKey [0x7f] := by rw [h6]; decide +kernel
          exact hc (one_maker ((key_same [0x7f] c (by simp) h').mp this))
    rw [hk, key_same id c h h']
    simp [hc]

theorem lookup_none (r : List (String × Manufacturer)) (table : List (String × Manufacturer)) (k : String) (h : ∀ e ∈ r, e.1 ≠ k) :
    lookupKey (r ++ table) k = lookupKey table k := by
  unfold lookupKey
  rw [List.find?_append]
  have : r.find? (fun e => e.1 == k) = none := by
    rw [List.find?_eq_none]
    intro e he
    simpa using h e he
  rw [this]
  rfl

theorem lookup_some (r s : List (String × Manufacturer)) (e : String × Manufacturer) (k : String) (h : ∀ e ∈ r, e.1 ≠ k) (he : e.1 = k) :
    lookupKey (r ++ e :: s) k = some e.2 := by
  rw [lookup_none _ _ _ h]
  unfold lookupKey
  rw [List.find?_cons_of_pos (by simpa using he)]
  rfl

theorem last_with {α : Type} (p : α → Prop) (l : List α) : (∃ x, LastWith p l x) ∨ ∀ x ∈ l, ¬ p x := by
  induction l with
  | nil => exact Or.inr (by simp)
  | cons a l ih =>
    rcases ih with ⟨x, u, v, rfl, h⟩ | h
    · exact Or.inl ⟨x, a :: u, v, rfl, h⟩
    · by_cases hp : p a
      · exact Or.inl ⟨a, [], l, rfl, hp, h⟩
      · exact Or.inr (by simpa using ⟨hp, h⟩)

/-- What is shown after loading: the entry of the last ID that counts, or that of the built-in table. -/
theorem lookup_loaded (ids : List Bytes) (hids : ∀ c ∈ ids, c.length = 1 ∨ c.length = 3) (id : Bytes) (h : id.length = 1 ∨ id.length = 3) :
    (∀ c, LastWith (Replaces id) ids c → lookupManufacturerIn (addManufacturers (ids.map configured).reverse manufacturers) id = lookupManufacturer c) ∧
    ((∀ c ∈ ids, ¬ Replaces id c) → lookupManufacturerIn (addManufacturers (ids.map configured).reverse manufacturers) id = lookupManufacturer id) := by
  unfold addManufacturers
  rw [lookup_in _ _ h]
  constructor
  · rintro c ⟨a, b, rfl, h1, h2⟩
    have hc := hids c (by simp)
    rw [show (List.map configured (a ++ c :: b)).reverse ++ manufacturers =
      (b.map configured).reverse ++ configured c :: ((a.map configured).reverse ++ manufacturers) by simp]
    rw [lookup_some _ _ _ _ ?_ ((replaces_iff id c h hc).mpr h1)]
    · rfl
    · intro e he
      rw [List.mem_reverse, List.mem_map] at he
      obtain ⟨x, hx, rfl⟩ := he
      exact fun e => h2 x hx ((replaces_iff id x h (hids x (by simp [hx]))).mp e)
  · intro h1
    rw [lookup_none]
    · exact (lookup_in _ _ h).symm
    · intro e he
      rw [List.mem_reverse, List.mem_map] at he
      obtain ⟨x, hx, rfl⟩ := he
      exact fun e => h1 x hx ((replaces_iff id x h (hids x hx)).mp e)

/-- IDs of the same manufacturer are shown alike, except that unknown ones are shown as they are. -/
theorem lookup_same (id c : Bytes) (hs : SameMaker id c) :
    (lookupManufacturer id = lookupManufacturer c ∧ (lookupManufacturer c).name ≠ "<unknown>") ∨
      lookupManufacturer id = ⟨id, "<unknown>", "<unknown>"⟩ ∧ lookupManufacturer c = ⟨c, "<unknown>", "<unknown>"⟩ := by
  have hl : (id.length = 1 ∨ id.length = 3) ∧ (c.length = 1 ∨ c.length = 3) := by
    match id, c, hs with
    | [_], [_], _ => simp
    | [_, _, _], [_, _, _], _ => simp
  have hk := (key_same id c hl.1 hl.2).mpr hs
  rcases lookup_cases c hl.2 with ⟨h1, h2⟩ | ⟨m, h1, h2, _, _, _, h3, _⟩
  · right
    refine ⟨?_, h2⟩
    unfold lookupManufacturer
    rw [lookup_in _ _ hl.1, ← hk, h1]
    rfl
  · left
    refine ⟨?_, by rw [h2]; exact h3⟩
    rw [h2]
    unfold lookupManufacturer
    rw [lookup_in _ _ hl.1, ← hk, h1]
    rfl

/-- **C86.** What a manufacturer configuration changes.  Configured names and regions are ignored: every ID is shown with the name and region it has in
the built-in table, or as unknown, as before; the one exception is the ID 7E, which is shown as `RealTime Extensions` if the last of the configured IDs
7E and 7F is 7F.  A known manufacturer keeps its ID; an unknown long one gets the first byte of the last configured ID with the same second and third
byte. -/
theorem C86_configuration_exact (j : Json) (list : List (String × Manufacturer)) (h : loadManufacturers j = .ok list) :
    ∃ ids, Configures j ids ∧ (∀ c ∈ ids, c.length = 1 ∨ c.length = 3) ∧ ∀ id,
      (id ≠ [0x7e] → (lookupManufacturerIn (addManufacturers list manufacturers) id).region = (lookupManufacturer id).region ∧
        (lookupManufacturerIn (addManufacturers list manufacturers) id).name = (lookupManufacturer id).name) ∧
      (id = [0x7e] → lookupManufacturerIn (addManufacturers list manufacturers) id = ⟨[0x7e], "Special Purpose", "RealTime Extensions"⟩ ∧
          LastWith (fun c => c = [0x7e] ∨ c = [0x7f]) ids [0x7f] ∨
        lookupManufacturerIn (addManufacturers list manufacturers) id = ⟨[0x7e], "Special Purpose", "Non-RealTime Extensions"⟩ ∧
          ¬ LastWith (fun c => c = [0x7e] ∨ c = [0x7f]) ids [0x7f]) ∧
      ((lookupManufacturer id).name ≠ "<unknown>" → (lookupManufacturerIn (addManufacturers list manufacturers) id).id = (lookupManufacturer id).id) ∧
      ((lookupManufacturer id).name = "<unknown>" →
        (∀ c, LastWith (SameMaker id) ids c → (lookupManufacturerIn (addManufacturers list manufacturers) id).id = c) ∧
        ((∀ c ∈ ids, ¬ SameMaker id c) → (lookupManufacturerIn (addManufacturers list manufacturers) id).id = id)) := by
  obtain ⟨ids, h1, h2, rfl⟩ := load_ids j list h
  refine ⟨ids, h1, h2, fun id => ?_⟩
  by_cases hl : id.length = 1 ∨ id.length = 3
  · obtain ⟨k1, k2⟩ := lookup_loaded ids h2 id hl
    generalize lookupManufacturerIn (addManufacturers (ids.map configured).reverse manufacturers) id = m at k1 k2
    by_cases h7 : id = [0x7e]
    · subst h7
      have e7e : lookupManufacturer [0x7e] = ⟨[0x7e], "Special Purpose", "Non-RealTime Extensions"⟩ := by decide +kernel
      have e7f : lookupManufacturer [0x7f] = ⟨[0x7e], "Special Purpose", "RealTime Extensions"⟩ := by decide +kernel
      have hrep : ∀ c, Replaces [0x7e] c ↔ c = [0x7e] ∨ c = [0x7f] := by
        intro c
        unfold Replaces
        constructor
        · rintro (⟨_, hs⟩ | ⟨rfl, _⟩)
          · exact Or.inl (one_maker hs)
          · exact Or.inr rfl
        · rintro (rfl | rfl)
          · exact Or.inl ⟨by decide, rfl⟩
          · exact Or.inr ⟨rfl, rfl⟩
      have hfun : Replaces [0x7e] = fun c => c = [0x7e] ∨ c = [0x7f] := funext fun c => propext (hrep c)
      have hun : ∀ x y : Bytes, LastWith (Replaces [0x7e]) ids x → LastWith (Replaces [0x7e]) ids y → lookupManufacturer x = lookupManufacturer y :=
        fun x y hx hy => (k1 x hx).symm.trans (k1 y hy)
      have hm : m = ⟨[0x7e], "Special Purpose", "RealTime Extensions"⟩ ∧ LastWith (Replaces [0x7e]) ids [0x7f] ∨
          m = ⟨[0x7e], "Special Purpose", "Non-RealTime Extensions"⟩ ∧ ¬ LastWith (Replaces [0x7e]) ids [0x7f] := by
        rcases last_with (Replaces [0x7e]) ids with ⟨c, hc⟩ | hc
        · have hm := k1 c hc
          obtain ⟨a, b, _, hp, _⟩ := id hc
          rcases (hrep c).mp hp with rfl | rfl
          · refine Or.inr ⟨by rw [hm, e7e], fun h => ?_⟩
            have := hun _ _ h hc
            rw [e7e, e7f] at this
            revert this
            decide
          · exact Or.inl ⟨by rw [hm, e7f], hc⟩
        · refine Or.inr ⟨by rw [k2 hc, e7e], ?_⟩
          rintro ⟨a, b, rfl, hp, _⟩
          exact hc _ (by simp) hp
      rw [← hfun]
      refine ⟨fun h => absurd rfl h, fun _ => hm, fun _ => ?_, fun hn => ?_⟩
      · rw [e7e]
        rcases hm with ⟨hm, _⟩ | ⟨hm, _⟩ <;> rw [hm]
      · rw [e7e] at hn
        exact absurd hn (by decide)
    · refine ⟨fun _ => ?_, fun h => absurd h h7, ?_⟩
      · rcases last_with (Replaces id) ids with ⟨c, hc⟩ | hc
        · rw [k1 c hc]
          obtain ⟨_, _, _, hp, _⟩ := hc
          rcases hp with ⟨_, hs⟩ | ⟨_, hs⟩
          · rcases lookup_same id c hs with ⟨e, _⟩ | ⟨e1, e2⟩
            · rw [e]; exact ⟨rfl, rfl⟩
            · rw [e1, e2]; exact ⟨rfl, rfl⟩
          · exact absurd hs h7
        · rw [k2 hc]
          exact ⟨rfl, rfl⟩
      · constructor
        · intro hk
          rcases last_with (Replaces id) ids with ⟨c, hc⟩ | hc
          · rw [k1 c hc]
            obtain ⟨_, _, _, hp, _⟩ := hc
            rcases hp with ⟨_, hs⟩ | ⟨_, hs⟩
            · rcases lookup_same id c hs with ⟨e, _⟩ | ⟨e1, e2⟩
              · rw [e]
              · rw [e1] at hk; exact absurd rfl hk
            · exact absurd hs h7
          · rw [k2 hc]
        · intro hk
          have hrep : Replaces id = SameMaker id := by
            funext c
            apply propext
            unfold Replaces
            constructor
            · rintro (⟨_, hs⟩ | ⟨_, hs⟩)
              · exact hs
              · exact absurd hs h7
            · intro hs
              refine Or.inl ⟨?_, hs⟩
              rintro rfl
              rcases lookup_same id _ hs with ⟨e, he⟩ | ⟨_, e2⟩
              · rw [e] at hk; exact he hk
              · revert e2
                decide +kernel
          rw [hrep] at k1 k2
          constructor
          · intro c hc
            rw [k1 c hc]
            obtain ⟨_, _, _, hs, _⟩ := hc
            rcases lookup_same id c hs with ⟨e, he⟩ | ⟨_, e2⟩
            · rw [e] at hk; exact absurd hk he
            · rw [e2]
          · intro hc
            rw [k2 hc]
            rcases lookup_cases id hl with ⟨_, e⟩ | ⟨m', _, e, _, _, _, hn, _⟩
            · rw [e]
            · rw [e] at hk; exact absurd hk hn
  · have hu : ∀ table, lookupManufacturerIn table id = ⟨id, "<unknown>", "<unknown>"⟩ := by
      intro table
      match id, hl with
      | [], _ => rfl
      | [_], h => simp at h
      | [_, _], _ => rfl
      | [_, _, _], h => simp at h
      | _ :: _ :: _ :: _ :: _, _ => rfl
    have hns : ∀ c, ¬ SameMaker id c := by
      intro c hs
      match id, c, hs with
      | [_], [_], _ => simp at hl
      | [_, _, _], [_, _, _], _ => simp at hl
    unfold lookupManufacturer
    simp only [hu]
    refine ⟨fun _ => ⟨trivial, trivial⟩, ?_, fun _ => trivial, fun _ => ⟨?_, fun _ => trivial⟩⟩
    · rintro rfl
      simp at hl
    · rintro c ⟨_, _, _, hs, _⟩
      exact absurd hs (hns c)

/-! ### Configurations written as documents -/

/-- A configuration file. -/
def configuration (ms : List Manufacturer) : Json := jobj [("manufacturers", .arr (ms.map manufacturerToJson))]

theorem load_configuration (ms : List Manufacturer) :
    loadManufacturers (configuration ms) = if ∀ m ∈ ms, m.id.length = 1 ∨ m.id.length = 3 then .ok ((ms.map fun m => configured m.id).reverse) else .err .other := by
  unfold loadManufacturers configuration
  jfield 0
  have : elementsJson manufacturerJson noManufacturer [] (ms.map manufacturerToJson) = .ok ⟨(ms.map fun m => m.id).map lookupManufacturer, []⟩ := by
    induction ms with
    | nil => rfl
    | cons m ms ih =>
      rw [List.map_cons, elementsJson, manufacturerJson_json, Outcome.bind_ok, List.tail_nil, ih]
      rfl
  have : sliceJson manufacturerJson noManufacturer ⟨[], []⟩ (.arr (ms.map manufacturerToJson)) = .ok ⟨(ms.map fun m => m.id).map lookupManufacturer, []⟩ := by
    cases ms with
    | nil => rfl
    | cons _ _ => exact this
  rw [this, Outcome.bind_ok, make_all]
  simp only [List.mem_map, forall_exists_index, and_imp, forall_apply_eq_imp_iff₂, List.append_nil, List.map_map]
  rfl

/-- A configuration of manufacturers with IDs of one or three bytes is loaded; any other is rejected. -/
theorem C86_configuration_loads (ms : List Manufacturer) :
    ((∃ list, loadManufacturers (configuration ms) = .ok list) ↔ ∀ m ∈ ms, m.id.length = 1 ∨ m.id.length = 3) ∧
    ((∃ e, loadManufacturers (configuration ms) = .err e) ↔ ¬ ∀ m ∈ ms, m.id.length = 1 ∨ m.id.length = 3) := by
  rw [load_configuration]
  by_cases h : ∀ m ∈ ms, m.id.length = 1 ∨ m.id.length = 3
  · rw [if_pos h]
    exact ⟨⟨fun _ => h, fun _ => ⟨_, rfl⟩⟩, ⟨fun ⟨_, e⟩ => (nomatch e), fun h' => absurd h h'⟩⟩
  · rw [if_neg h]
    exact ⟨⟨fun ⟨_, e⟩ => (nomatch e), fun h' => absurd h' h⟩, ⟨fun _ => h, fun _ => ⟨_, rfl⟩⟩⟩

/-- C61 is false for every ID and every name other than the one shown anyway: configuring the manufacturer changes nothing for its ID. -/
theorem C61_names_fails (m : Manufacturer) (h : m.id.length = 1 ∨ m.id.length = 3) (hn : m.name ≠ (lookupManufacturer m.id).name) :
    ∃ list, loadManufacturers (configuration [m]) = .ok list ∧ lookupManufacturerIn (addManufacturers list manufacturers) m.id = lookupManufacturer m.id ∧
      (lookupManufacturerIn (addManufacturers list manufacturers) m.id).name ≠ m.name := by
  have hload := load_configuration [m]
  rw [if_pos (by simpa using h)] at hload
  have hsame : lookupManufacturerIn (addManufacturers ([m].map fun m => configured m.id).reverse manufacturers) m.id = lookupManufacturer m.id := by
    have := lookup_loaded [m.id] (by simpa using h) m.id h
    simp only [List.map_cons, List.map_nil] at this ⊢
    by_cases hr : Replaces m.id m.id
    · exact this.1 m.id ⟨[], [], rfl, hr, by simp⟩
    · exact this.2 (by simpa using hr)
  exact ⟨_, hload, hsame, by rw [hsame]; exact fun e => hn e.symm⟩

/-- C61, partial: the configured name is shown if it is the built-in one.  (Missing for the full property: any other name, see `C61_names_fails`.) -/
theorem C61_names_partial (m : Manufacturer) (h : m.id.length = 1 ∨ m.id.length = 3) (hn : m.name = (lookupManufacturer m.id).name) :
    ∃ list, loadManufacturers (configuration [m]) = .ok list ∧ (lookupManufacturerIn (addManufacturers list manufacturers) m.id).name = m.name := by
  have hload := load_configuration [m]
  rw [if_pos (by simpa using h)] at hload
  refine ⟨_, hload, ?_⟩
  have := lookup_loaded [m.id] (by simpa using h) m.id h
  simp only [List.map_cons, List.map_nil] at this ⊢
  rw [hn]
  by_cases hr : Replaces m.id m.id
  · rw [this.1 m.id ⟨[], [], rfl, hr, by simp⟩]
  · rw [this.2 (by simpa using hr)]

/-- An ID that is not in the table, and a name that is never shown. -/
example : ∃ list, loadManufacturers (configuration [⟨[0x54], "Borg", "A New Name"⟩]) = .ok list ∧
    (lookupManufacturerIn (addManufacturers list manufacturers) [0x54]).name ≠ "A New Name" := by
  obtain ⟨list, h1, _, h3⟩ := C61_names_fails ⟨[0x54], "Borg", "A New Name"⟩ (by simp) (by decide +kernel)
  exact ⟨list, h1, h3⟩

/-- The hypothesis of `C86_configuration_exact` holds for a configuration that changes two lookups: 7E is shown with the name of 7F, and the ID
00 77 01 as 12 77 01. -/
example : ∃ list, loadManufacturers (configuration [⟨[0x7f], "x", "y"⟩, ⟨[0x12, 0x77, 0x01], "x", "z"⟩]) = .ok list ∧
    lookupManufacturerIn (addManufacturers list manufacturers) [0x7e] = ⟨[0x7e], "Special Purpose", "RealTime Extensions"⟩ ∧
    lookupManufacturerIn (addManufacturers list manufacturers) [0x00, 0x77, 0x01] = ⟨[0x12, 0x77, 0x01], "<unknown>", "<unknown>"⟩ := by
  refine ⟨_, load_configuration _ |>.trans (if_pos (by simp)), ?_, ?_⟩ <;> decide +kernel

end Midiasm
