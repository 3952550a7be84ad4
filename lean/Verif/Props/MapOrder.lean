import Verif.Props.Manufacturers
import Verif.Props.ReadBack

/-!
C125 and C126: the order in which Go iterates over the map of manufacturers.
-/

set_option linter.unusedSimpArgs false

namespace Midiasm
open Spec Lib

/-! ### Assembling asks only for manufacturers by name -/

theorem parseEvents_table {t u : List (String × Manufacturer)} (h : findManufacturer t = findManufacturer u)
    (ls : List Bytes) : parseEvents t ls = parseEvents u ls := by
  have h1 : readSequencerSpecific t = readSequencerSpecific u := by
    funext line
    unfold readSequencerSpecific
    rw [h]
  have h2 : readSysExMessage t = readSysExMessage u := by
    funext line
    unfold readSysExMessage
    rw [h]
  have h3 : readEvent t = readEvent u := by
    funext line
    unfold readEvent textCases
    rw [h1, h2]
  induction ls with
  | nil => rfl
  | cons l ls ih =>
    rw [parseEvents, parseEvents, ih, h3]

theorem assembleText_table {t u : List (String × Manufacturer)} (h : findManufacturer t = findManufacturer u)
    (text : Bytes) : assembleText t text = assembleText u text := by
  have h1 : ∀ chunk, parseMTrk t chunk = parseMTrk u chunk := by
    intro chunk
    unfold parseMTrk
    simp only [parseEvents_table h]
  have h2 : ∀ chunk smf line, assembleLine t chunk smf line = assembleLine u chunk smf line := by
    intro chunk smf line
    unfold assembleLine
    rw [h1]
  have h3 : ∀ chunk ls smf, assembleLines t chunk ls smf = assembleLines u chunk ls smf := by
    intro chunk ls
    induction ls with
    | nil => intro smf; rfl
    | cons l ls ih =>
      intro smf
      rw [assembleLines, assembleLines, h2]
      simp only [ih]
  have h4 : ∀ cs smf, assembleChunks t cs smf = assembleChunks u cs smf := by
    intro cs
    induction cs with
    | nil => intro smf; rfl
    | cons c cs ih =>
      intro smf
      rw [assembleChunks, assembleChunks, h3]
      simp only [ih]
  unfold assembleText
  simp only [h4]

/-- Entries whose names tell manufacturers apart are found alike in any order. -/
theorem find_order (t u : List (String × Manufacturer)) (hp : t.Perm u)
    (h : ∀ a ∈ t, ∀ b ∈ t, a.2.name = b.2.name → a.2 = b.2) : findManufacturer t = findManufacturer u := by
  funext s
  unfold findManufacturer
  cases h1 : t.find? (fun e => s == str e.2.name) with
  | none =>
    have : u.find? (fun e => s == str e.2.name) = none := by
      rw [List.find?_eq_none] at h1 ⊢
      exact fun x hx => h1 x (hp.mem_iff.2 hx)
    rw [this]
  | some a =>
    have ha := List.mem_of_find?_eq_some h1
    have hs := List.find?_some h1
    cases h2 : u.find? (fun e => s == str e.2.name) with
    | none =>
      rw [List.find?_eq_none] at h2
      exact absurd hs (h2 a (hp.mem_iff.1 ha))
    | some b =>
      have hb := List.mem_of_find?_eq_some h2
      have hs' := List.find?_some h2
      simp only [beq_iff_eq] at hs hs'
      simp only
      rw [h a ha b (hp.mem_iff.2 hb) (str_inj (hs.symm.trans hs'))]

/-- C125: assembling a text does not depend on the order in which Go iterates over the map of manufacturers. -/
theorem C125_order (order : List (String × Manufacturer)) (h : order.Perm manufacturers) (text : Bytes) :
    assembleText order text = assembleText manufacturers text := by
  refine assembleText_table (find_order _ _ h ?_) text
  intro a ha b hb he
  exact (builtin_names b (h.mem_iff.1 hb)).1 a (h.mem_iff.1 ha) he

/-! ### With a configuration -/

theorem mem_mapEntries {l : List (String × Manufacturer)} {x : String × Manufacturer} (h : x ∈ mapEntries l) : x ∈ l := by
  induction l with
  | nil => exact h
  | cons e l ih =>
    rw [mapEntries] at h
    rcases List.mem_cons.1 h with rfl | h
    · simp
    · exact List.mem_cons_of_mem _ (ih (List.mem_filter.1 h).1)

theorem mapEntries_keys {l : List (String × Manufacturer)} {x y : String × Manufacturer} (hx : x ∈ mapEntries l)
    (hy : y ∈ mapEntries l) (h : x.1 = y.1) : x = y := by
  induction l with
  | nil => cases hx
  | cons e l ih =>
    rw [mapEntries] at hx hy
    rcases List.mem_cons.1 hx with rfl | hx
    · rcases List.mem_cons.1 hy with rfl | hy
      · rfl
      · have := (List.mem_filter.1 hy).2
        simp only [decide_eq_true_eq] at this
        exact absurd h.symm this
    · rcases List.mem_cons.1 hy with rfl | hy
      · have := (List.mem_filter.1 hx).2
        simp only [decide_eq_true_eq] at this
        exact absurd h this
      · exact ih (List.mem_filter.1 hx).1 (List.mem_filter.1 hy).1

/-- The entries of the map are those that lookups by key find. -/
theorem mapEntries_lookup (l : List (String × Manufacturer)) (k : String) : lookupKey (mapEntries l) k = lookupKey l k := by
  unfold lookupKey
  congr 1
  induction l with
  | nil => rfl
  | cons e l ih =>
    rw [mapEntries]
    by_cases h : e.1 = k
    · rw [List.find?_cons_of_pos (by simpa using h), List.find?_cons_of_pos (by simpa using h)]
    · rw [List.find?_cons_of_neg (by simpa using h), List.find?_cons_of_neg (by simpa using h), ← ih]
      rw [List.find?_filter]
      congr 1
      funext x
      by_cases hx : x.1 = k
      · subst hx; simp [Ne.symm h]
      · simp [hx]

theorem known_entry (c : Bytes) (h : c.length = 1 ∨ c.length = 3) (hn : (lookupManufacturer c).name ≠ "<unknown>") :
    ∃ e ∈ manufacturers, e.2 = lookupManufacturer c := by
  rcases lookup_cases c h with ⟨_, h'⟩ | ⟨m, h1, h2, _⟩
  · rw [h'] at hn
    exact absurd rfl hn
  · exact ⟨_, lookupKey_mem h1, h2.symm⟩

/-- Two manufacturers of the map with the same known name are the same. -/
theorem loaded_names (ids : List Bytes) (hids : ∀ c ∈ ids, c.length = 1 ∨ c.length = 3) {a b : String × Manufacturer}
    (ha : a ∈ mapEntries (addManufacturers (ids.map configured).reverse manufacturers))
    (hb : b ∈ mapEntries (addManufacturers (ids.map configured).reverse manufacturers)) (h : a.2.name = b.2.name) :
    (a.2.name ≠ "<unknown>" → a.2 = b.2) ∧
    (a.2.name = "<unknown>" → ∃ c ∈ ids, ∃ d ∈ ids, (lookupManufacturer c).name = "<unknown>" ∧
      (lookupManufacturer d).name = "<unknown>" ∧ (SameMaker c d → a.2 = b.2)) := by
  have hk := mapEntries_keys ha hb
  have cases_of : ∀ x : String × Manufacturer, x ∈ mapEntries (addManufacturers (ids.map configured).reverse manufacturers) →
      (∃ e ∈ manufacturers, e.2 = x.2 ∧ x.2.name ≠ "<unknown>") ∨
      (x.2.name = "<unknown>" ∧ ∃ c ∈ ids, x = configured c) := by
    intro x hx
    have hx := mem_mapEntries hx
    rw [addManufacturers] at hx
    rcases List.mem_append.1 hx with hx | hx
    · rw [List.mem_reverse, List.mem_map] at hx
      obtain ⟨c, hc, rfl⟩ := hx
      by_cases hn : (lookupManufacturer c).name = "<unknown>"
      · exact .inr ⟨hn, c, hc, rfl⟩
      · obtain ⟨e, he, h2⟩ := known_entry c (hids c hc) hn
        exact .inl ⟨e, he, h2, hn⟩
    · have := table_entries x hx
      simp only [Bool.and_eq_true, bne_iff_ne, ne_eq] at this
      exact .inl ⟨x, hx, rfl, this.1.1.2⟩
  constructor
  · intro hn
    rcases cases_of a ha with ⟨x, hx, h1, _⟩ | ⟨h1, _⟩
    · rcases cases_of b hb with ⟨y, hy, h2, _⟩ | ⟨h2, _⟩
      · rw [← h1, ← h2]
        exact (builtin_names y hy).1 x hx (by rw [h1, h2, h])
      · exact absurd (h.trans h2) hn
    · exact absurd h1 hn
  · intro hn
    rcases cases_of a ha with ⟨_, _, _, h1⟩ | ⟨h1, c, hc, rfl⟩
    · exact absurd hn h1
    · rcases cases_of b hb with ⟨_, _, _, h2⟩ | ⟨h2, d, hd, rfl⟩
      · exact absurd (h.symm.trans h1) h2
      · refine ⟨c, hc, d, hd, h1, h2, fun hs => ?_⟩
        have hl1 := hids c hc
        have hl2 := hids d hd
        have e1 : lookupManufacturer c = ⟨c, "<unknown>", "<unknown>"⟩ := by
          rcases lookup_cases c hl1 with ⟨_, h'⟩ | ⟨m, _, h', _, _, _, h4, _⟩
          · exact h'
          · exact absurd h1 (by simp only [configured]; rw [h']; exact h4)
        have e2 : lookupManufacturer d = ⟨d, "<unknown>", "<unknown>"⟩ := by
          rcases lookup_cases d hl2 with ⟨_, h'⟩ | ⟨m, _, h', _, _, _, h4, _⟩
          · exact h'
          · exact absurd h2 (by simp only [configured]; rw [h']; exact h4)
        have hkey : (configured c).1 = (configured d).1 := by
          simp only [configured, e1, e2]
          exact ((key_same c d hl1 hl2).2 hs).symm
        rw [hk hkey]

/-- C126, partial: with a configuration, too, known names are found whatever the order of the map, and assembling does
not depend on the order unless the configuration has IDs of two unknown manufacturers.  (Missing for the full property:
such configurations, for which it is false, see `C126_configured_order_fails`.) -/
theorem C126_configured_order_partial (j : Json) (list : List (String × Manufacturer)) (h : loadManufacturers j = .ok list) :
    ∃ ids, Configures j ids ∧ ∀ o1 o2 : List (String × Manufacturer),
      o1.Perm (mapEntries (addManufacturers list manufacturers)) → o2.Perm (mapEntries (addManufacturers list manufacturers)) →
      (∀ name, name ≠ str "<unknown>" → findManufacturer o1 name = findManufacturer o2 name) ∧
      ((∀ c ∈ ids, ∀ d ∈ ids, (lookupManufacturer c).name = "<unknown>" → (lookupManufacturer d).name = "<unknown>" → SameMaker c d) →
        ∀ text, assembleText o1 text = assembleText o2 text) := by
  obtain ⟨ids, h1, h2, rfl⟩ := load_ids j list h
  refine ⟨ids, h1, fun o1 o2 p1 p2 => ⟨?_, ?_⟩⟩
  · intro name hname
    have hperm := p1.trans p2.symm
    unfold findManufacturer
    cases f1 : o1.find? (fun e => name == str e.2.name) with
    | none =>
      have : o2.find? (fun e => name == str e.2.name) = none := by
        rw [List.find?_eq_none] at f1 ⊢
        exact fun x hx => f1 x (hperm.mem_iff.2 hx)
      rw [this]
    | some a =>
      have ha := List.mem_of_find?_eq_some f1
      have hs := List.find?_some f1
      cases f2 : o2.find? (fun e => name == str e.2.name) with
      | none =>
        rw [List.find?_eq_none] at f2
        exact absurd hs (f2 a (hperm.mem_iff.1 ha))
      | some b =>
        have hb := List.mem_of_find?_eq_some f2
        have hs' := List.find?_some f2
        simp only [beq_iff_eq] at hs hs'
        simp only
        rw [(loaded_names ids h2 (p1.mem_iff.1 ha) (p2.mem_iff.1 hb) (str_inj (hs.symm.trans hs'))).1
          (fun e => hname (by rw [hs, e]))]
  · intro hu text
    refine assembleText_table (find_order _ _ (p1.trans p2.symm) ?_) text
    intro a ha b hb he
    obtain ⟨k1, k2⟩ := loaded_names ids h2 (p1.mem_iff.1 ha) (p1.mem_iff.1 hb) he
    by_cases hn : a.2.name = "<unknown>"
    · obtain ⟨c, hc, d, hd, u1, u2, k⟩ := k2 hn
      exact k (hu c hc d hd u1 u2)
    · exact k1 hn

/-- A text with a message of an unknown manufacturer. -/
def unknownText : Bytes := str "MThd format:0 metrical time:96 ppqn\nMTrk\ndelta:0 SysExMessage <unknown>, 01 02\ndelta:0 EndOfTrack\n"

/-- C126 is false: with the unknown IDs 54 and 55 in the configuration, the same text is assembled to different files,
depending on the order of the map. -/
theorem C126_configured_order_fails : ∃ list o1 o2 f1 f2,
    loadManufacturers (configuration [⟨[0x54], "x", "y"⟩, ⟨[0x55], "x", "z"⟩]) = .ok list ∧
    o1.Perm (mapEntries (addManufacturers list manufacturers)) ∧ o2.Perm (mapEntries (addManufacturers list manufacturers)) ∧
    assembleText o1 unknownText = .ok f1 ∧ assembleText o2 unknownText = .ok f2 ∧ f1 ≠ f2 := by
  have hload : loadManufacturers (configuration [⟨[0x54], "x", "y"⟩, ⟨[0x55], "x", "z"⟩]) = .ok ([[0x54], [0x55]].map configured).reverse :=
    load_configuration _ |>.trans (if_pos (by simp))
  have he : mapEntries (addManufacturers ([[0x54], [0x55]].map configured).reverse manufacturers) =
      configured [0x55] :: configured [0x54] :: manufacturers := by decide +kernel
  obtain ⟨f1, h1, k1⟩ := Outcome.of_test (o := assembleText (configured [0x55] :: configured [0x54] :: manufacturers) unknownText)
    (p := fun f => f.contains 0x55) (by decide +kernel)
  obtain ⟨f2, h2, k2⟩ := Outcome.of_test (o := assembleText (configured [0x54] :: configured [0x55] :: manufacturers) unknownText)
    (p := fun f => !f.contains 0x55) (by decide +kernel)
  refine ⟨_, _, _, f1, f2, hload, ?_, ?_, h1, h2, ?_⟩
  · rw [he]
  · rw [he]
    exact .swap _ _ _
  · rintro rfl
    rw [k1] at k2
    cases k2

-- An order other than that of the list, and a configuration with one unknown ID.
example : manufacturers.reverse.Perm manufacturers ∧ manufacturers.reverse ≠ manufacturers ∧
    (∃ list, loadManufacturers (configuration [⟨[0x54], "x", "y"⟩]) = .ok list) ∧ (lookupManufacturer [0x54]).name = "<unknown>" :=
  ⟨manufacturers.reverse_perm, by decide +kernel, ⟨_, load_configuration _ |>.trans (if_pos (by simp))⟩, by decide +kernel⟩

end Midiasm
