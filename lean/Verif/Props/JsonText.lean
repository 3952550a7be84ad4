import Verif.Lemmas.JsonText
import Verif.Lemmas.ToJson
import Verif.Lemmas.JsonAccepts
import Verif.Props.Text
import Verif.Props.NotesPrint
import Verif.Props.AssembleJson

/-!
JSON texts: what is exported is a JSON text, and every JSON text of a document assembles to the same file.
-/

set_option linter.unusedSimpArgs false

namespace Midiasm
open Spec

/-! ### Values with a text -/

mutual
/-- Values that have a text: numbers as in the grammar, strings of Unicode scalar values and stand-ins for bytes that are not UTF-8. -/
def Wellformed : Json → Prop
  | .num lit => NumberText lit
  | .str rs => ∀ r ∈ rs, Scalar r ∨ r = noRune
  | .arr l => WellformedElements l
  | .obj ms => WellformedMembers ms
  | _ => True
/-- The elements of an array. -/
def WellformedElements : List Json → Prop
  | [] => True
  | j :: js => Wellformed j ∧ WellformedElements js
/-- The members of an object. -/
def WellformedMembers : List (List Nat × Json) → Prop
  | [] => True
  | (k, j) :: ms => (∀ r ∈ k, Scalar r) ∧ Wellformed j ∧ WellformedMembers ms
end

theorem lowerHex_digit (n : Nat) (h : n < 16) : HexDigit (lowerHex n) n := by
  rw [hexValue_spec]
  have : ∀ n : Fin 16, (hexValue (lowerHex n.val)).map (·.toNat) = some n.val := by decide +kernel
  have := this ⟨n, h⟩
  cases hx : hexValue (lowerHex n) with
  | none => simp [hx] at this
  | some x => simp [hx] at this; exact ⟨x, rfl, this, h⟩

theorem unicodeEscape_text {r : Nat} (hr : Scalar r) (h : r < 65536) : CharText r (unicodeEscape r) := by
  refine Or.inr (Or.inr (Or.inl ⟨hr, [lowerHex (r / 4096 % 16), lowerHex (r / 256 % 16), lowerHex (r / 16 % 16), lowerHex (r % 16)], rfl,
    _, _, _, _, rfl, h, ?_, lowerHex_digit _ (by omega), lowerHex_digit _ (by omega), lowerHex_digit _ (by omega)⟩))
  have : r / 4096 % 16 = r / 4096 := by omega
  rw [this]
  exact lowerHex_digit _ (by omega)

theorem writeRune_text {r : Nat} (hr : Scalar r) : CharText r (writeRune r) := by
  unfold writeRune
  split
  · rename_i h; subst h; exact Or.inr (Or.inl (by decide))
  split
  · rename_i h; subst h; exact Or.inr (Or.inl (by decide))
  split
  · rename_i h; subst h; exact Or.inr (Or.inl (by decide))
  split
  · rename_i h; subst h; exact Or.inr (Or.inl (by decide))
  split
  · rename_i h; subst h; exact Or.inr (Or.inl (by decide))
  split
  · rename_i h; subst h; exact Or.inr (Or.inl (by decide))
  split
  · rename_i h; subst h; exact Or.inr (Or.inl (by decide))
  split
  · exact unicodeEscape_text hr (by omega)
  split
  · rename_i h; subst h; rcases hr with h | h <;> unfold noRune at h <;> omega
  · obtain ⟨c, hc⟩ := exists_char hr
    exact Or.inl ⟨c, hc, by rw [← hc, encodeRune_char], by omega, by omega, by omega⟩

theorem writeString_text {rs : List Nat} (h : ∀ r ∈ rs, Scalar r) : StringText Chars rs (writeString rs) := by
  refine ⟨_, rfl, ?_⟩
  induction rs with
  | nil => rfl
  | cons r rs ih => exact ⟨writeRune r, rs.flatMap writeRune, by simp, writeRune_text (h r (by simp)), ih fun r hr => h r (by simp [hr])⟩

theorem writeRune_seen {r : Nat} (h : Scalar r ∨ r = noRune) : CharText (seenRune r) (writeRune r) := by
  rcases h with h | rfl
  · rw [seenRune_scalar h]; exact writeRune_text h
  · show CharText runeError (unicodeEscape runeError)
    exact unicodeEscape_text (Or.inr (by decide)) (by decide)

theorem writeString_seen {rs : List Nat} (h : ∀ r ∈ rs, Scalar r ∨ r = noRune) : StringText Chars (rs.map seenRune) (writeString rs) := by
  refine ⟨_, rfl, ?_⟩
  induction rs with
  | nil => rfl
  | cons r rs ih => exact ⟨writeRune r, rs.flatMap writeRune, by simp, writeRune_seen (h r (by simp)), ih fun r hr => h r (by simp [hr])⟩

theorem newline_space (d : Nat) : Space (newline d) := by
  intro c hc
  unfold newline at hc
  rcases List.mem_cons.1 hc with rfl | hc
  · decide
  · rw [(List.mem_replicate.1 hc).2]; decide

mutual
/-- The writer writes texts of the grammar: those of the values that a reader sees. -/
theorem writeJson_text (j : Json) (d : Nat) (h : Wellformed j) : JsonText Chars (seen j) (writeJson d j) := by
  match j with
  | .null => rw [seen_null, JsonText]; rfl
  | .bool b => rw [seen_bool, JsonText]; rfl
  | .num lit => rw [seen_num, JsonText]; exact ⟨rfl, by simpa [Wellformed] using h⟩
  | .str rs => rw [seen, JsonText]; exact writeString_seen (by simpa [Wellformed] using h)
  | .arr [] => rw [seen, seenElements, JsonText]; exact ⟨[], rfl, by rw [ElementsText]; exact space_nil⟩
  | .arr (j :: js) =>
    rw [seen, JsonText]
    rw [Wellformed] at h
    rw [writeJson]
    exact ⟨newline (d + 1) ++ writeJson (d + 1) j ++ writeElements (d + 1) js ++ newline d, by simp,
      writeElements_text (j :: js) (d + 1) h (newline d) (newline_space d) _ (by rw [writeElements]; simp)⟩
  | .obj [] => rw [seen, seenMembers, JsonText]; exact ⟨[], rfl, by rw [MembersText]; exact space_nil⟩
  | .obj ((k, j) :: ms) =>
    rw [seen, JsonText]
    rw [Wellformed] at h
    rw [writeJson]
    exact ⟨newline (d + 1) ++ writeString k ++ [58, 32] ++ writeJson (d + 1) j ++ writeMembers (d + 1) ms ++ newline d, by simp,
      writeMembers_text ((k, j) :: ms) (d + 1) h (newline d) (newline_space d) _ (by rw [writeMembers]; simp)⟩

theorem writeElements_text (l : List Json) (d : Nat) (h : WellformedElements l) (e : Bytes) (he : Space e) (t : Bytes)
    (ht : writeElements d l = 44 :: t) : ElementsText Chars (seenElements l) (t ++ e) := by
  match l with
  | [] => rw [writeElements] at ht; cases ht
  | j :: js =>
    rw [WellformedElements] at h
    rw [writeElements] at ht
    simp only [List.cons_append, List.nil_append, List.append_assoc] at ht
    injection ht with _ ht
    subst ht
    have h1 := writeJson_text j d h.1
    rw [seenElements, ElementsText]
    cases hj : writeElements d js with
    | nil =>
      refine ⟨newline d, _, e, newline_space d, he, h1, Or.inl ⟨?_, by simp⟩⟩
      cases js with
      | nil => rw [seenElements]
      | cons j' js' => rw [writeElements] at hj; simp at hj
    | cons c t' =>
      have hc : c = 44 := by
        cases js with
        | nil => rw [writeElements] at hj; cases hj
        | cons j' js' => rw [writeElements] at hj; simp at hj; exact hj.1.symm
      subst hc
      refine ⟨newline d, _, [], newline_space d, space_nil, h1, Or.inr ⟨?_, t' ++ e, writeElements_text js d h.2 e he t' hj, by simp⟩⟩
      intro hnil
      cases js with
      | nil => rw [writeElements] at hj; cases hj
      | cons j' js' => rw [seenElements] at hnil; cases hnil

theorem writeMembers_text (l : List (List Nat × Json)) (d : Nat) (h : WellformedMembers l) (e : Bytes) (he : Space e) (t : Bytes)
    (ht : writeMembers d l = 44 :: t) : MembersText Chars (seenMembers l) (t ++ e) := by
  match l with
  | [] => rw [writeMembers] at ht; cases ht
  | (k, j) :: js =>
    rw [WellformedMembers] at h
    rw [writeMembers] at ht
    simp only [List.cons_append, List.nil_append, List.append_assoc] at ht
    injection ht with _ ht
    subst ht
    have h0 := writeString_text h.1
    have h1 := writeJson_text j d h.2.1
    have hs : Space [32] := by intro c hc; simp at hc; subst hc; decide
    rw [seenMembers, MembersText]
    cases hj : writeMembers d js with
    | nil =>
      refine ⟨newline d, _, [], [32], _, e, newline_space d, space_nil, hs, he, h0, h1, Or.inl ⟨?_, by simp⟩⟩
      cases js with
      | nil => rw [seenMembers]
      | cons m js' => obtain ⟨k', j'⟩ := m; rw [writeMembers] at hj; simp at hj
    | cons c t' =>
      have hc : c = 44 := by
        cases js with
        | nil => rw [writeMembers] at hj; cases hj
        | cons m js' => obtain ⟨k', j'⟩ := m; rw [writeMembers] at hj; simp at hj; exact hj.1.symm
      subst hc
      refine ⟨newline d, _, [], [32], _, [], newline_space d, space_nil, hs, space_nil, h0, h1,
        Or.inr ⟨?_, t' ++ e, writeMembers_text js d h.2.2 e he t' hj, by simp⟩⟩
      intro hnil
      cases js with
      | nil => rw [writeMembers] at hj; cases hj
      | cons m js' => obtain ⟨k', j'⟩ := m; rw [seenMembers] at hnil; cases hnil
end

/-! ### Exported documents -/

theorem decimal_integer (n : Nat) : dec n = str "0" ∨ (Digits (dec n) ∧ (dec n).head? ≠ some 48) := by
  by_cases h : n = 0
  · subst h; exact Or.inl (by decide +kernel)
  · refine Or.inr ⟨⟨dec_ne_nil n, dec_digits_toNat n⟩, ?_⟩
    induction n using Nat.strongRecOn with
    | _ n ih =>
      rw [dec_eq]
      split
      · simp only [List.head?_cons, ne_eq, Option.some.injEq, ← UInt8.toNat_inj]
        simp
        omega
      · have := ih (n / 10) (by omega) (by omega)
        obtain ⟨c, t, hc⟩ := List.exists_cons_of_ne_nil (dec_ne_nil (n / 10))
        rw [hc] at this ⊢
        simpa using this

theorem sound_jnum (n : Nat) : Wellformed (jnum n) := by
  rw [jnum, Wellformed]
  exact ⟨[], dec n, [], [], by simp, Or.inl rfl, decimal_integer n, Or.inl rfl, Or.inl rfl⟩

theorem sound_jint (i : Int) : Wellformed (jint i) := by
  rw [jint, Wellformed]
  split
  · exact ⟨str "-", dec i.natAbs, [], [], by simp [show str "-" = [45] from rfl], Or.inr rfl, decimal_integer _, Or.inl rfl, Or.inl rfl⟩
  · exact ⟨[], dec i.natAbs, [], [], by simp, Or.inl rfl, decimal_integer _, Or.inl rfl, Or.inl rfl⟩

theorem sound_jstr (s : Bytes) : Wellformed (jstr s) := by
  rw [jstr, Wellformed]
  exact fun r hr => Or.inl (runes_scalar s r hr)

theorem sound_jstrWith (s : Bytes) : Wellformed (jstrWith noRune s) := by
  rw [jstrWith, Wellformed]
  intro r hr
  unfold runesWith at hr
  generalize s.length = n at hr
  induction n generalizing s with
  | zero => cases s <;> cases hr
  | succ n ih =>
    cases s with
    | nil => cases hr
    | cons b rest =>
      rw [runesWithAux] at hr
      rcases List.mem_cons.1 hr with rfl | hr
      · split
        · exact Or.inr rfl
        · exact Or.inl (decodeRune_scalar b rest)
      · exact ih _ hr

theorem wf_obj (ms : List (String × Json)) (h : ∀ m ∈ ms, Wellformed m.2) : Wellformed (jobj ms) := by
  rw [jobj, Wellformed]
  induction ms with
  | nil => rw [List.map_nil, WellformedMembers]; trivial
  | cons m ms ih =>
    rw [List.map_cons, WellformedMembers]
    exact ⟨runes_scalar _, h m (by simp), ih fun m hm => h m (by simp [hm])⟩

theorem wf_arr (l : List Json) (h : ∀ j ∈ l, Wellformed j) : Wellformed (.arr l) := by
  rw [Wellformed]
  induction l with
  | nil => rw [WellformedElements]; trivial
  | cons j js ih =>
    rw [WellformedElements]
    exact ⟨h j (by simp), ih fun j hj => h j (by simp [hj])⟩

theorem nesting_obj (ms : List (String × Json)) (n : Nat) (h : ∀ m ∈ ms, nesting m.2 ≤ n) : nesting (jobj ms) ≤ 1 + n := by
  rw [jobj, nesting]
  have : nestingMembers (ms.map fun m => (runes (str m.1), m.2)) ≤ n := by
    induction ms with
    | nil => rw [List.map_nil, nestingMembers]; omega
    | cons m ms ih =>
      rw [List.map_cons, nestingMembers]
      have := h m (by simp)
      have := ih fun m hm => h m (by simp [hm])
      omega
  omega

theorem nesting_arr (l : List Json) (n : Nat) (h : ∀ j ∈ l, nesting j ≤ n) : nesting (.arr l) ≤ 1 + n := by
  rw [nesting]
  have : nestingElements l ≤ n := by
    induction l with
    | nil => rw [nestingElements]; omega
    | cons j js ih =>
      rw [nestingElements]
      have := h j (by simp)
      have := ih fun j hj => h j (by simp [hj])
      omega
  omega

theorem sound_null : Wellformed .null := by simp [Wellformed]
theorem sound_bool (b : Bool) : Wellformed (.bool b) := by simp [Wellformed]

theorem sound_bytes (bs : Bytes) : Wellformed (.arr (bs.map fun b => jnum b.toNat)) := by
  apply wf_arr
  intro j hj
  obtain ⟨b, -, rfl⟩ := List.mem_map.1 hj
  exact sound_jnum _

theorem sound_manufacturer (m : Lib.Manufacturer) : Wellformed (manufacturerToJson m) := by
  apply wf_obj
  simp [sound_bytes, sound_jstr]

theorem wf_members (b : Body) : ∀ m ∈ b.membersWith noRune, Wellformed m.2 := by
  cases b <;> simp [Body.membersWith, sound_jnum, sound_jint, sound_jstr, sound_jstrWith, sound_bool, sound_manufacturer, hexToJson, sound_bytes, noteToJson,
    controllerToJson, wf_obj]

theorem wf_event (e : Event) : Wellformed (eventToJsonWith noRune e) := by
  apply wf_obj
  intro m hm
  simp only [List.mem_append, List.mem_cons, List.not_mem_nil, or_false] at hm
  rcases hm with ((rfl | rfl | rfl) | hm) | hm
  · exact sound_jstr _
  · exact sound_jnum _
  · exact sound_jnum _
  · split at hm
    · simp at hm; subst hm; exact sound_jnum _
    · cases hm
  · exact wf_members _ m hm

theorem wf_track (t : MTrk) : Wellformed (trackToJsonWith noRune t) := by
  apply wf_obj
  intro m hm
  simp only [List.mem_cons, List.not_mem_nil, or_false] at hm
  rcases hm with rfl | rfl | rfl
  · exact sound_jstrWith _
  · exact sound_jnum _
  · apply wf_arr
    intro j hj
    obtain ⟨e, -, rfl⟩ := List.mem_map.1 hj
    exact wf_obj _ (by simp [wf_event])

theorem sound_export (smf : SMF) : Wellformed (exportJsonWith noRune smf) := by
  apply wf_obj
  intro m hm
  simp only [List.mem_cons, List.not_mem_nil, or_false] at hm
  rcases hm with rfl | rfl
  · simp only
    split
    · exact sound_null
    · exact wf_obj _ (by simp [sound_jnum, sound_jstrWith, sound_bool])
  · show Wellformed (tracksToJsonWith noRune smf.tracks)
    unfold tracksToJsonWith
    split
    · exact sound_null
    · apply wf_arr
      intro j hj
      obtain ⟨t, -, rfl⟩ := List.mem_map.1 hj
      exact wf_track t

theorem nesting_jnum (n : Nat) : nesting (jnum n) = 0 := by simp [jnum, nesting]
theorem nesting_jint (n : Int) : nesting (jint n) = 0 := by simp [jint, nesting]
theorem nesting_jstr (s : Bytes) : nesting (jstr s) = 0 := by simp [jstr, nesting]
theorem nesting_bool (b : Bool) : nesting (.bool b) = 0 := by simp [nesting]

theorem nesting_bytes (bs : Bytes) : nesting (.arr (bs.map fun b => jnum b.toNat)) ≤ 1 := by
  apply nesting_arr _ 0
  intro j hj
  obtain ⟨b, -, rfl⟩ := List.mem_map.1 hj
  rw [nesting_jnum]

theorem nesting_manufacturer (m : Lib.Manufacturer) : nesting (manufacturerToJson m) ≤ 2 := by
  apply nesting_obj _ 1
  simp [nesting_bytes, nesting_jstr]

theorem nesting_members (b : Body) : ∀ m ∈ b.members, nesting m.2 ≤ 2 := by
  have hb : ∀ bs : Bytes, nesting (.arr (bs.map fun b => jnum b.toNat)) ≤ 2 := fun bs => by have := nesting_bytes bs; omega
  have hn : ∀ n : NoteVal, nesting (noteToJson n) ≤ 2 := by
    intro n
    have := nesting_obj [("value", jnum n.value.toNat), ("name", jstr (str n.name)), ("alias", jstr (str n.alias))] 0
      (by simp [nesting_jnum, nesting_jstr])
    unfold noteToJson; omega
  have hc : ∀ c : Lib.Controller, nesting (controllerToJson c) ≤ 2 := by
    intro c
    have := nesting_obj [("id", jnum c.id.toNat), ("name", jstr (str c.name))] 0 (by simp [nesting_jnum, nesting_jstr])
    unfold controllerToJson; omega
  cases b <;> simp [Body.members, Body.membersWith, jstrWith_error, nesting_jnum, nesting_jint, nesting_jstr, nesting_bool, nesting_manufacturer, hexToJson, hb, hn, hc]

theorem nesting_event (e : Event) : nesting (eventToJson e) ≤ 3 := by
  apply nesting_obj _ 2
  intro m hm
  simp only [List.mem_append, List.mem_cons, List.not_mem_nil, or_false] at hm
  rcases hm with ((rfl | rfl | rfl) | hm) | hm
  · simp [nesting_jstr]
  · simp [nesting_jnum]
  · simp [nesting_jnum]
  · split at hm
    · simp at hm; subst hm; simp [nesting_jnum]
    · cases hm
  · exact nesting_members _ m hm

theorem nesting_track (t : MTrk) : nesting (trackToJson t) ≤ 6 := by
  rw [trackToJson_eq]
  apply nesting_obj _ 5
  intro m hm
  simp only [List.mem_cons, List.not_mem_nil, or_false] at hm
  rcases hm with rfl | rfl | rfl
  · simp [nesting_jstr]
  · simp [nesting_jnum]
  · apply nesting_arr _ 4
    intro j hj
    obtain ⟨e, -, rfl⟩ := List.mem_map.1 hj
    exact nesting_obj _ 3 (by simp [nesting_event])

theorem nesting_export (smf : SMF) : nesting (exportJson smf) ≤ 8 := by
  rw [exportJson_eq]
  apply nesting_obj _ 7
  intro m hm
  simp only [List.mem_cons, List.not_mem_nil, or_false] at hm
  rcases hm with rfl | rfl
  · simp only
    split
    · simp [nesting]
    · rw [headerToJson_eq]
      refine Nat.le_trans (nesting_obj _ 0 ?_) (by omega)
      simp [nesting_jnum, nesting_jstr, nesting_bool]
  · show nesting (tracksToJson smf.tracks) ≤ 7
    unfold tracksToJson tracksToJsonWith
    split
    · simp [nesting]
    · apply nesting_arr _ 6
      intro j hj
      obtain ⟨t, -, rfl⟩ := List.mem_map.1 hj
      exact nesting_track t

/-! ### Properties -/

/-- The export of a file is a JSON text (RFC 8259), whatever the file contains: texts with control characters, quotes, backslashes or bytes
that are not UTF-8 included. -/
theorem C88_export_is_json (smf : SMF) : JsonText Chars (exportJson smf) (exportText smf) := by
  rw [← seen_export]
  exact writeJson_text _ 0 (sound_export smf)

/-- How a JSON text is written does not matter to the assembler: white space, escapes in strings, what follows the document. -/
theorem C89_assembles_document (mc : MiddleC) (ms : List (List Nat × Json)) (a s rest : Bytes) (ha : Space a) (h : JsonText Chars (.obj ms) s)
    (hd : nesting (.obj ms) ≤ 10000) : assembleJsonText mc (a ++ s ++ rest) = assembleJson mc (.obj ms) := by
  unfold assembleJsonText
  rw [readJson_text chars_readable ha h hd (by intro lit h; cases h)]

/-- In particular the exported text is read as what was exported. -/
theorem C89_assembles_export (mc : MiddleC) (smf : SMF) : assembleJsonText mc (exportText smf) = assembleJson mc (exportJson smf) := by
  have := C89_assembles_document mc _ [] (exportText smf) [] space_nil (C88_export_is_json smf) (Nat.le_trans (nesting_export smf) (by omega))
  rwa [List.append_nil] at this

/-- A text represents at most one value. -/
theorem C88_unambiguous (j j' : Json) (s : Bytes) (h : JsonText Chars j s) (h' : JsonText Chars j' s) : j = j' := by
  have h1 := readValue_text chars_readable j s s.length (max (nesting j) (nesting j')) [] h (by omega) (by omega) (by simp)
  have h2 := readValue_text chars_readable j' s s.length (max (nesting j) (nesting j')) [] h' (by omega) (by omega) (by simp)
  rw [h1] at h2
  injection h2 with h2
  injection h2

theorem assembleJson_object (mc : MiddleC) (j : Json) (out : Bytes) (h : assembleJson mc j = .ok out) : ∃ ms, j = .obj ms := by
  unfold assembleJson at h
  cases j with
  | obj ms => exact ⟨ms, rfl⟩
  | null => exact absurd h (by simp [field, parseJsonMThd, bind, Outcome.bind])
  | bool b => exact absurd h (by simp [field, bind, Outcome.bind])
  | num b => exact absurd h (by simp [field, bind, Outcome.bind])
  | str b => exact absurd h (by simp [field, bind, Outcome.bind])
  | arr b => exact absurd h (by simp [field, bind, Outcome.bind])

/-- Whatever is assembled starts with a JSON object, after white space, and the result is that of the object.  (Strings may contain bytes that
are not UTF-8 and halves of surrogate pairs; they are replaced.) -/
theorem C90_malformed_rejected (mc : MiddleC) (text out : Bytes) (h : assembleJsonText mc text = .ok out) :
    ∃ a s rest ms, text = a ++ s ++ rest ∧ Space a ∧ JsonText CharsRead (.obj ms) s ∧ nesting (.obj ms) ≤ 10000 ∧
      assembleJson mc (.obj ms) = .ok out := by
  unfold assembleJsonText at h
  split at h
  · cases h
  · rename_i j hj
    obtain ⟨ms, rfl⟩ := assembleJson_object mc j out h
    obtain ⟨a, s, rest, h1, h2, h3, h4⟩ := readJson_sound hj
    exact ⟨a, s, rest, ms, h1, h2, h3, h4, h⟩

/-- C91 is false: anything may follow the document. -/
theorem C91_trailing_fails (mc : MiddleC) (ms : List (List Nat × Json)) (s out rest : Bytes) (h : JsonText Chars (.obj ms) s)
    (hd : nesting (.obj ms) ≤ 10000) (ho : assembleJsonText mc s = .ok out) : assembleJsonText mc (s ++ rest) = .ok out := by
  have h1 := C89_assembles_document mc ms [] s [] space_nil h hd
  have h2 := C89_assembles_document mc ms [] s rest space_nil h hd
  simp only [List.nil_append, List.append_nil] at h1 h2
  rw [h2, ← h1, ho]

/-- The file of `plainFile`, exported as text with white space in front and rubbish behind, and assembled. -/
example : ∃ smf, decode .c3 [] plainFile = .ok smf ∧ assembleJsonText .c4 (str " \n" ++ exportText smf ++ str "}]") = .ok plainFile := by
  obtain ⟨smf, h1, h2⟩ := plain_exported
  refine ⟨smf, h1, ?_⟩
  have hs : Space (str " \n") := by
    have : ∀ c ∈ str " \n", c ∈ ([32, 9, 10, 13] : Bytes) := by decide +kernel
    exact this
  have := C89_assembles_document .c4 _ (str " \n") (exportText smf) (str "}]") hs (C88_export_is_json smf) (Nat.le_trans (nesting_export smf) (by omega))
  rw [this]
  exact h2

/-- What the export of a file without tracks looks like. -/
example : exportText ⟨none, []⟩ = str "{\n  \"header\": null,\n  \"tracks\": null\n}" := by decide +kernel

/-- Escaped names and white space do not matter. -/
example : (readJson (str " { \"\\u0041\\n\" : [ 1.5e+3 ,\t-0 ] , \"\\ud83d\\ude00\":{}} x")).map (writeJson 0) =
    some (str "{\n  \"A\\n\": [\n    1.5e+3,\n    -0\n  ],\n  \"😀\": {}\n}") := by decide +kernel

end Midiasm
