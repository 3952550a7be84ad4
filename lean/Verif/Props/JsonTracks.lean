import Verif.Spec.SimpleDocument
import Verif.Props.JsonAgain

/-!
C174: a JSON document is assembled track by track, and the tracks of documents can be put together anew.
-/

set_option linter.unusedSimpArgs false

namespace Midiasm
open Spec

theorem valuesOf_members (name : String) (v : Json) : valuesOf name (.obj (membersOf v)) = valuesOf name v := rfl

theorem together_single {name : String} {j v : Json} (h : valuesOf name j = [v]) : together name j = .obj (membersOf v) := by
  unfold together
  rw [h]
  simp

theorem stacked_single (l : List Json) : stacked [l] = l.map fun x => [x] := by
  unfold stacked
  rw [show ([l].getLastD [] : List Json) = l from rfl]
  apply List.ext_getElem?
  intro i
  simp only [List.getElem?_map]
  by_cases hi : i < l.length
  · rw [List.getElem?_range hi, List.getElem?_eq_getElem hi]
    simp [List.getElem?_eq_getElem hi]
  · rw [List.getElem?_eq_none (by simpa using hi), List.getElem?_eq_none (by simpa using hi)]
    rfl

theorem tracksOf_simple {j : Json} {l : List Json} (h : valuesOf "tracks" j = [.arr l]) : tracksOf j = l.map fun t => .obj (membersOf t) := by
  unfold tracksOf
  rw [h]
  cases l with
  | nil => rfl
  | cons x l =>
    have e : lastArrays [Json.arr (x :: l)] = [x :: l] := rfl
    rw [e, stacked_single, List.map_map]
    apply List.map_congr_left
    intro t _
    simp

theorem trackSays_members {t : Json} {es : List Event} : TrackSays (.obj (membersOf t)) es ↔ TrackSays t es := Iff.rfl

theorem says_simple {j header : Json} {l : List Json} (h : SimpleDocument j header l) (f d : Nat) (ts : List (List Event)) :
    DocumentSays j f d ts ↔ HeaderObject header f d ∧ (∀ t ∈ l, TrackLike t) ∧ List.Forall₂ TrackSays l ts := by
  unfold DocumentSays HeaderSays HeaderObject
  rw [together_single h.1, h.1, h.2, tracksOf_simple h.2, List.forall₂_map_left_iff]
  simp only [valuesOf_members, List.mem_singleton, forall_eq, reduceCtorEq, false_or, Json.arr.injEq, exists_eq_left']
  exact Iff.rfl

/-- **C174.** A document with one header and one array of tracks is assembled header by header and track by track: the file is the header with the number of
tracks and the chunks that each of the tracks gives by itself. -/
theorem C174_track_by_track (mc : MiddleC) {j header : Json} {l : List Json} (h : SimpleDocument j header l) (b : Bytes) :
    assembleJson mc j = .ok b ↔ ∃ (f d : Nat) (chunks : List Bytes), HeaderObject header f d ∧ l.length < 65536 ∧ List.Forall₂ TrackGives l chunks ∧
      b = (Header.mk f l.length d).chunk.bytes ++ chunks.flatten := by
  rw [C137_json_file]
  constructor
  · rintro ⟨f, d, ts, chunks, h1, h2, h3, rfl⟩
    obtain ⟨k1, k2, k3⟩ := (says_simple h f d ts).1 h1
    refine ⟨f, d, chunks, k1, by rw [k3.length_eq]; exact h2, ?_, by rw [k3.length_eq]⟩
    clear h1 h h2
    revert k2 chunks
    induction k3 with
    | nil => intro chunks h3 _; cases h3; exact .nil
    | cons a _ ih =>
      intro chunks h3 k2
      cases h3 with
      | cons c cs => exact .cons ⟨k2 _ (by simp), _, a, c⟩ (ih _ cs fun t ht => k2 t (by simp [ht]))
  · rintro ⟨f, d, chunks, h1, h2, h3, rfl⟩
    have : ∃ ts, (∀ t ∈ l, TrackLike t) ∧ List.Forall₂ TrackSays l ts ∧ List.Forall₂ TrackChunk ts chunks := by
      clear h h2
      induction h3 with
      | nil => exact ⟨[], by simp, .nil, .nil⟩
      | cons a _ ih =>
        obtain ⟨ts, k1, k2, k3⟩ := ih
        obtain ⟨a1, es, a2, a3⟩ := a
        refine ⟨es :: ts, ?_, .cons a2 k2, .cons a3 k3⟩
        intro t ht
        rcases List.mem_cons.1 ht with rfl | ht
        · exact a1
        · exact k1 t ht
    obtain ⟨ts, k1, k2, k3⟩ := this
    exact ⟨f, d, ts, chunks, (says_simple h f d ts).2 ⟨h1, k1, k2⟩, by rw [← k2.length_eq]; exact h2, k3, by rw [← k2.length_eq]⟩

/-- A document with one header and one array of tracks. -/
def documentOf (header : Json) (l : List Json) : Json := jobj [("header", header), ("tracks", .arr l)]

theorem simple_documentOf (header : Json) (l : List Json) : SimpleDocument (documentOf header l) header l := by
  have h1 : SameName "header" (runes (str "header")) := by decide +kernel
  have h2 : ¬ SameName "header" (runes (str "tracks")) := by decide +kernel
  have h3 : ¬ SameName "tracks" (runes (str "header")) := by decide +kernel
  have h4 : SameName "tracks" (runes (str "tracks")) := by decide +kernel
  constructor
  · simp [documentOf, jobj, valuesOf, membersOf, h1, h2]
  · simp [documentOf, jobj, valuesOf, membersOf, h3, h4]

theorem trackGives_unique {header t : Json} {f d : Nat} (hh : HeaderObject header f d) {c c' : Bytes} (h : TrackGives t c) (h' : TrackGives t c') : c = c' := by
  have h1 := (C174_track_by_track .c3 (simple_documentOf header [t]) _).2 ⟨f, d, [c], hh, by simp, .cons h .nil, rfl⟩
  rw [(C174_track_by_track .c3 (simple_documentOf header [t]) _).2 ⟨f, d, [c'], hh, by simp, .cons h' .nil, rfl⟩] at h1
  injection h1 with h1
  have h2 := List.append_cancel_left h1
  simpa using h2.symm

/-- **C174.** Documents with one header and one array of tracks are assembled to files.  A document with the header of one of them and any of their tracks, in
any order and any number of times, is assembled to a file with that format and division, and with the chunks that these tracks have in the files of the
documents that they were taken from. -/
theorem C174_put_together (mc mc' mc'' : MiddleC) {k header : Json} {l : List Json} (hk : SimpleDocument k header l) (hn : l.length < 65536)
    {j : Json} {l0 : List Json} {b0 : Bytes} (hj : SimpleDocument j header l0) (hb0 : assembleJson mc j = .ok b0)
    (hl : ∀ t ∈ l, ∃ j' header' l' b', SimpleDocument j' header' l' ∧ t ∈ l' ∧ assembleJson mc' j' = .ok b') :
    ∃ (f d : Nat) (rest : Bytes) (chunks : List Bytes), b0 = (Header.mk f l0.length d).chunk.bytes ++ rest ∧ chunks.length = l.length ∧
      assembleJson mc'' k = .ok ((Header.mk f l.length d).chunk.bytes ++ chunks.flatten) ∧
      ∀ (i : Nat) (t : Json) (c : Bytes), l[i]? = some t → chunks[i]? = some c → ∀ j' header' l' b', SimpleDocument j' header' l' → assembleJson mc' j' = .ok b' →
        ∃ (h : Header) (cs : List Bytes), h.tracks = l'.length ∧ cs.length = l'.length ∧ b' = h.chunk.bytes ++ cs.flatten ∧
          ∀ n : Nat, l'[n]? = some t → cs[n]? = some c := by
  obtain ⟨f, d, cs0, h1, h2, h3, rfl⟩ := (C174_track_by_track mc hj b0).1 hb0
  have hch : ∃ chunks, List.Forall₂ TrackGives l chunks := by
    clear hk hn
    induction l with
    | nil => exact ⟨[], .nil⟩
    | cons t l ih =>
      obtain ⟨cs, hcs⟩ := ih (fun x hx => hl x (by simp [hx]))
      obtain ⟨j', header', l', b', k1, k2, k3⟩ := hl t (by simp)
      obtain ⟨_, _, cs', _, _, k4, _⟩ := (C174_track_by_track mc' k1 b').1 k3
      obtain ⟨n, hn⟩ := List.mem_iff_getElem?.1 k2
      obtain ⟨hlt, hn⟩ := List.getElem?_eq_some_iff.1 hn
      have := k4.get hlt (by rw [← k4.length_eq]; exact hlt)
      rw [List.get_eq_getElem, hn] at this
      exact ⟨_ :: cs, .cons this hcs⟩
  obtain ⟨chunks, hch⟩ := hch
  refine ⟨f, d, cs0.flatten, chunks, rfl, hch.length_eq.symm, (C174_track_by_track mc'' hk _).2 ⟨f, d, chunks, h1, hn, hch, rfl⟩, ?_⟩
  intro i t c ht hc j' header' l' b' k1 k2
  obtain ⟨f', d', cs', k3, k4, k5, rfl⟩ := (C174_track_by_track mc' k1 b').1 k2
  refine ⟨⟨f', l'.length, d'⟩, cs', rfl, k5.length_eq.symm, rfl, fun n hn => ?_⟩
  obtain ⟨hlt, e1⟩ := List.getElem?_eq_some_iff.1 hn
  obtain ⟨hlt', e2⟩ := List.getElem?_eq_some_iff.1 ht
  obtain ⟨hlt'', e3⟩ := List.getElem?_eq_some_iff.1 hc
  have g1 := k5.get hlt (by rw [← k5.length_eq]; exact hlt)
  have g2 := hch.get hlt' hlt''
  rw [List.get_eq_getElem, List.get_eq_getElem] at g1 g2
  rw [e1] at g1
  rw [e2, e3] at g2
  rw [List.getElem?_eq_getElem (by rw [← k5.length_eq]; exact hlt), trackGives_unique h1 g1 g2]

/-- **C174.** The export of a file with tracks is such a document. -/
theorem C174_export (smf : SMF) (h : smf.tracks ≠ []) : ∃ header l, SimpleDocument (exportJson smf) header l ∧ l.length = smf.tracks.length := by
  obtain ⟨l, h1, h2⟩ : ∃ l, tracksToJsonWith runeError smf.tracks = .arr l ∧ l.length = smf.tracks.length := by
    unfold tracksToJsonWith
    cases hts : smf.tracks with
    | nil => exact absurd hts h
    | cons t ts => exact ⟨_, rfl, by simp⟩
  have e : exportJson smf = documentOf (match smf.mthd with
    | none => .null
    | some h => headerToJsonWith runeError h) l := by
    unfold exportJson exportJsonWith documentOf
    rw [h1]
    cases smf.mthd <;> rfl
  rw [e]
  exact ⟨_, l, simple_documentOf _ l, h2⟩

/-- C174: the track of `bendDocument` twice, with its header. -/
example : ∃ header t b0, SimpleDocument bendDocument header [t] ∧ assembleJson .c3 bendDocument = .ok b0 ∧
    ∃ (f d : Nat) (chunks : List Bytes), chunks.length = 2 ∧ assembleJson .c4 (documentOf header [t, t]) = .ok ((Header.mk f 2 d).chunk.bytes ++ chunks.flatten) := by
  obtain ⟨header, t, hs⟩ : ∃ header t, SimpleDocument bendDocument header [t] := ⟨_, _, rfl, rfl⟩
  obtain ⟨b0, h1, _⟩ := Outcome.of_test (o := assembleJson .c3 bendDocument) (p := fun _ => true) (by decide +kernel)
  obtain ⟨f, d, _, chunks, _, k1, k2, _⟩ := C174_put_together .c3 .c3 .c4 (simple_documentOf header [t, t]) (by simp) hs h1 (by
    intro x hx
    have : x = t := by simpa using hx
    subst this
    exact ⟨_, _, _, _, hs, by simp, h1⟩)
  exact ⟨header, t, b0, hs, h1, f, d, chunks, by simpa using k1, by simpa using k2⟩

end Midiasm
