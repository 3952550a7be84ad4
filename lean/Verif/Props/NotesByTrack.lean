import Verif.Props.Tracks
import Verif.Props.Repeatable

/-!
C181: the notes of a file are those of its tracks.
-/

set_option linter.unusedSimpArgs false

namespace Midiasm
open Spec

/-- **C181.** The notes of a file are, one after another, the notes of the files with its first track and one of the others. -/
theorem C181_track_by_track (mc : MiddleC) (spare bytes : Bytes) (h : Header) (first : TrackEntry) (ts : List TrackEntry)
    (hf : FileSays (octaveOffset mc) bytes h (first :: ts)) (hd : 0 < h.division ∧ h.division < 32768) (hb : ∀ t ∈ first :: ts, Brief t)
    (ha : ∀ t ∈ ts, EndApart (t.events.map (·.content))) (g : Header) (hg : g.Valid) (htwo : g.tracks = 2) (hdiv : g.division = h.division)
    (ord ord' : Nat → MapOrder) (n : Int) (hfit : Fits n) :
    ∃ smf nss, decode mc spare bytes = .ok smf ∧ extractNotes mc ord n smf = .ok (List.flatten nss) ∧
      List.Forall₂ (fun t ns => ∃ smf', decode mc spare (g.chunk.bytes ++ (first.bytes ++ t.bytes)) = .ok smf' ∧ extractNotes mc ord' n smf' = .ok ns) ts nss := by
  obtain ⟨smf, pss, a1, a2, a3⟩ := C148_notes mc spare bytes h (first :: ts) hf hd (by simp) hb ord n hfit
  refine ⟨smf, (ts.zip pss).map fun (t, ps) => ps.map (noteRecord (octaveOffset mc) n (tempoChanges first) h.division t), a1, ?_, ?_⟩
  · rw [a3]
    unfold fileNotes
    rw [← List.flatMap_def]
    rfl
  · have hof : ∀ t ∈ first :: ts, TrackOfFile (octaveOffset mc) t := fun t ht => ⟨bytes, h, _, hf, ht⟩
    replace a2 : List.Forall₂ (fun (t : TrackEntry) ps => SpansOf (t.events.map (·.content)) ps) ts pss := a2
    have key : ∀ t ∈ ts, ∀ ps, SpansOf (t.events.map (·.content)) ps → ∃ smf', decode mc spare (g.chunk.bytes ++ (first.bytes ++ t.bytes)) = .ok smf' ∧
        extractNotes mc ord' n smf' = .ok (ps.map (noteRecord (octaveOffset mc) n (tempoChanges first) h.division t)) := by
      intro t ht ps hps
      have hc := C165_combined (octaveOffset mc) g hg [first, t] htwo.symm (by
        intro u hu
        rcases List.mem_cons.1 hu with rfl | hu
        · exact hof _ (by simp)
        · rw [List.mem_singleton.1 hu]
          exact hof t (by simp [ht]))
      have e : [first, t].flatMap (·.bytes) = first.bytes ++ t.bytes := by simp
      rw [e] at hc
      obtain ⟨smf', qss, b1, b2, b3⟩ := C148_notes mc spare _ g _ hc (by rw [hdiv]; exact hd) (by simp [inOrder]) (by
        intro u hu
        simp only [inOrder, List.mapIdx_cons, List.mapIdx_nil, List.mem_cons, List.not_mem_nil, or_false] at hu
        rcases hu with rfl | rfl
        · exact hb first (by simp)
        · exact hb t (by simp [ht])) ord' n hfit
      refine ⟨smf', b1, ?_⟩
      rw [b3]
      simp only [inOrder, List.mapIdx_cons, List.mapIdx_nil, List.drop_succ_cons, List.drop_zero] at b2
      cases b2 with
      | cons x b2 =>
        cases b2
        rw [spans_equal (ha t ht) hps x, hdiv]
        simp only [fileNotes, inOrder, List.mapIdx_cons, List.mapIdx_nil, List.drop_succ_cons, List.drop_zero, List.zip_cons_cons, List.zip_nil_left,
          List.flatMap_cons, List.flatMap_nil, List.append_nil, List.headD_cons]
        rfl
    clear a3 hf hb hof ha
    induction a2 with
    | nil => exact .nil
    | cons x _ ih =>
      rw [List.zip_cons_cons, List.map_cons]
      exact .cons (key _ (by simp) _ x) (ih fun t ht => key t (by simp [ht]))

/-- C181: a file with a tempo and two tracks with a note each that meets the hypotheses. -/
example : ∃ h first ts, FileSays 1 (tracksFile 1 0 96 [[0, 0xff, 0x51, 3, 7, 0xa1, 0x20], [0, 0x90, 60, 64], [9, 0x91, 62, 64]]) h (first :: ts) ∧
    (0 < h.division ∧ h.division < 32768) ∧ ts.length = 2 ∧ (∀ t ∈ first :: ts, Brief t) ∧ (∀ t ∈ ts, EndApart (t.events.map (·.content))) ∧
    Header.Valid ⟨1, 2, 96⟩ := by
  have apart : ∀ a b v, EndApart [.noteOn a b v, .endOfTrack] := by
    rintro a b v ⟨c, k, f, l⟩ ⟨c', k', f', l'⟩ ⟨⟨x, h1, v, hv, rfl⟩, _⟩ ⟨⟨x', h1', v', hv', rfl⟩, _⟩ hl hc
    simp only at h1 h1' hl hc
    subst hl hc
    match f, f', h1, h1' with
    | 0, 0, h1, h1' => simp at h1 h1'; simp [← h1.2.1, ← h1'.2.1]
    | 1, _, h1, _ => simp at h1
    | _, 1, _, h1' => simp at h1'
    | n + 2, _, h1, _ => simp at h1
    | _, n + 2, _, h1' => simp at h1'
  obtain ⟨smf, h1, h2⟩ := Outcome.of_test
    (o := decode .c3 [] (tracksFile 1 0 96 [[0, 0xff, 0x51, 3, 7, 0xa1, 0x20], [0, 0x90, 60, 64], [9, 0x91, 62, 64]]))
    (p := fun smf => match smf.mthd, smf.tracks.map MTrk.entry with
      | some m, [a, b, c] => decide (m.division = 96) && decide ((a.events.map (·.delta)).sum < 10) && decide ((b.events.map (·.delta)).sum < 10) &&
        decide ((c.events.map (·.delta)).sum < 10) && decide (b.events.map (·.content) = [.noteOn 0 60 64, .endOfTrack]) &&
        decide (c.events.map (·.content) = [.noteOn 1 62 64, .endOfTrack])
      | _, _ => false) (by decide +kernel)
  obtain ⟨h, ts, hf, ⟨m, hm, hsh, _⟩, hts⟩ := C143_total .c3 [] _ smf h1
  rw [hm, hts] at h2
  split at h2
  · rename_i m' a b c e1
    cases e1
    simp only [Bool.and_eq_true, decide_eq_true_eq] at h2
    obtain ⟨⟨⟨⟨⟨d1, d2⟩, d3⟩, d4⟩, d5⟩, d6⟩ := h2
    have hdiv : h.division = 96 := by
      rw [← hsh.2.2.2.2.1, d1]
      rfl
    have brief : ∀ t : TrackEntry, (t.events.map (·.delta)).sum < 10 → Brief t := by
      intro t ht
      unfold Brief
      omega
    refine ⟨h, a, [b, c], hf, by omega, rfl, ?_, ?_, ⟨by decide, by decide, by decide, Or.inl (by decide)⟩⟩
    · simp only [List.forall_mem_cons, List.not_mem_nil, false_implies, implies_true, and_true]
      exact ⟨brief a d2, brief b d3, brief c d4⟩
    · simp only [List.forall_mem_cons, List.not_mem_nil, false_implies, implies_true, and_true]
      rw [d5, d6]
      exact ⟨apart 0 60 64, apart 1 62 64⟩
  · cases h2

end Midiasm
