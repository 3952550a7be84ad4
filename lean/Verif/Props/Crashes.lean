import Verif.Props.Success

/-!
Property C158: when a command on a MIDI file crashes, from the bytes of the file.
-/

set_option linter.unusedSimpArgs false

namespace Midiasm
open Spec

/-- The bytes are those of a file, up to a track with an event that the decoder does not survive. -/
def Breaking (offset : Int) (bytes : Bytes) : Prop :=
  ∃ (h : Header) (cs : List Chunk) (tail : Bytes), bytes = fileBytes (h.chunk :: cs) ++ tail ∧ h.Valid ∧ (∀ c ∈ cs, c.Wf) ∧ EndTail tail ∧
    TracksPanic offset 0 (cs.filter fun c => c.tag == tagMTrk)

theorem trackless_shows {smf : SMF} {h : Header} {ts : List TrackEntry} (hs : smf.ShowsFile h ts) (hlen : ts.length = h.tracks) :
    Trackless1 smf ↔ h.format = 1 ∧ h.tracks = 0 := by
  obtain ⟨⟨m, m1, m2, _⟩, m3⟩ := hs
  have hl : smf.tracks.length = h.tracks := by rw [← hlen, ← m3, List.length_map]
  constructor
  · rintro ⟨m', e1, e2, e3⟩
    rw [m1] at e1
    injection e1 with e1
    subst e1
    rw [e3] at hl
    exact ⟨by rw [← m2.2.2.1]; exact e2, hl.symm⟩
  · rintro ⟨h1, h2⟩
    rw [h2] at hl
    exact ⟨m, m1, by rw [m2.2.2.1]; exact h1, List.length_eq_zero_iff.1 hl⟩

theorem statusOf_ends {α : Type} (o : Outcome α) : statusOf o ≠ .usage ∧ statusOf o ≠ .helped := by cases o <;> simp [statusOf]

theorem emit_ends (w : World) (out : Bytes) (o : Outcome Bytes) : (emit w out o).status ≠ .usage ∧ (emit w out o).status ≠ .helped := by
  have h := statusOf_ends o
  unfold emit
  by_cases h1 : out = []
  · simp only [if_pos h1]
    exact h
  · cases h2 : w.create out
    · simp [h1, h2]
    · simp only [if_neg h1, h2, if_true]
      exact h

theorem save_ends (w : World) (out : Bytes) (o : Outcome Bytes) : (save w out o).status ≠ .usage ∧ (save w out o).status ≠ .helped := by
  cases o with
  | ok b => unfold save; simp only; repeat' split
            all_goals simp
  | err e => simp [save, statusOf]
  | panic => simp [save, statusOf]
  | diverge => simp [save, statusOf]

/-- A command that runs does not end as the package `flag` does. -/
theorem execute_ends (w : World) (c : Command) (s : List (Bytes × FlagValue)) (r : List Bytes) :
    (execute w c s r).status ≠ .usage ∧ (execute w c s r).status ≠ .helped := by
  have hwith : ∀ mc g, (∀ smf, (g smf).status ≠ .usage ∧ (g smf).status ≠ .helped) →
      (withFile w mc (r.headD []) g).status ≠ .usage ∧ (withFile w mc (r.headD []) g).status ≠ .helped := by
    intro mc g hg
    unfold withFile
    cases load w mc (r.headD []) with
    | ok smf => exact hg smf
    | err e => simp [statusOf]
    | panic => simp [statusOf]
    | diverge => simp [statusOf]
  cases c with
  | help => simp [execute]
  | version => simp [execute]
  | humanise => exact hwith _ _ fun _ => by simp
  | assemble =>
    simp only [execute, runAssemble]
    split
    · simp
    · exact save_ends _ _ _
  | export_ => exact hwith _ _ fun _ => emit_ends _ _ _
  | transpose => exact hwith _ _ fun _ => save_ends _ _ _
  | notes => exact hwith _ _ fun _ => emit_ends _ _ _
  | tsv => exact hwith _ _ fun _ => emit_ends _ _ _
  | click =>
    refine hwith _ _ fun smf => ?_
    simp only
    by_cases h : stringFlag s "out" ≠ [] ∧ w.create (stringFlag s "out") = false
    · rw [if_pos h]
      simp
    · rw [if_neg h]
      split
      · simp
      · exact statusOf_ends _
  | disassemble =>
    refine hwith _ _ fun smf => ?_
    split
    · simp
    · split
      · rcases separate_status w _ _ smf _ with h | h <;> rw [h] <;> simp
      · unfold writeDocument
        simp only
        repeat' split
        all_goals simp

/-- **C158.** A command on a MIDI file ends, and it crashes exactly if the bytes of the file break the decoder, or stand for a file of format 1
without tracks, or - once the output file has been created - for one without times for its notes or without tracks for its clicks. -/
theorem C158_crashes (w : World) (c : Command) (args argv : List Bytes) (s : List (Bytes × FlagValue)) (r : List Bytes) (hi : Invokes c args argv)
    (hl : CommandLine (options c) args s r) (hc : ReadsMidi c) :
    (midiasm w argv).status ∈ [.success, .failed, .panicked] ∧
    ((midiasm w argv).status = .panicked ↔ r.headD [] ≠ [] ∧ ∃ bytes mc, w.read (r.headD []) = some bytes ∧ Naming s mc ∧
      (Breaking (octaveOffset mc) bytes ∨ ∃ h ts, FileSays (octaveOffset mc) bytes h ts ∧
        ((h.format = 1 ∧ h.tracks = 0) ∨ (OutputFree w s ∧ ((c = .notes ∧ ¬ Timeable h ts) ∨ (c = .click ∧ ts = [])))))) := by
  have hg := execute_loads w c hc s r
  obtain ⟨g, hg⟩ := hg
  have hrun := midiasm_runs hi hl w
  by_cases hf : r.headD [] = [] ∨ w.read (r.headD []) = none
  · have e : midiasm w argv = ⟨[], [], .failed⟩ := (C108_bad_input w c args argv s r hi hl).1 (Or.inl hc) hf
    rw [e]
    refine ⟨by simp, fun h => (by cases h), ?_⟩
    rintro ⟨h1, bytes, mc, h2, _⟩
    rcases hf with hf | hf
    · exact absurd hf h1
    · rw [hf] at h2
      cases h2
  · rw [not_or] at hf
    obtain ⟨hne, hread⟩ := hf
    obtain ⟨bytes, hb⟩ := Option.ne_none_iff_exists'.1 hread
    have hmc : ∀ mc, Naming s mc ↔ mc = middleC s := naming_iff s
    have hpan := C143_panics (middleC s) w.spare bytes
    -- what is stated, for the bytes that are read
    have hred : (r.headD [] ≠ [] ∧ ∃ bytes mc, w.read (r.headD []) = some bytes ∧ Naming s mc ∧
        (Breaking (octaveOffset mc) bytes ∨ ∃ h ts, FileSays (octaveOffset mc) bytes h ts ∧
          ((h.format = 1 ∧ h.tracks = 0) ∨ (OutputFree w s ∧ ((c = .notes ∧ ¬ Timeable h ts) ∨ (c = .click ∧ ts = [])))))) ↔
        (Breaking (octaveOffset (middleC s)) bytes ∨ ∃ h ts, FileSays (octaveOffset (middleC s)) bytes h ts ∧
          ((h.format = 1 ∧ h.tracks = 0) ∨ (OutputFree w s ∧ ((c = .notes ∧ ¬ Timeable h ts) ∨ (c = .click ∧ ts = []))))) := by
      constructor
      · rintro ⟨_, bytes', mc, h1, h2, h3⟩
        rw [hb] at h1
        injection h1 with h1
        subst h1
        rw [hmc] at h2
        subst h2
        exact h3
      · intro h
        exact ⟨hne, bytes, _, hb, (hmc _).2 rfl, h⟩
    rw [hred]
    have hbreak : Breaking (octaveOffset (middleC s)) bytes ↔ decode (middleC s) w.spare bytes = .panic := hpan.1.symm
    have hstat : ∀ o : Outcome SMF, (∀ smf, o ≠ .ok smf) → decode (middleC s) w.spare bytes = o →
        (midiasm w argv).status = statusOf o := by
      intro o ho hd
      rw [hrun, hg]
      unfold withFile load
      rw [file_some.mpr ⟨hne, hb⟩]
      simp only [hd]
      cases o with
      | ok smf => exact absurd rfl (ho smf)
      | err e => rfl
      | panic => rfl
      | diverge => rfl
    cases hd : decode (middleC s) w.spare bytes with
    | ok smf =>
      have hD : Decodes w s (r.headD []) smf := ⟨hne, bytes, _, hb, (hmc _).2 rfl, hd⟩
      obtain ⟨h, ts, hs, hsh⟩ := C143_total (middleC s) w.spare bytes smf hd
      have hlen : ts.length = h.tracks := by
        obtain ⟨_, _, _, _, _, _, hlen, _⟩ := hs
        exact hlen
      obtain ⟨k1, k2⟩ := C110_crashes w c args argv s r hi hl hc smf hD
      constructor
      · -- no other end
        rw [hrun]
        have hu : (execute w c s r).status ≠ .usage ∧ (execute w c s r).status ≠ .helped := by
          exact execute_ends w c s r
        rw [hrun] at k1
        revert k1 hu
        cases (execute w c s r).status <;> simp
      · rw [k2, trackless_shows hsh hlen, hbreak, hd]
        have htr : smf.tracks = [] ↔ ts = [] := by rw [← hsh.2, List.map_eq_nil_iff]
        constructor
        · rintro (h0 | ⟨h1, h2⟩)
          · exact Or.inr ⟨h, ts, hs, Or.inl h0⟩
          · refine Or.inr ⟨h, ts, hs, Or.inr ⟨h1, ?_⟩⟩
            rw [timeable_iff hsh, Classical.not_not, ← htr]
            exact h2
        · rintro (h0 | ⟨h', ts', hs', h0⟩)
          · cases h0
          · obtain ⟨rfl, rfl⟩ := C143_unambiguous _ _ _ _ _ _ hs hs'
            rw [timeable_iff hsh, Classical.not_not, ← htr] at h0
            exact h0
    | err e =>
      rw [hstat _ (by simp) hd]
      refine ⟨by simp [statusOf], fun h => (by cases h), ?_⟩
      rintro (h | ⟨h, ts, hs, _⟩)
      · rw [hbreak, hd] at h
        cases h
      · exact absurd ⟨h, ts, hs⟩ (hpan.2.1 ⟨e, hd⟩).1
    | panic =>
      rw [hstat _ (by simp) hd]
      exact ⟨by simp [statusOf], fun _ => Or.inl (hbreak.2 hd), fun _ => rfl⟩
    | diverge => exact absurd hd (C08_decode_never_panics_partial (middleC s) w.spare bytes).1

/-- `midiasm click empty.mid` crashes, since the file has no tracks; `midiasm export empty.mid` does not. -/
example : (midiasm demo [str "click", str "empty.mid"]).status = .panicked ∧ (midiasm demo [str "export", str "empty.mid"]).status ≠ .panicked := by
  obtain ⟨smf, h1, h2⟩ := Outcome.of_test (o := decode .c3 [] [0x4d, 0x54, 0x68, 0x64, 0, 0, 0, 6, 0, 0, 0, 0, 1, 0xe0])
    (p := fun smf => decide (smf.tracks = []) && decide ((smf.mthd.map (·.format)) = some 0)) (by decide +kernel)
  simp only [Bool.and_eq_true, decide_eq_true_eq] at h2
  obtain ⟨h, ts, hs, hsh⟩ := C143_total .c3 [] _ smf h1
  have hts : ts = [] := by rw [← hsh.2, h2.1]; rfl
  have hf : h.format = 0 := by
    obtain ⟨⟨m, m1, m2, _⟩, _⟩ := hsh
    have := h2.2
    rw [m1] at this
    have : m.format = 0 := Option.some.inj this
    rw [← m2.2.2.1, this]
    rfl
  have hread : demo.read (str "empty.mid") = some [0x4d, 0x54, 0x68, 0x64, 0, 0, 0, 6, 0, 0, 0, 0, 1, 0xe0] := by
    have hne : str "empty.mid" ≠ str "in.mid" := by decide +kernel
    simp only [demo, if_neg hne, if_true]
  have hn : Naming [] .c3 := Or.inr ⟨rfl, not_given (by decide +kernel)⟩
  constructor
  · refine (C158_crashes demo .click [str "empty.mid"] _ [] [str "empty.mid"] (Or.inl rfl) (by_parse (by decide +kernel)) (by simp [ReadsMidi])).2.2 ?_
    exact ⟨by decide +kernel, _, .c3, hread, hn, Or.inr ⟨h, ts, hs, Or.inr ⟨fun _ _ => rfl, Or.inr ⟨rfl, hts⟩⟩⟩⟩
  · intro hp
    obtain ⟨_, bytes, mc, k1, k2, k3⟩ := (C158_crashes demo .export_ [str "empty.mid"] _ [] [str "empty.mid"] (Or.inl rfl)
      (by_parse (by decide +kernel)) (by simp [ReadsMidi])).2.1 hp
    rw [List.headD_cons, hread] at k1
    injection k1 with k1
    subst k1
    have : mc = .c3 := ((naming_iff _ _).1 k2).trans ((naming_iff _ _).1 hn).symm
    subst this
    rcases k3 with k3 | ⟨h', ts', k3, k4⟩
    · have := (C143_panics .c3 [] _).1.2 k3
      rw [h1] at this
      cases this
    · obtain ⟨rfl, rfl⟩ := C143_unambiguous _ _ _ _ _ _ hs k3
      rcases k4 with ⟨k, _⟩ | ⟨_, ⟨k, _⟩ | ⟨k, _⟩⟩
      · rw [hf] at k
        cases k
      · cases k
      · cases k

end Midiasm
