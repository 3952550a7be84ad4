import Verif.Model.Tsv
import Verif.Props.Notes

/-!
Properties C50 and C77: the click track.
-/

set_option linter.unusedSimpArgs false

namespace Midiasm

/-- **C77.** Whatever tempo and time signature events a decoded file has, the click track is empty; without tracks the command
panics. -/
theorem C77_click_silent (smf : SMF) (h : MThd) (hh : smf.mthd = some h) :
    (smf.tracks ≠ [] → click smf.mthd (decodedEvents smf) = .ok (some [])) ∧
    (smf.tracks = [] → click smf.mthd (decodedEvents smf) = .panic) := by
  rw [hh]
  unfold decodedEvents
  have ht : ∀ t : MTrk, (t.events.map DynEvent.value).filter (·.isTempoPtr) = [] := by
    intro t; simp [List.filter_eq_nil_iff, DynEvent.isTempoPtr]
  have hb : ∀ t : MTrk, (t.events.map DynEvent.value).filter (·.isBarPtr) = [] := by
    intro t; simp [List.filter_eq_nil_iff, DynEvent.isBarPtr]
  constructor
  · intro hne
    match htr : smf.tracks with
    | [] => exact absurd htr hne
    | [t] => rfl
    | t0 :: t1 :: ts =>
      simp only [List.map_cons, click, ht, hb, List.append_nil, List.isEmpty_nil, if_true]
  · intro he
    rw [he]; rfl

/-- A file with a tempo, a time signature and four beats. -/
def clickFile : Bytes := tracksFile 1 0 96 [[0, 0xff, 0x51, 3, 7, 0xa1, 0x20],
  [0, 0xff, 0x58, 4, 4, 2, 24, 8, 0, 0x90, 60, 64, 0x83, 0, 0x80, 60, 0]]

/-- **C50 is false**: a file with a tempo of 120 beats per minute, a 4/4 time signature and four beats has an empty click track. -/
theorem C50_click_fails : ∃ smf t0 t1, decode .c3 [] clickFile = .ok smf ∧ smf.tracks = [t0, t1] ∧
    t0.contents = [.tempo 500000, .endOfTrack] ∧ t1.contents = [.timeSignature 4 4 24 8, .noteOn 0 60 64, .noteOff 0 60 0, .endOfTrack] ∧
    click smf.mthd (decodedEvents smf) = .ok (some []) := by
  obtain ⟨smf, h1, h2⟩ := Outcome.of_test
    (o := decode .c3 [] clickFile)
    (p := fun smf : SMF => (smf.tracks.map MTrk.contents ==
      [[.tempo 500000, .endOfTrack], [.timeSignature 4 4 24 8, .noteOn 0 60 64, .noteOff 0 60 0, .endOfTrack]]) && smf.mthd.isSome)
    (by decide +kernel)
  rw [Bool.and_eq_true, beq_iff_eq] at h2
  obtain ⟨t0, t1, h3, h4, h5⟩ := map_eq_two h2.1
  obtain ⟨h, hh⟩ := Option.isSome_iff_exists.mp h2.2
  exact ⟨smf, t0, t1, h1, h3, h4, h5, (C77_click_silent smf h hh).1 (by rw [h3]; simp)⟩

end Midiasm
