import Verif.Props.SameFile
import Verif.Props.NormalForm

/-!
C179: transposing an assembled file gives the file assembled from the transposed input.
-/

set_option linter.unusedSimpArgs false

namespace Midiasm
open Spec

/-- The same events at the same times, moved by some semitones. -/
def StatedMoved (n : Int) (ts ts' : List (List Event)) : Prop := stated ts' = (stated ts).map fun es => es.map fun e => (e.1, moved n e.2)

/-- **C179.** The file assembled from a text or JSON document, transposed, is the file assembled from any text or JSON document that states the moved events. -/
theorem C179_transposed (i i' : Input) (h : Header) (ts ts' : List (List Event)) (hs : i.States h ts) (hs' : i'.States h ts') (n : Int) (hn : Fits n)
    (hm : StatedMoved n ts ts') (hk : ∀ es ∈ ts, RecoverableTrack es) (hk' : ∀ es ∈ ts', RecoverableTrack es)
    (hp' : ∀ es ∈ ts', ∀ e ∈ es, ¬ PacketGoesOn e.body) (b : Bytes) (hb : i.file = .ok b) (hlen : b.length < 2 ^ 32) (mc mc' : MiddleC) (spare : Bytes) :
    ∃ b' smf, i'.file = .ok b' ∧ decode mc spare b = .ok smf ∧ transposeExecute mc' n false smf = .ok b' := by
  obtain ⟨x, a1, a2, _⟩ := input_file i h ts hs hk
  obtain ⟨b', b1, _, b3⟩ := input_file i' h ts' hs' hk'
  rw [hb] at a1
  injection a1 with a1
  subst a1
  obtain ⟨us, f1, f2⟩ := a2 hlen mc
  obtain ⟨smf, d1, d2⟩ := C146_transposed mc mc' spare b h us f1 n hn
  refine ⟨b', smf, b1, d1, ?_⟩
  rw [d2, b3 hp', hm, contentsOf_map, f2]

/-- **C179.** The same for the transpose command. -/
theorem C179_command (w : World) (args argv : List Bytes) (s : List (Bytes × FlagValue)) (r : List Bytes) (hi : Invokes .transpose args argv)
    (hl : CommandLine (options .transpose) args s r) (hr : r.headD [] ≠ []) (b : Bytes) (hb : w.read (r.headD []) = some b) (mc : MiddleC) (hmc : Naming s mc)
    (n : Int) (hn : Number s "semitones" n) (hfit : Fits n) (i i' : Input) (h : Header) (ts ts' : List (List Event)) (hs : i.States h ts) (hs' : i'.States h ts')
    (hm : StatedMoved n ts ts') (hk : ∀ es ∈ ts, RecoverableTrack es) (hk' : ∀ es ∈ ts', RecoverableTrack es)
    (hp' : ∀ es ∈ ts', ∀ e ∈ es, ¬ PacketGoesOn e.body) (hf : i.file = .ok b) (hlen : b.length < 2 ^ 32) (ht : ¬ (h.format = 1 ∧ h.tracks = 0)) :
    ∃ b', i'.file = .ok b' ∧ Saves w s b' (midiasm w argv) := by
  obtain ⟨x, a1, a2, _⟩ := input_file i h ts hs hk
  obtain ⟨b', b1, _, b3⟩ := input_file i' h ts' hs' hk'
  rw [hf] at a1
  injection a1 with a1
  subst a1
  obtain ⟨us, f1, f2⟩ := a2 hlen mc
  refine ⟨b', b1, ?_⟩
  have := C146_transpose_command w args argv s r hi hl hr b hb mc hmc h us f1 ht n hn hfit
  rwa [contentsOf_map, f2, ← hm, ← b3 hp'] at this

/-! ### Example -/

/-- What a text states, found by assembling it. -/
theorem text_states (bytes : Bytes) (f t d : UInt16) (ts : List (List Event)) (ht : t.toNat = ts.length) (hshort : ShortLines bytes)
    (h : (readChunks bytes >>= fun cs => assembleChunks Lib.manufacturers cs ⟨none, []⟩).test (fun smf => decide (smf.tracks.map MTrk.events = ts) && (match smf.mthd with
      | some m => decide (m.format = f) && decide (m.tracks = t) && decide (m.division = d)
      | none => false)) = true) : (Input.text Lib.manufacturers bytes).States ⟨f.toNat, t.toNat, d.toNat⟩ ts := by
  obtain ⟨smf, h1, h2⟩ := Outcome.of_test h
  obtain ⟨lines, secs, hl, hc, hr⟩ := (C105_long_lines Lib.manufacturers bytes).2 hshort
  rw [hr, Outcome.bind_ok] at h1
  obtain ⟨hd, ts', k1, ⟨k2, k3⟩, _⟩ := means_of_sections Lib.manufacturers secs hc.split smf h1
  simp only [Bool.and_eq_true, decide_eq_true_eq] at h2
  rw [h2.1] at k3
  subst k3
  refine ⟨hshort, ht, lines, secs, hl, hc, ?_⟩
  cases hd with
  | none => cases hm : smf.mthd <;> rw [hm] at k2 h2 <;> simp at k2 h2
  | some h =>
    cases hm : smf.mthd with
    | none => rw [hm] at k2; exact k2.elim
    | some m =>
      rw [hm] at k2 h2
      simp only [Bool.and_eq_true, decide_eq_true_eq] at h2
      obtain ⟨⟨_, _, a1, a2, a3⟩, b1, b2, b3⟩ := k2
      obtain ⟨_, ⟨c1, c2⟩, c3⟩ := h2
      obtain ⟨f', t', d'⟩ := h
      rw [c1] at a1
      rw [c2] at a2
      rw [c3] at a3
      have a1 := congrArg UInt16.toNat a1
      have a2 := congrArg UInt16.toNat a2
      have a3 := congrArg UInt16.toNat a3
      simp only [UInt16.toNat_ofNat'] at a1 a2 a3
      have : f' = f.toNat ∧ t' = t.toNat ∧ d' = d.toNat := by simp only at b1 b2 b3; omega
      obtain ⟨rfl, rfl, rfl⟩ := this
      exact (means_stands Lib.manufacturers secs _ _).1 k1

/-- A note in F major. -/
def inF : Bytes :=
  str "MThd format:0 metrical-time:96 ppqn\nMTrk\ndelta:0 KeySignature F major\ndelta:9 NoteOn channel:1 note:C4, velocity:64\ndelta:0 EndOfTrack\n"

/-- The same in G major. -/
def inG : Bytes :=
  str "MThd format:0 metrical-time:96 ppqn\nMTrk\ndelta:0 KeySignature G major\ndelta:9 NoteOn channel:1 note:D4, velocity:64\ndelta:0 EndOfTrack\n"

def inFEvents : List Event := [⟨0, 0, [], .keySignature (-1) 0 "F major"⟩, ⟨0, 9, [], .noteOn 1 ⟨60, "C4", "C4"⟩ 64⟩, ⟨0, 0, [], .endOfTrack⟩]

def inGEvents : List Event := [⟨0, 0, [], .keySignature 1 0 "G major"⟩, ⟨0, 9, [], .noteOn 1 ⟨62, "D4", "D4"⟩ 64⟩, ⟨0, 0, [], .endOfTrack⟩]

/-- C179: two texts that meet the hypotheses. -/
example : (Input.text Lib.manufacturers inF).States ⟨0, 1, 96⟩ [inFEvents] ∧ (Input.text Lib.manufacturers inG).States ⟨0, 1, 96⟩ [inGEvents] ∧
    StatedMoved 2 [inFEvents] [inGEvents] ∧ RecoverableTrack inFEvents ∧ RecoverableTrack inGEvents ∧ (∀ e ∈ inGEvents, ¬ PacketGoesOn e.body) ∧ Fits 2 := by
  have noPackets : ∀ es : List Event, (∀ e ∈ es, ¬ PacketGoesOn e.body) → (∀ e ∈ es, Recoverable e.body ∧ e.delta.toNat < 2 ^ 28) → RecoverableTrack es := by
    intro es h h'
    exact ⟨h', fun e he => h e (List.mem_of_mem_head? he), fun i e n _ hn hp => absurd hp (h n (List.mem_of_getElem? hn))⟩
  have hF : ∀ e ∈ inFEvents, ¬ PacketGoesOn e.body := by
    simp [inFEvents, PacketGoesOn]
  have hG : ∀ e ∈ inGEvents, ¬ PacketGoesOn e.body := by
    simp [inGEvents, PacketGoesOn]
  refine ⟨text_states inF 0 1 96 _ rfl ?_ (by decide +kernel), text_states inG 0 1 96 _ rfl ?_ (by decide +kernel), by unfold StatedMoved; decide +kernel,
    noPackets _ hF ?_, noPackets _ hG ?_, hG, by unfold Fits; omega⟩
  · have := scanAux_long inF [] (by decide +kernel)
    rwa [List.nil_append] at this
  · have := scanAux_long inG [] (by decide +kernel)
    rwa [List.nil_append] at this
  · simp [inFEvents, Recoverable]
  · simp [inGEvents, Recoverable]

end Midiasm
