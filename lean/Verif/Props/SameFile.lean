import Verif.Props.JsonAgain

/-!
C177: two inputs of the assembler give the same file exactly if they state the same events.
-/

set_option linter.unusedSimpArgs false

namespace Midiasm
open Spec

/-- What the assembler can be given: a text, with the list of manufacturers, or a JSON document, with the naming of octaves. -/
inductive Input where
  | text (table : List (String × Lib.Manufacturer)) (bytes : Bytes)
  | json (mc : MiddleC) (bytes : Bytes)

/-- The file it is assembled to. -/
def Input.file : Input → Outcome Bytes
  | .text table bytes => assembleText table bytes
  | .json mc bytes => assembleJsonText mc bytes

/-- The header and the events that it states. -/
def Input.States (h : Header) (ts : List (List Event)) : Input → Prop
  | .text table bytes => ShortLines bytes ∧ h.tracks = ts.length ∧ ∃ lines secs, Lines bytes lines ∧ Chunked lines secs ∧ Stands table secs (some h) ts
  | .json _ bytes => ∃ a s rest j f d, bytes = a ++ s ++ rest ∧ Space a ∧ JsonText CharsRead j s ∧ nesting j ≤ 10000 ∧ DocumentSays j f d ts ∧
      ts.length < 65536 ∧ h = ⟨f, ts.length, d⟩

theorem input_file (i : Input) (h : Header) (ts : List (List Event)) (hs : i.States h ts) (hk : ∀ es ∈ ts, RecoverableTrack es) :
    ∃ b, i.file = .ok b ∧ (b.length < 2 ^ 32 → ∀ mc : MiddleC, ∃ ts', FileSays (octaveOffset mc) b h ts' ∧ contentsOf id ts' = stated ts) ∧
      ((∀ es ∈ ts, ∀ e ∈ es, ¬ PacketGoesOn e.body) → b = writtenFile h (stated ts)) := by
  cases i with
  | text table bytes =>
    obtain ⟨h1, h2, lines, secs, h3, h4, h5⟩ := hs
    exact C151_text table bytes h1 lines secs h ts h3 h4 h5 h2 hk
  | json mc bytes =>
    obtain ⟨a, s, rest, j, f, d, rfl, h1, h2, h3, h4, h5, rfl⟩ := hs
    exact C151_json mc a s rest j h1 h2 h3 f d ts h4 h5 hk

/-- **C177.** Inputs that are assembled to the same file state the same header and the same events at the same times, whether they are texts or JSON documents. -/
theorem C177_nothing_lost (i i' : Input) (h h' : Header) (ts ts' : List (List Event)) (hs : i.States h ts) (hs' : i'.States h' ts')
    (hk : ∀ es ∈ ts, RecoverableTrack es) (hk' : ∀ es ∈ ts', RecoverableTrack es) (b : Bytes) (hb : i.file = .ok b) (hb' : i'.file = .ok b)
    (hlen : b.length < 2 ^ 32) : h = h' ∧ stated ts = stated ts' := by
  obtain ⟨x, a1, a2, _⟩ := input_file i h ts hs hk
  obtain ⟨y, b1, b2, _⟩ := input_file i' h' ts' hs' hk'
  rw [hb] at a1
  rw [hb'] at b1
  injection a1 with a1
  injection b1 with b1
  subst a1
  subst b1
  obtain ⟨us, a3, a4⟩ := a2 hlen .c3
  obtain ⟨us', b3, b4⟩ := b2 hlen .c3
  obtain ⟨e1, e2⟩ := C143_unambiguous .c3 b h h' us us' a3 b3
  subst e2
  exact ⟨e1, a4.symm.trans b4⟩

/-- **C177.** Without packets that continue messages, inputs are assembled to the same file exactly if they state the same header and events. -/
theorem C177_same_file (i i' : Input) (h h' : Header) (ts ts' : List (List Event)) (hs : i.States h ts) (hs' : i'.States h' ts')
    (hk : ∀ es ∈ ts, RecoverableTrack es) (hk' : ∀ es ∈ ts', RecoverableTrack es) (hp : ∀ es ∈ ts, ∀ e ∈ es, ¬ PacketGoesOn e.body)
    (hp' : ∀ es ∈ ts', ∀ e ∈ es, ¬ PacketGoesOn e.body) :
    ∃ b b', i.file = .ok b ∧ i'.file = .ok b' ∧ (b.length < 2 ^ 32 → (b = b' ↔ h = h' ∧ stated ts = stated ts')) := by
  obtain ⟨b, a1, _, a3⟩ := input_file i h ts hs hk
  obtain ⟨b', b1, _, b3⟩ := input_file i' h' ts' hs' hk'
  refine ⟨b, b', a1, b1, fun hlen => ⟨?_, ?_⟩⟩
  · rintro rfl
    exact C177_nothing_lost i i' h h' ts ts' hs hs' hk hk' b a1 b1 hlen
  · rintro ⟨rfl, he⟩
    rw [a3 hp, b3 hp', he]

/-- A text with the events of the document beside C151. -/
def bendLines : Bytes := str "MThd format:0 metrical-time:96 ppqn\nMTrk\ndelta:7 PitchBend channel:3 bend:100\ndelta:0 EndOfTrack\n"

/-- C177: a text and a JSON document that meet the hypotheses and state the same. -/
example : ∃ s, (Input.text Lib.manufacturers bendLines).States ⟨0, 1, 96⟩ [bendEvents] ∧ (Input.json .c3 s).States ⟨0, 1, 96⟩ [bendEvents] ∧
    RecoverableTrack bendEvents ∧ ∀ e ∈ bendEvents, ¬ PacketGoesOn e.body := by
  obtain ⟨s, j1, j2, j3, j4, j5⟩ := bend_text
  refine ⟨s, ?_, ⟨[], s, [], bendDocument, 0, 96, by rw [List.nil_append, List.append_nil], by simp [Space], j1, j2, j3, by decide, rfl⟩, j4, j5⟩
  obtain ⟨smf, h1, h2⟩ := Outcome.of_test (o := readChunks bendLines >>= fun cs => assembleChunks Lib.manufacturers cs ⟨none, []⟩)
    (p := fun smf => decide (smf.tracks.map MTrk.events = [bendEvents]) && (match smf.mthd with
      | some m => decide (m.format = 0) && decide (m.tracks = 1) && decide (m.division = 96)
      | none => false)) (by decide +kernel)
  have hshort : ShortLines bendLines := by
    have := scanAux_long bendLines [] (by decide +kernel)
    rwa [List.nil_append] at this
  obtain ⟨lines, secs, hl, hc, hr⟩ := (C105_long_lines Lib.manufacturers bendLines).2 hshort
  rw [hr, Outcome.bind_ok] at h1
  obtain ⟨hd, ts, k1, ⟨k2, k3⟩, _⟩ := means_of_sections Lib.manufacturers secs hc.split smf h1
  simp only [Bool.and_eq_true, decide_eq_true_eq] at h2
  rw [h2.1] at k3
  subst k3
  refine ⟨hshort, rfl, lines, secs, hl, hc, ?_⟩
  cases hd with
  | none => cases hm : smf.mthd <;> rw [hm] at k2 h2 <;> simp at k2 h2
  | some h =>
    cases hm : smf.mthd with
    | none => rw [hm] at k2; exact k2.elim
    | some m =>
      rw [hm] at k2 h2
      simp only [Bool.and_eq_true, decide_eq_true_eq] at h2
      obtain ⟨⟨_, _, a1, a2, a3⟩, b1, b2, b3⟩ := k2
      obtain ⟨_, ⟨c1, c2⟩, c3⟩ := h2
      obtain ⟨f, t, d⟩ := h
      rw [c1] at a1
      rw [c2] at a2
      rw [c3] at a3
      have a1 := congrArg UInt16.toNat a1
      have a2 := congrArg UInt16.toNat a2
      have a3 := congrArg UInt16.toNat a3
      simp only [UInt16.toNat_ofNat'] at a1 a2 a3
      have e1 : (0 : UInt16).toNat = 0 := rfl
      have e2 : (1 : UInt16).toNat = 1 := rfl
      have e3 : (96 : UInt16).toNat = 96 := rfl
      have : f = 0 ∧ t = 1 ∧ d = 96 := by simp only at b1 b2 b3; omega
      obtain ⟨rfl, rfl, rfl⟩ := this
      exact (means_stands Lib.manufacturers secs _ _).1 k1
end Midiasm
