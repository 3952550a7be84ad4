import Verif.Props.AssembleFate

/-!
C105: lines of 64 kB.
-/

set_option linter.unusedSimpArgs false

namespace Midiasm
open Spec

theorem stretch_split {a x b u v : Bytes} (h : u ++ 10 :: v = a ++ (x ++ b)) (hx : 10 ∉ x) :
    (∃ c, u = a ++ (x ++ c)) ∨ ∃ c, v = c ++ (x ++ b) := by
  rcases List.append_eq_append_iff.mp h with ⟨c, rfl, hc⟩ | ⟨c, rfl, hc⟩
  · cases c with
    | nil =>
      cases x with
      | nil => exact Or.inl ⟨[], by simp⟩
      | cons y x => injection hc with hy _; exact absurd (by simp [hy]) hx
    | cons y c =>
      injection hc with _ hc
      exact Or.inr ⟨c, hc⟩
  · rcases List.append_eq_append_iff.mp hc with ⟨d, rfl, hd⟩ | ⟨d, rfl, hd⟩
    · exact Or.inl ⟨d, by simp⟩
    · cases d with
      | nil => exact Or.inl ⟨[], by simp⟩
      | cons y d =>
        injection hd with hy _
        exact absurd (by simp [hy]) hx

theorem scanAux_long (text : Bytes) : ∀ l : Bytes, (scanAux l.reverse l.length text).2 = false → ShortLines (l ++ text) := by
  induction text with
  | nil =>
    intro l h
    rw [scanAux] at h
    split at h
    · cases h
    · rename_i hn
      intro a x b he _
      have := congrArg List.length he
      simp at this
      omega
  | cons c text ih =>
    intro l h
    rw [scanAux] at h
    split at h
    · cases h
    · rename_i hn
      split at h
      · rename_i hc
        subst hc
        have ht := ih [] h
        intro a x b he hx
        rcases stretch_split he hx with ⟨c, rfl⟩ | ⟨c, rfl⟩
        · simp at hn
          omega
        · exact ht c x b rfl hx
      · have := ih (l ++ [c]) (by simpa using h)
        simpa using this

/-- **C105.** A text in which 65536 bytes follow each other without a newline is refused whatever else it contains; a text without such a
stretch is split at its newlines into lines, none of which is lost. -/
theorem C105_long_lines (table : List (String × Lib.Manufacturer)) (text : Bytes) :
    (¬ ShortLines text → assembleText table text = .err .other) ∧
    (ShortLines text → ∃ lines chunks, Lines text lines ∧ Chunked lines chunks ∧ readChunks text = .ok chunks) := by
  constructor
  · intro h
    have : (scanLines text).2 = true := by
      cases he : (scanLines text).2 with
      | true => rfl
      | false => exact absurd (scanAux_long text [] he) h
    unfold assembleText readChunks
    rw [this]
    rfl
  · intro h
    have he := scan_short text h
    refine ⟨_, _, scanLines_lines text he, chunkify_spec _, ?_⟩
    unfold readChunks
    rw [he]
    rfl

theorem printEvents_part (es : List Event) (out : Bytes) (h : printEvents es = .ok out) (e : Event) (he : e ∈ es) : printBody e.body <:+: out := by
  induction es generalizing out with
  | nil => cases he
  | cons x es ih =>
    rw [printEvents] at h
    cases hl : printEvent x with
    | ok line =>
      rw [hl, Outcome.bind_ok] at h
      cases hr : printEvents es with
      | ok rest =>
        rw [hr, Outcome.bind_ok] at h
        injection h with h
        subst h
        rcases List.mem_cons.mp he with rfl | he
        · unfold printEvent at hl
          cases hh : printHex e.bytes with
          | ok hex =>
            rw [hh, Outcome.bind_ok] at hl
            injection hl with hl
            subst hl
            exact ⟨hex ++ str "  tick:" ++ pad 9 (dec e.tick.toNat) ++ str "  delta:" ++ pad 9 (dec e.delta.toNat) ++ str "  ", [10] ++ rest, by simp only [List.append_assoc]⟩
          | err _ => rw [hh] at hl; cases hl
          | panic => rw [hh] at hl; cases hl
          | diverge => rw [hh] at hl; cases hl
        · exact (ih rest hr he).trans ⟨line ++ [10], [], by simp⟩
      | err _ => rw [hr] at h; cases h
      | panic => rw [hr] at h; cases h
      | diverge => rw [hr] at h; cases h
    | err _ => rw [hl] at h; cases h
    | panic => rw [hl] at h; cases h
    | diverge => rw [hl] at h; cases h

theorem printTracks_part (ts : List MTrk) (out : Bytes) (h : printTracks ts = .ok out) (t : MTrk) (ht : t ∈ ts) (e : Event) (he : e ∈ t.events) :
    printBody e.body <:+: out := by
  induction ts generalizing out with
  | nil => cases ht
  | cons x ts ih =>
    rw [printTracks] at h
    cases hl : printMTrk x with
    | ok a =>
      rw [hl, Outcome.bind_ok] at h
      cases hr : printTracks ts with
      | ok b =>
        rw [hr, Outcome.bind_ok] at h
        injection h with h
        subst h
        rcases List.mem_cons.mp ht with rfl | ht
        · unfold printMTrk at hl
          cases hh : printEvents t.events with
          | ok evs =>
            rw [hh, Outcome.bind_ok] at hl
            injection hl with hl
            subst hl
            exact (printEvents_part _ _ hh e he).trans ⟨[10] ++ pad 42 (ellipsize (hexString t.bytes) 24) ++ str "  " ++ t.tag ++ [32] ++
              pad 2 (dec t.trackNumber) ++ str " length:" ++ dec t.length.toNat ++ [10], b, by simp only [List.append_assoc]⟩
          | err _ => rw [hh] at hl; cases hl
          | panic => rw [hh] at hl; cases hl
          | diverge => rw [hh] at hl; cases hl
        · exact (ih b hr ht).trans ⟨a, [], by simp⟩
      | err _ => rw [hr] at h; cases h
      | panic => rw [hr] at h; cases h
      | diverge => rw [hr] at h; cases h
    | err _ => rw [hl] at h; cases h
    | panic => rw [hl] at h; cases h
    | diverge => rw [hl] at h; cases h

/-- What is shown of an event is in the disassembly. -/
theorem printSMF_part (smf : SMF) (out : Bytes) (h : printSMF smf = .ok out) (t : MTrk) (ht : t ∈ smf.tracks) (e : Event) (he : e ∈ t.events) :
    printBody e.body <:+: out := by
  unfold printSMF at h
  cases hm : smf.mthd with
  | none => rw [hm] at h; cases h
  | some m =>
    rw [hm] at h
    simp only at h
    cases hh : printTracks smf.tracks with
    | ok a =>
      rw [hh, Outcome.bind_ok] at h
      injection h with h
      subst h
      exact (printTracks_part _ _ hh t ht e he).trans ⟨printMThd m, [], by simp⟩
    | err _ => rw [hh] at h; cases h
    | panic => rw [hh] at h; cases h
    | diverge => rw [hh] at h; cases h

/-- C105, seen from files: the disassembly of a file with a text of 65536 bytes without a newline cannot be assembled. -/
theorem C105_long_text (table : List (String × Lib.Manufacturer)) (smf : SMF) (out : Bytes) (h : printSMF smf = .ok out) (t : MTrk)
    (ht : t ∈ smf.tracks) (e : Event) (he : e ∈ t.events) (k : TextKind) (s : Bytes) (hb : e.body = .text k s) (hn : 10 ∉ s)
    (hl : 65536 ≤ s.length) : assembleText table out = .err .other := by
  refine (C105_long_lines table out).1 fun hs => ?_
  obtain ⟨a, b, hab⟩ := printSMF_part smf out h t ht e he
  rw [hb, printBody] at hab
  have := hs (a ++ hex2 (Body.text k s).metaType ++ [32] ++ (pad 22 (str (Body.text k s).tag) ++ [32])) s b (by rw [← hab]; simp only [List.append_assoc]) hn
  omega

/-- A line of 65535 bytes is read, one of 65536 bytes is not, with or without a newline. -/
example (c : UInt8) (hc : c ≠ 10) (tail : Bytes) :
    ShortLines (List.replicate 65535 c) ∧ ¬ ShortLines (List.replicate 65536 c) ∧ ¬ ShortLines (List.replicate 65536 c ++ 10 :: tail) := by
  have hmem : 10 ∉ List.replicate 65536 c := by
    intro h
    exact hc (List.eq_of_mem_replicate h).symm
  refine ⟨fun a l b he _ => ?_, fun h => ?_, fun h => ?_⟩
  · have := congrArg List.length he
    rw [List.length_replicate] at this
    simp only [List.length_append] at this
    omega
  · have := h [] (List.replicate 65536 c) [] (by rw [List.append_nil]; rfl) hmem
    rw [List.length_replicate] at this
    omega
  · have := h [] (List.replicate 65536 c) (10 :: tail) rfl hmem
    rw [List.length_replicate] at this
    omega

end Midiasm
