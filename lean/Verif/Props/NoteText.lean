import Verif.Lemmas.Basic
import Verif.Spec.Display
import Verif.Model.EventText

/-!
Property C44: note names parse back to the note.
-/

namespace Midiasm
open Spec

/-- The names with a pitch class: a letter with an optional accidental. -/
def pitchNames : List String := ["C", "C♯", "C♭", "D", "D♯", "D♭", "E", "E♯", "E♭", "F", "F♯", "F♭", "G", "G♯", "G♭", "A", "A♯", "A♭",
  "B", "B♯", "B♭"]

theorem pitchClass_mem (p : String) (v : Int) (h : pitchClass p = some v) : p ∈ pitchNames := by
  have hp : p = String.ofList p.toList := by simp
  unfold pitchClass at h
  simp only at h
  have hl : ∀ c : Char, ∀ v : Int, (if c = 'C' then some (0 : Int) else if c = 'D' then some 2 else if c = 'E' then some 4 else if c = 'F' then some 5
    else if c = 'G' then some 7 else if c = 'A' then some 9 else if c = 'B' then some 11 else none) = some v →
      c = 'C' ∨ c = 'D' ∨ c = 'E' ∨ c = 'F' ∨ c = 'G' ∨ c = 'A' ∨ c = 'B' := by
    intro c v hv
    by_cases h1 : c = 'C'; · simp [h1]
    by_cases h2 : c = 'D'; · simp [h2]
    by_cases h3 : c = 'E'; · simp [h3]
    by_cases h4 : c = 'F'; · simp [h4]
    by_cases h5 : c = 'G'; · simp [h5]
    by_cases h6 : c = 'A'; · simp [h6]
    by_cases h7 : c = 'B'; · simp [h7]
    simp [h1, h2, h3, h4, h5, h6, h7] at hv
  split at h
  · rename_i c heq
    rw [hp, heq]
    rcases hl c v h with rfl | rfl | rfl | rfl | rfl | rfl | rfl <;> decide +kernel
  · rename_i c a heq
    rw [hp, heq]
    obtain ⟨q, hq, ha⟩ := Option.bind_eq_some_iff.mp h
    have ha' : a = '♯' ∨ a = '♭' := by
      by_cases h1 : a = '♯'
      · exact Or.inl h1
      · by_cases h2 : a = '♭'
        · exact Or.inr h2
        · simp [h1, h2] at ha
    rcases ha' with rfl | rfl <;> rcases hl c q hq with rfl | rfl | rfl | rfl | rfl | rfl | rfl <;> decide +kernel
  · cases h

theorem parseNote_table : ∀ p ∈ pitchNames, ∀ o : Fin 19, parseNote (str (p ++ toString ((o.val : Int) - 9))) =
    .ok ⟨UInt8.ofInt (12 * ((o.val : Int) - 9 + 1) + (pitchClass p).getD 0), p ++ toString ((o.val : Int) - 9),
      p ++ toString ((o.val : Int) - 9)⟩ := by
  decide +kernel

/-- C79: a pitch name (a letter with an optional accidental) followed by an octave from -9 to 9 is read as the note
`12 * (octave + 1) + pitch class`, reduced modulo 256; the note keeps the name it was read from. -/
theorem C79_note_text_exact (pitch : String) (v octave : Int) (hp : pitchClass pitch = some v) (h1 : -9 ≤ octave) (h2 : octave ≤ 9) :
    ∃ n, parseNote (str (pitch ++ toString octave)) = .ok n ∧ (n.value.toNat : Int) = (12 * (octave + 1) + v) % 256 ∧
      n.name = pitch ++ toString octave ∧ n.alias = n.name := by
  have := parseNote_table pitch (pitchClass_mem pitch v hp) ⟨(octave + 9).toNat, by omega⟩
  have ho : (((octave + 9).toNat : Nat) : Int) - 9 = octave := by omega
  simp only [ho, hp, Option.getD_some] at this
  refine ⟨_, this, ?_, rfl, rfl⟩
  have hi : (UInt8.ofInt (12 * (octave + 1) + v)).toNat = ((12 * (octave + 1) + v) % 256).toNat := by
    show (UInt8.ofNat ((12 * (octave + 1) + v) % 2 ^ 8).toNat).toNat = _
    simp only [UInt8.toNat_ofNat']
    omega
  simp only [hi]
  omega

example : ∃ n, parseNote (str "F♯4") = .ok n ∧ n.value = 66 := ⟨⟨66, "F♯4", "F♯4"⟩, by decide +kernel, rfl⟩
example : pitchClass "F♯" = some 6 := by decide +kernel

/-- C44, partial: with the default convention every name shown for a note 0..127, in sharps or flats, parses back to the note.  Missing:
the names shown with `--C4` (see `C44_note_text_fails`). -/
theorem C44_note_text_partial (flats : Prop) (name : String) (n : UInt8) (hn : n < 128) (h : Names flats 1 name n.toNat) :
    ∃ nv, parseNote (str name) = .ok nv ∧ nv.value = n ∧ nv.name = name := by
  obtain ⟨p, rfl, hp, _, _⟩ := h
  have hlt : n.toNat < 128 := by rw [UInt8.lt_iff_toNat_lt] at hn; simpa using hn
  obtain ⟨nv, h1, h2, h3, _⟩ := C79_note_text_exact p _ _ hp (by omega : (-9 : Int) ≤ (n.toNat / 12 : Nat) - 1) (by omega)
  refine ⟨nv, h1, ?_, h3⟩
  apply UInt8.toNat_inj.mp
  omega

example : Names False 1 "F♯4" (66 : UInt8).toNat := ⟨"F♯", by decide +kernel, by decide +kernel, fun h => h.elim, fun _ => by decide +kernel⟩

/-- C44 is false with the other convention: there every name shown for a note parses to the note an octave lower (modulo 256). -/
theorem C44_note_text_fails (flats : Prop) (name : String) (n : UInt8) (hn : n < 128) (h : Names flats 2 name n.toNat) :
    ∃ nv, parseNote (str name) = .ok nv ∧ nv.value = n - 12 := by
  obtain ⟨p, rfl, hp, _, _⟩ := h
  have hlt : n.toNat < 128 := by rw [UInt8.lt_iff_toNat_lt] at hn; simpa using hn
  obtain ⟨nv, h1, h2, h3, _⟩ := C79_note_text_exact p _ _ hp (by omega : (-9 : Int) ≤ (n.toNat / 12 : Nat) - 2) (by omega)
  refine ⟨nv, h1, ?_⟩
  apply UInt8.toNat_inj.mp
  rw [UInt8.toNat_sub]
  have : (12 : UInt8).toNat = 12 := rfl
  omega

example : Names False 2 "C3" (60 : UInt8).toNat := ⟨"C", by decide +kernel, by decide +kernel, fun h => h.elim, fun _ => by decide +kernel⟩

end Midiasm
