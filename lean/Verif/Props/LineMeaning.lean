import Verif.Lemmas.Parts
import Verif.Props.TextMeaning
import Verif.Props.LineImage
import Verif.Props.NoteText
import Verif.Props.Tsv
import Verif.Props.Kinds

/-!
Property C132: what a line of text says.
-/

set_option linter.unusedSimpArgs false

namespace Midiasm
open Spec

/-! ### Values -/

theorem parseDelta_iff (s : Bytes) (v : UInt32) : parseDelta s = .ok v ↔ Numeral s v.toNat := by
  unfold parseDelta
  constructor
  · intro h
    obtain ⟨n, h1, h⟩ := bound_ok h
    injection h with h
    subst h
    obtain ⟨h2, h3⟩ := parseUint_numeral h1
    rw [UInt32.toNat_ofNat', Nat.mod_eq_of_lt h3]
    exact h2
  · intro h
    rw [numeral_parseUint h v.toNat_lt, Outcome.bind_ok, UInt32.ofNat_toNat]

theorem parseByte_iff (s : Bytes) (v : UInt8) : parseByte s = .ok v ↔ Numeral s v.toNat := by
  constructor
  · exact parseByte_numeral
  · intro h
    unfold parseByte
    rw [numeral_parseUint h v.toNat_lt, Outcome.bind_ok, UInt8.ofNat_toNat]

theorem parseChannel_iff (s : Bytes) (v : UInt8) : parseChannel s = .ok v ↔ Numeral s v.toNat ∧ v.toNat ≤ 15 := by
  unfold parseChannel
  constructor
  · intro h
    obtain ⟨n, h1, h⟩ := bound_ok h
    obtain ⟨h2, h3⟩ := parseUint_numeral h1
    split at h
    · cases h
    · injection h with h
      subst h
      rw [UInt8.toNat_ofNat', Nat.mod_eq_of_lt h3]
      exact ⟨h2, by omega⟩
  · rintro ⟨h, h15⟩
    rw [numeral_parseUint h v.toNat_lt, Outcome.bind_ok, if_neg (by omega), UInt8.ofNat_toNat]

theorem parseUint16_iff (s : Bytes) (v : UInt16) : (∃ n, parseUint s 16 = .ok n ∧ UInt16.ofNat n = v) ↔ Numeral s v.toNat := by
  constructor
  · rintro ⟨n, h1, rfl⟩
    obtain ⟨h2, h3⟩ := parseUint_numeral h1
    rw [UInt16.toNat_ofNat', Nat.mod_eq_of_lt h3]
    exact h2
  · intro h
    exact ⟨v.toNat, numeral_parseUint h v.toNat_lt, UInt16.ofNat_toNat⟩

theorem parseUint32_iff (s : Bytes) (v : UInt32) : (∃ n, parseUint s 32 = .ok n ∧ UInt32.ofNat n = v) ↔ Numeral s v.toNat := by
  constructor
  · rintro ⟨n, h1, rfl⟩
    obtain ⟨h2, h3⟩ := parseUint_numeral h1
    rw [UInt32.toNat_ofNat', Nat.mod_eq_of_lt h3]
    exact h2
  · intro h
    exact ⟨v.toNat, numeral_parseUint h v.toNat_lt, UInt32.ofNat_toNat⟩

theorem findManufacturer_iff (table : List (String × Lib.Manufacturer)) (s : Bytes) (m : Lib.Manufacturer) :
    findManufacturer table s = .ok m ↔ FirstNamed table s m := by
  unfold findManufacturer FirstNamed
  constructor
  · intro h
    split at h
    · rename_i e he
      injection h with h
      subst h
      obtain ⟨a, b, h1, h2, h3⟩ := find_first _ _ _ he
      refine ⟨a, e.1, b, h1, (beq_iff_eq.mp h2).symm, ?_⟩
      intro x hx hn
      have := h3 x hx
      rw [hn] at this
      simp at this
    · cases h
  · rintro ⟨l, k, r, h1, h2, h3⟩
    have : table.find? (fun e => s == str e.2.name) = some (k, m) := by
      rw [List.find?_eq_some_iff_append]
      refine ⟨by simp [h2], l, r, h1, ?_⟩
      intro x hx
      have := h3 x hx
      simpa using fun h => this h.symm
    rw [this]

theorem parseHex_iff (s bs : Bytes) : parseHex s = .ok bs ↔ HexText s bs := (C52_hex s bs).2.2.1

/-! ### Notes -/

/-- A letter, an accidental or none, and a digit. -/
def NoteShape (n : Bytes) : Prop := ∃ l a d, n = l :: (a ++ [d]) ∧ KeyLetter l ∧ Accidental a ∧ DigitTo 57 d

theorem small_note : ∀ l ∈ ([97, 98, 99, 100, 101, 102, 103] : Bytes), ∀ a ∈ ([[], str "♯", str "♭"] : List Bytes), ∀ d ∈ digitBytes,
    (match parseNote (l :: (a ++ [d])) with | .ok _ => false | _ => true) = true := by
  decide +kernel

theorem capital_note : ∀ l ∈ ([65, 66, 67, 68, 69, 70, 71] : Bytes), ∀ a ∈ ([[], str "♯", str "♭"] : List Bytes),
    ∃ p ∈ pitchNames, str p = l :: a ∧ (pitchClass p).isSome = true := by
  decide +kernel

theorem digit_name : ∀ d ∈ digitBytes, ∃ o : Fin 10, str (toString o.val) = [d] := by
  decide +kernel

theorem noteVal_unique (a b : NoteVal) (h1 : a.value.toNat = b.value.toNat) (h2 : a.name = b.name) (h3 : a.alias = b.alias) : a = b := by
  obtain ⟨v, n, x⟩ := a
  obtain ⟨v', n', x'⟩ := b
  simp only at h1 h2 h3
  subst h2 h3
  rw [UInt8.toNat_inj.mp h1]

theorem parseNote_iff (s : Bytes) (n : NoteVal) (hs : NoteShape s) : parseNote s = .ok n ↔ NoteNamed s n := by
  have hoct : ∀ o : Nat, toString (o : Int) = toString o := fun o => rfl
  constructor
  · intro h
    obtain ⟨l, a, d, rfl, hl, ha, hd⟩ := hs
    have hd' : d ∈ digitBytes := all8 (P := fun b => DigitTo 57 b → b ∈ digitBytes) (by unfold DigitTo digitBytes; decide +kernel) d hd
    have ha' : a ∈ ([[], str "♯", str "♭"] : List Bytes) := by
      rcases ha with rfl | rfl | rfl
      · exact .head _
      · exact .tail _ (.head _)
      · exact .tail _ (.tail _ (.head _))
    rcases hl with hl | hl
    · have hl' : l ∈ ([65, 66, 67, 68, 69, 70, 71] : Bytes) :=
        all8 (P := fun b => 65 ≤ b.toNat ∧ b.toNat ≤ 71 → b ∈ ([65, 66, 67, 68, 69, 70, 71] : Bytes)) (by decide +kernel) l hl
      obtain ⟨p, hp, e, hc⟩ := capital_note l hl' a ha'
      obtain ⟨v, hv⟩ := Option.isSome_iff_exists.mp hc
      obtain ⟨o, ho⟩ := digit_name d hd'
      have hname : str (p ++ toString o.val) = l :: (a ++ [d]) := by rw [str_append, e, ho]; rfl
      obtain ⟨n', h1, h2, h3, h4⟩ := C79_note_text_exact p v o.val hv (by omega) (by omega)
      rw [hoct, hname, h] at h1
      injection h1 with h1
      subst h1
      exact ⟨p, v, o.val, hv, by omega, hname.symm, h2, h3, h4⟩
    · exfalso
      have hl' : l ∈ ([97, 98, 99, 100, 101, 102, 103] : Bytes) :=
        all8 (P := fun b => 97 ≤ b.toNat ∧ b.toNat ≤ 103 → b ∈ ([97, 98, 99, 100, 101, 102, 103] : Bytes)) (by decide +kernel) l hl
      have := small_note l hl' a ha' d hd'
      rw [h] at this
      cases this
  · rintro ⟨p, v, o, hv, ho, rfl, h1, h2, h3⟩
    obtain ⟨n', g1, g2, g3, g4⟩ := C79_note_text_exact p v o hv (by omega) (by omega)
    rw [hoct] at g1 g3
    rw [g1]
    refine congrArg _ (noteVal_unique n' n ?_ ?_ ?_)
    · omega
    · rw [g3, h2]
    · rw [g4, g3, h3, h2]

/-! ### Keys -/

/-- The key names in lower case. -/
def lowerKeys : List Bytes :=
  ([97, 98, 99, 100, 101, 102, 103] : Bytes).flatMap fun l => ([[], str "♯", str "♭"] : List Bytes).flatMap fun a =>
    [l :: (a ++ 32 :: str "major"), l :: (a ++ 32 :: str "minor")]

theorem sameLetters_lower (w x : Bytes) : List.Forall₂ SameLetter w x ↔ w.map lower = x.map lower := by
  constructor
  · intro h
    induction h with
    | nil => rfl
    | cons h1 _ ih => rw [List.map_cons, List.map_cons, ih, (sameLetter_lower _ _).mp h1]
  · intro h
    induction w generalizing x with
    | nil =>
      cases x with
      | nil => exact .nil
      | cons b x => cases h
    | cons c w ih =>
      cases x with
      | nil => cases h
      | cons b x =>
        simp only [List.map_cons, List.cons.injEq] at h
        exact .cons ((sameLetter_lower _ _).mpr h.1.symm) (ih x h.2)

theorem folded_lower (w x : Bytes) (hw : ∀ c ∈ w, ¬ SameLetter c 107 ∧ ¬ SameLetter c 115) (h : Folded w x) : x.map lower = w.map lower := by
  induction h with
  | nil => rfl
  | letter c b w x h1 _ ih =>
    rw [List.map_cons, List.map_cons, ih (fun d hd => hw d (by simp [hd])), (sameLetter_lower _ _).mp h1]
  | kelvin c w x h1 => exact absurd h1 (hw c (by simp)).1
  | long c w x h1 => exact absurd h1 (hw c (by simp)).2

theorem key_table : ∀ y ∈ lowerKeys, ∀ i : Fin 15, ∀ m : Bool, (str (keyName ((i.val : Int) - 7) m)).map lower = y →
    keyByName y = (Int8.ofInt ((i.val : Int) - 7), if m then 1 else 0) := by
  decide +kernel

theorem key_other : ∀ y ∈ lowerKeys, (∀ i : Fin 15, ∀ m : Bool, (str (keyName ((i.val : Int) - 7) m)).map lower ≠ y) → keyByName y = (0, 0) := by
  decide +kernel

theorem key_int : ∀ i : Fin 15, (Int8.ofInt ((i.val : Int) - 7)).toInt = (i.val : Int) - 7 := by decide +kernel

/-- The text of a key. -/
def KeyShape (key mode : Bytes) : Prop :=
  (∃ l a, key = l :: a ∧ KeyLetter l ∧ Accidental a) ∧ (Folded (str "major") mode ∨ Folded (str "minor") mode)

theorem keyShape_lower (key mode : Bytes) (h : KeyShape key mode) : (key ++ [32] ++ mode).map lower ∈ lowerKeys := by
  obtain ⟨⟨l, a, rfl, hl, ha⟩, hm⟩ := h
  have hl' : lower l ∈ ([97, 98, 99, 100, 101, 102, 103] : Bytes) :=
    all8 (P := fun b => KeyLetter b → lower b ∈ ([97, 98, 99, 100, 101, 102, 103] : Bytes)) (by unfold KeyLetter; decide +kernel) l hl
  have ha' : a.map lower = a ∧ a ∈ ([[], str "♯", str "♭"] : List Bytes) := by
    rcases ha with rfl | rfl | rfl
    · exact ⟨rfl, .head _⟩
    · exact ⟨by decide +kernel, .tail _ (.head _)⟩
    · exact ⟨by decide +kernel, .tail _ (.tail _ (.head _))⟩
  have hm' : mode.map lower = str "major" ∨ mode.map lower = str "minor" := by
    rcases hm with h | h
    · left
      rw [folded_lower _ _ (by unfold SameLetter; decide +kernel) h]
      decide +kernel
    · right
      rw [folded_lower _ _ (by unfold SameLetter; decide +kernel) h]
      decide +kernel
  have e : ((l :: a) ++ [32] ++ mode).map lower = lower l :: (a ++ 32 :: mode.map lower) := by
    simp only [List.map_append, List.map_cons, List.cons_append, List.append_assoc, List.nil_append, List.map_nil, ha'.1]
    rfl
  rw [e]
  unfold lowerKeys
  rw [List.mem_flatMap]
  refine ⟨lower l, hl', ?_⟩
  rw [List.mem_flatMap]
  refine ⟨a, ha'.2, ?_⟩
  rcases hm' with h | h
  · rw [h]; exact .head _
  · rw [h]; exact .tail _ (.head _)

theorem keyByName_iff (key mode : Bytes) (hs : KeyShape key mode) (a : Int8) (k : UInt8) :
    keyByName ((key ++ [32] ++ mode).map lower) = (a, k) ↔ KeyNamed (key ++ 32 :: mode) a.toInt (k == 1) ∧ k.toNat ≤ 1 := by
  have hmem := keyShape_lower key mode hs
  have hassoc : key ++ [32] ++ mode = key ++ 32 :: mode := by simp
  rw [hassoc] at hmem ⊢
  generalize hy : (key ++ 32 :: mode).map lower = y at hmem
  have hname : ∀ w, List.Forall₂ SameLetter w (key ++ 32 :: mode) ↔ w.map lower = y := by
    intro w
    rw [sameLetters_lower, hy]
  have hk : ∀ m : Bool, (((if m then 1 else 0 : UInt8)) == 1) = m ∧ ((if m then 1 else 0 : UInt8)).toNat ≤ 1 := by decide
  unfold KeyNamed
  constructor
  · intro h
    by_cases hex : ∃ i : Fin 15, ∃ m : Bool, (str (keyName ((i.val : Int) - 7) m)).map lower = y
    · obtain ⟨i, m, he⟩ := hex
      have h1 := key_table y hmem i m he
      rw [h] at h1
      injection h1 with h1 h2
      subst h1 h2
      refine ⟨Or.inl ?_, (hk m).2⟩
      rw [key_int, (hk m).1]
      exact ⟨by omega, by omega, (hname _).mpr he⟩
    · have hne : ∀ i : Fin 15, ∀ m : Bool, (str (keyName ((i.val : Int) - 7) m)).map lower ≠ y := fun i m he => hex ⟨i, m, he⟩
      have h1 := key_other y hmem hne
      rw [h] at h1
      injection h1 with h1 h2
      subst h1 h2
      refine ⟨Or.inr ⟨rfl, rfl, ?_⟩, by decide⟩
      intro x m hx1 hx2 hf
      refine hne ⟨(x + 7).toNat, by omega⟩ m ?_
      have : (((x + 7).toNat : Nat) : Int) - 7 = x := by omega
      simp only [this]
      exact (hname _).mp hf
  · rintro ⟨h | h, hk1⟩
    · obtain ⟨h1, h2, h3⟩ := h
      have := key_table y hmem ⟨(a.toInt + 7).toNat, by omega⟩ (k == 1) (by
        have : (((a.toInt + 7).toNat : Nat) : Int) - 7 = a.toInt := by omega
        simp only [this]
        exact (hname _).mp h3)
      have e : (((a.toInt + 7).toNat : Nat) : Int) - 7 = a.toInt := by omega
      simp only [e, Int8.ofInt_toInt] at this
      rw [this]
      congr 1
      have hk2 : k = 0 ∨ k = 1 := by
        rw [← UInt8.toNat_inj, ← UInt8.toNat_inj]
        have : (0 : UInt8).toNat = 0 := rfl
        have : (1 : UInt8).toNat = 1 := rfl
        omega
      rcases hk2 with rfl | rfl <;> rfl
    · obtain ⟨h1, h2, h3⟩ := h
      have := key_other y hmem (by
        intro i m he
        exact h3 _ m (by omega) (by omega) ((hname _).mpr he))
      rw [this]
      have ha : a = 0 := Int8.toInt_inj.mp (by rw [h1]; rfl)
      have hk2 : k = 0 := by
        rw [← UInt8.toNat_inj]
        have : k ≠ 1 := by
          intro e
          rw [e] at h2
          cases h2
        rw [← UInt8.toNat_inj.ne] at this
        have e0 : (0 : UInt8).toNat = 0 := rfl
        have e1 : (1 : UInt8).toNat = 1 := rfl
        omega
      rw [ha, hk2]

/-! ### Patterns and forms -/

theorem find_form (is : List Item) (ps : List LinePart) (h1 : ps = .word "delta:" :: ps.tail) (h2 : is = itemsOf ps) (h3 : good ps = true) (line : Bytes)
    (gs : List Bytes) : findSubmatch is line = some gs ↔ Finds ps line gs := by
  subst h2
  rw [h1] at h3 ⊢
  exact find_good _ h3 line gs

theorem textForm (k : TextKind) (line : Bytes) (gs : List Bytes) : findSubmatch (restPattern k.tag) line = some gs ↔ Finds (form k.tag) line gs := by
  cases k <;> (refine find_form _ _ ?_ ?_ ?_ line gs; (decide +kernel); rfl; (decide +kernel))

theorem continuationForm (line : Bytes) (gs : List Bytes) :
    findSubmatch (restPattern "SysExContinuation") line = some gs ↔ Finds (form "SysExContinuation") line gs := by
  refine find_form _ _ ?_ ?_ ?_ line gs
  · decide +kernel
  · rfl
  · decide +kernel

theorem escapeForm (line : Bytes) (gs : List Bytes) : findSubmatch (restPattern "SysExEscape") line = some gs ↔ Finds (form "SysExEscape") line gs := by
  refine find_form _ _ ?_ ?_ ?_ line gs
  · decide +kernel
  · rfl
  · decide +kernel

theorem sequenceForm (line : Bytes) (gs : List Bytes) :
    findSubmatch (numberPattern "SequenceNumber") line = some gs ↔ Finds (form "SequenceNumber") line gs := by
  refine find_form _ _ ?_ ?_ ?_ line gs
  · decide +kernel
  · rfl
  · decide +kernel

theorem prefixForm (line : Bytes) (gs : List Bytes) :
    findSubmatch (numberPattern "MIDIChannelPrefix") line = some gs ↔ Finds (form "MIDIChannelPrefix") line gs := by
  refine find_form _ _ ?_ ?_ ?_ line gs
  · decide +kernel
  · rfl
  · decide +kernel

theorem portForm (line : Bytes) (gs : List Bytes) : findSubmatch (numberPattern "MIDIPort") line = some gs ↔ Finds (form "MIDIPort") line gs := by
  refine find_form _ _ ?_ ?_ ?_ line gs
  · decide +kernel
  · rfl
  · decide +kernel

theorem endForm (line : Bytes) (gs : List Bytes) :
    findSubmatch (deltaPattern ++ ilit "EndOfTrack") line = some gs ↔ Finds (form "EndOfTrack") line gs := by
  refine find_form _ _ ?_ ?_ ?_ line gs
  · decide +kernel
  · rfl
  · decide +kernel

theorem tempoForm (line : Bytes) (gs : List Bytes) : findSubmatch tempoPattern line = some gs ↔ Finds (form "Tempo") line gs := by
  refine find_form _ _ ?_ ?_ ?_ line gs
  · decide +kernel
  · rfl
  · decide +kernel

theorem smpteForm (line : Bytes) (gs : List Bytes) : findSubmatch smptePattern line = some gs ↔ Finds (form "SMPTEOffset") line gs := by
  refine find_form _ _ ?_ ?_ ?_ line gs
  · decide +kernel
  · rfl
  · decide +kernel

theorem timeForm (line : Bytes) (gs : List Bytes) : findSubmatch timePattern line = some gs ↔ Finds (form "TimeSignature") line gs := by
  refine find_form _ _ ?_ ?_ ?_ line gs
  · decide +kernel
  · rfl
  · decide +kernel

theorem keyForm (line : Bytes) (gs : List Bytes) : findSubmatch keyPattern line = some gs ↔ Finds (form "KeySignature") line gs := by
  refine find_form _ _ ?_ ?_ ?_ line gs
  · decide +kernel
  · rfl
  · decide +kernel

theorem specificForm (line : Bytes) (gs : List Bytes) :
    findSubmatch (dataPattern "SequencerSpecificEvent") line = some gs ↔ Finds (form "SequencerSpecificEvent") line gs := by
  refine find_form _ _ ?_ ?_ ?_ line gs
  · decide +kernel
  · rfl
  · decide +kernel

theorem messageForm (line : Bytes) (gs : List Bytes) : findSubmatch (dataPattern "SysExMessage") line = some gs ↔ Finds (form "SysExMessage") line gs := by
  refine find_form _ _ ?_ ?_ ?_ line gs
  · decide +kernel
  · rfl
  · decide +kernel

theorem noteOffForm (line : Bytes) (gs : List Bytes) : findSubmatch (notePatternOf "NoteOff") line = some gs ↔ Finds (form "NoteOff") line gs := by
  refine find_form _ _ ?_ ?_ ?_ line gs
  · decide +kernel
  · rfl
  · decide +kernel

theorem noteOnForm (line : Bytes) (gs : List Bytes) : findSubmatch (notePatternOf "NoteOn") line = some gs ↔ Finds (form "NoteOn") line gs := by
  refine find_form _ _ ?_ ?_ ?_ line gs
  · decide +kernel
  · rfl
  · decide +kernel

theorem polyForm (line : Bytes) (gs : List Bytes) :
    findSubmatch (pressurePattern "PolyphonicPressure") line = some gs ↔ Finds (form "PolyphonicPressure") line gs := by
  refine find_form _ _ ?_ ?_ ?_ line gs
  · decide +kernel
  · rfl
  · decide +kernel

theorem controllerForm (line : Bytes) (gs : List Bytes) : findSubmatch controllerPattern line = some gs ↔ Finds (form "Controller") line gs := by
  refine find_form _ _ ?_ ?_ ?_ line gs
  · decide +kernel
  · rfl
  · decide +kernel

theorem programForm (line : Bytes) (gs : List Bytes) : findSubmatch programPattern line = some gs ↔ Finds (form "ProgramChange") line gs := by
  refine find_form _ _ ?_ ?_ ?_ line gs
  · decide +kernel
  · rfl
  · decide +kernel

theorem pressureForm (line : Bytes) (gs : List Bytes) :
    findSubmatch (pressurePattern "ChannelPressure") line = some gs ↔ Finds (form "ChannelPressure") line gs := by
  refine find_form _ _ ?_ ?_ ?_ line gs
  · decide +kernel
  · rfl
  · decide +kernel

theorem bendForm (line : Bytes) (gs : List Bytes) : findSubmatch bendPattern line = some gs ↔ Finds (form "PitchBend") line gs := by
  refine find_form _ _ ?_ ?_ ?_ line gs
  · decide +kernel
  · rfl
  · decide +kernel

/-! ### One kind of event after the other -/

section Kinds
variable (table : List (String × Lib.Manufacturer)) (line : Bytes) (delta : UInt32) (b : Body)

theorem line_text (k : TextKind) : readText k line = .ok (delta, b) ↔ ∃ t, b = .text k t ∧ LineSays table line delta (.text k t) := by
  unfold readText
  constructor
  · intro h
    split at h
    · rename_i d s hm
      obtain ⟨x, h1, h⟩ := bound_ok h
      injection h with h
      injection h with e1 e2
      subst e1 e2
      exact ⟨s, rfl, d, [s], (textForm k line _).mp hm, (parseDelta_iff _ _).mp h1, rfl⟩
    · cases h
  · rintro ⟨t, rfl, d, gs, hF, hd, rfl⟩
    rw [(textForm k line _).mpr hF]
    simp only
    rw [(parseDelta_iff _ _).mpr hd]
    rfl

theorem line_sequenceNumber : readSequenceNumber line = .ok (delta, b) ↔
    ∃ n, b = .sequenceNumber n ∧ LineSays table line delta (.sequenceNumber n) := by
  unfold readSequenceNumber
  constructor
  · intro h
    split at h
    · rename_i d s hm
      obtain ⟨x, h1, h⟩ := bound_ok h
      obtain ⟨v, h2, h⟩ := bound_ok h
      injection h with h
      injection h with e1 e2
      subst e1 e2
      exact ⟨_, rfl, d, [s], (sequenceForm line _).mp hm, (parseDelta_iff _ _).mp h1, s, rfl, (parseUint16_iff _ _).mp ⟨v, h2, rfl⟩⟩
    · cases h
  · rintro ⟨n, rfl, d, gs, hF, hd, s, rfl, hs⟩
    obtain ⟨v, h2, rfl⟩ := (parseUint16_iff _ _).mpr hs
    rw [(sequenceForm line _).mpr hF]
    simp only
    rw [(parseDelta_iff _ _).mpr hd, Outcome.bind_ok, h2]
    rfl

theorem line_prefix : readMIDIChannelPrefix line = .ok (delta, b) ↔
    ∃ ch, b = .midiChannelPrefix ch ∧ LineSays table line delta (.midiChannelPrefix ch) := by
  unfold readMIDIChannelPrefix
  constructor
  · intro h
    split at h
    · rename_i d s hm
      obtain ⟨x, h1, h⟩ := bound_ok h
      obtain ⟨v, h2, h⟩ := bound_ok h
      split at h
      · cases h
      · rename_i hv
        unfold makeMIDIChannelPrefix at h
        rw [if_neg hv] at h
        injection h with h
        injection h with e1 e2
        subst e1 e2
        refine ⟨_, rfl, d, [s], (prefixForm line _).mp hm, (parseDelta_iff _ _).mp h1, s, rfl, (parseByte_iff _ _).mp h2, ?_⟩
        have : ¬ (15 : UInt8) < v := hv
        rw [UInt8.lt_iff_toNat_lt] at this
        have e : (15 : UInt8).toNat = 15 := rfl
        omega
    · cases h
  · rintro ⟨n, rfl, d, gs, hF, hd, s, rfl, hs, hn⟩
    rw [(prefixForm line _).mpr hF]
    have hv : ¬ n > 15 := by
      show ¬ (15 : UInt8) < n
      rw [UInt8.lt_iff_toNat_lt]
      have e : (15 : UInt8).toNat = 15 := rfl
      omega
    simp only
    rw [(parseDelta_iff _ _).mpr hd, Outcome.bind_ok, (parseByte_iff _ _).mpr hs, Outcome.bind_ok, if_neg hv, makeMIDIChannelPrefix, if_neg hv]
    rfl

theorem line_port : readMIDIPort line = .ok (delta, b) ↔ ∃ p, b = .midiPort p ∧ LineSays table line delta (.midiPort p) := by
  unfold readMIDIPort
  constructor
  · intro h
    split at h
    · rename_i d s hm
      obtain ⟨x, h1, h⟩ := bound_ok h
      obtain ⟨v, h2, h⟩ := bound_ok h
      split at h
      · cases h
      · rename_i hv
        unfold makeMIDIPort at h
        rw [if_neg hv] at h
        injection h with h
        injection h with e1 e2
        subst e1 e2
        refine ⟨_, rfl, d, [s], (portForm line _).mp hm, (parseDelta_iff _ _).mp h1, s, rfl, (parseByte_iff _ _).mp h2, ?_⟩
        have : ¬ (127 : UInt8) < v := hv
        rw [UInt8.lt_iff_toNat_lt] at this
        have e : (127 : UInt8).toNat = 127 := rfl
        omega
    · cases h
  · rintro ⟨n, rfl, d, gs, hF, hd, s, rfl, hs, hn⟩
    rw [(portForm line _).mpr hF]
    have hv : ¬ n > 127 := by
      show ¬ (127 : UInt8) < n
      rw [UInt8.lt_iff_toNat_lt]
      have e : (127 : UInt8).toNat = 127 := rfl
      omega
    simp only
    rw [(parseDelta_iff _ _).mpr hd, Outcome.bind_ok, (parseByte_iff _ _).mpr hs, Outcome.bind_ok, if_neg hv, makeMIDIPort, if_neg hv]
    rfl

theorem line_end : readEndOfTrack line = .ok (delta, b) ↔ b = .endOfTrack ∧ LineSays table line delta .endOfTrack := by
  unfold readEndOfTrack
  constructor
  · intro h
    split at h
    · rename_i d hm
      obtain ⟨x, h1, h⟩ := bound_ok h
      injection h with h
      injection h with e1 e2
      subst e1 e2
      exact ⟨rfl, d, [], (endForm line _).mp hm, (parseDelta_iff _ _).mp h1, rfl⟩
    · cases h
  · rintro ⟨rfl, d, gs, hF, hd, rfl⟩
    rw [(endForm line _).mpr hF]
    simp only
    rw [(parseDelta_iff _ _).mpr hd]
    rfl

theorem line_tempo : readTempo line = .ok (delta, b) ↔ ∃ t, b = .tempo t ∧ LineSays table line delta (.tempo t) := by
  unfold readTempo
  constructor
  · intro h
    split at h
    · rename_i d s hm
      obtain ⟨x, h1, h⟩ := bound_ok h
      obtain ⟨v, h2, h⟩ := bound_ok h
      injection h with h
      injection h with e1 e2
      subst e1 e2
      exact ⟨_, rfl, d, [s], (tempoForm line _).mp hm, (parseDelta_iff _ _).mp h1, s, rfl, (parseUint32_iff _ _).mp ⟨v, h2, rfl⟩⟩
    · cases h
  · rintro ⟨n, rfl, d, gs, hF, hd, s, rfl, hs⟩
    obtain ⟨v, h2, rfl⟩ := (parseUint32_iff _ _).mpr hs
    rw [(tempoForm line _).mpr hF]
    simp only
    rw [(parseDelta_iff _ _).mpr hd, Outcome.bind_ok, h2]
    rfl

theorem smpte_ok (h m s r f ff : UInt8) (x : Body) :
    (if r ≠ 24 ∧ r ≠ 25 ∧ r ≠ 29 ∧ r ≠ 30 then .err .other else if ff > 100 then .err .other
      else makeSMPTEOffset h m s r f ff) = Outcome.ok x ↔
      x = .smpteOffset h m s r f ff ∧ h.toNat ≤ 24 ∧ m.toNat ≤ 59 ∧ s.toNat ≤ 59 ∧ r.toNat ∈ [24, 25, 29, 30] ∧ f.toNat < r.toNat ∧ ff.toNat ≤ 100 := by
  have hr : (r ≠ 24 ∧ r ≠ 25 ∧ r ≠ 29 ∧ r ≠ 30) ↔ ¬ r.toNat ∈ [24, 25, 29, 30] := by
    simp only [List.mem_cons, List.not_mem_nil, or_false, not_or, ne_eq, ← UInt8.toNat_inj]
    rfl
  have gt : ∀ (a : UInt8) (n : UInt8), (a > n) ↔ n.toNat < a.toNat := fun a n => UInt8.lt_iff_toNat_lt
  unfold makeSMPTEOffset
  simp only [hr, gt, ge_iff_le, UInt8.le_iff_toNat_le]
  have e24 : (24 : UInt8).toNat = 24 := rfl
  have e59 : (59 : UInt8).toNat = 59 := rfl
  have e100 : (100 : UInt8).toNat = 100 := rfl
  rw [e24, e59, e100]
  constructor
  · intro hx
    repeat' split at hx
    all_goals first
      | cases hx; done
      | (injection hx with hx
         refine ⟨hx.symm, by omega, by omega, by omega, Classical.not_not.mp (by assumption), by omega, by omega⟩)
  · rintro ⟨rfl, h1, h2, h3, h4, h5, h6⟩
    rw [if_neg (not_not_intro h4), if_neg (by omega), if_neg (by omega), if_neg (by omega), if_neg (by omega), if_neg (not_not_intro h4),
      if_neg (by omega), if_neg (by omega)]

theorem line_offset : readSMPTEOffset line = .ok (delta, b) ↔
    ∃ h m s r f ff, b = .smpteOffset h m s r f ff ∧ LineSays table line delta (.smpteOffset h m s r f ff) := by
  unfold readSMPTEOffset
  constructor
  · intro h
    split at h
    · rename_i d s1 s2 s3 s4 s5 s6 hm
      obtain ⟨x, h1, h⟩ := bound_ok h
      obtain ⟨v1, k1, h⟩ := bound_ok h
      obtain ⟨v2, k2, h⟩ := bound_ok h
      obtain ⟨v3, k3, h⟩ := bound_ok h
      obtain ⟨v4, k4, h⟩ := bound_ok h
      obtain ⟨v5, k5, h⟩ := bound_ok h
      obtain ⟨v6, k6, h⟩ := bound_ok h
      have hx := smpte_ok v1 v2 v3 v4 v5 v6 b
      split at h
      · cases h
      · rename_i c1
        rw [if_neg c1] at hx
        split at h
        · cases h
        · rename_i c2
          rw [if_neg c2] at hx
          obtain ⟨y, k7, h⟩ := bound_ok h
          injection h with h
          injection h with e1 e2
          subst e1 e2
          obtain ⟨rfl, q⟩ := hx.mp k7
          exact ⟨_, _, _, _, _, _, rfl, d, _, (smpteForm line _).mp hm, (parseDelta_iff _ _).mp h1, s1, s2, s3, s4, s5, s6, rfl,
            (parseByte_iff _ _).mp k1, (parseByte_iff _ _).mp k2, (parseByte_iff _ _).mp k3, (parseByte_iff _ _).mp k4, (parseByte_iff _ _).mp k5,
            (parseByte_iff _ _).mp k6, q⟩
    · cases h
  · rintro ⟨h, m, s, r, f, ff, rfl, d, gs, hF, hd, s1, s2, s3, s4, s5, s6, rfl, k1, k2, k3, k4, k5, k6, q⟩
    rw [(smpteForm line _).mpr hF]
    simp only
    rw [(parseDelta_iff _ _).mpr hd, Outcome.bind_ok, (parseByte_iff _ _).mpr k1, Outcome.bind_ok, (parseByte_iff _ _).mpr k2, Outcome.bind_ok,
      (parseByte_iff _ _).mpr k3, Outcome.bind_ok, (parseByte_iff _ _).mpr k4, Outcome.bind_ok, (parseByte_iff _ _).mpr k5, Outcome.bind_ok,
      (parseByte_iff _ _).mpr k6, Outcome.bind_ok]
    have hx := (smpte_ok h m s r f ff _).mpr ⟨rfl, q⟩
    split at hx
    · cases hx
    · split at hx
      · cases hx
      · rename_i c1 c2
        rw [if_neg c1, if_neg c2, hx]
        rfl

theorem line_time : readTimeSignature line = .ok (delta, b) ↔
    ∃ n dd t q, b = .timeSignature n dd t q ∧ LineSays table line delta (.timeSignature n dd t q) := by
  unfold readTimeSignature
  constructor
  · intro h
    split at h
    · rename_i d s1 s2 s3 s4 hm
      obtain ⟨x, h1, h⟩ := bound_ok h
      obtain ⟨v1, k1, h⟩ := bound_ok h
      obtain ⟨v2, k2, h⟩ := bound_ok h
      obtain ⟨v3, k3, h⟩ := bound_ok h
      obtain ⟨v4, k4, h⟩ := bound_ok h
      obtain ⟨y, k5, h⟩ := bound_ok h
      injection h with h
      injection h with e1 e2
      subst e1 e2
      unfold makeTimeSignature at k5
      obtain ⟨z, k6, k7⟩ := bound_ok k5
      injection k7 with k7
      subst k7
      refine ⟨_, _, _, _, rfl, d, _, (timeForm line _).mp hm, (parseDelta_iff _ _).mp h1, s1, s2, s3, s4, rfl,
            (parseByte_iff _ _).mp k1, (parseByte_iff _ _).mp k2, (parseByte_iff _ _).mp k3, (parseByte_iff _ _).mp k4, ?_⟩
      rcases Nat.lt_or_ge 128 v2.toNat with hlt | hge
      · rw [(denomLoop_value v2).2 hlt] at k6
        cases k6
      · exact hge
    · cases h
  · rintro ⟨n, dd, t, q, rfl, d, gs, hF, hd, s1, s2, s3, s4, rfl, k1, k2, k3, k4, hq⟩
    rw [(timeForm line _).mpr hF]
    obtain ⟨z, hz, _⟩ := (denomLoop_value dd).1 hq
    simp only
    rw [(parseDelta_iff _ _).mpr hd, Outcome.bind_ok, (parseByte_iff _ _).mpr k1, Outcome.bind_ok, (parseByte_iff _ _).mpr k2, Outcome.bind_ok,
      (parseByte_iff _ _).mpr k3, Outcome.bind_ok, (parseByte_iff _ _).mpr k4, Outcome.bind_ok, makeTimeSignature, hz]
    rfl

theorem key_shape (d key mode : Bytes) (h : Finds (form "KeySignature") line [d, key, mode]) : KeyShape key mode := by
  obtain ⟨pre, s, _, h, _⟩ := h
  obtain ⟨_, _, _, _, h⟩ := h
  obtain ⟨_, _, g1, _, e1, _, _, _, h⟩ := h
  obtain ⟨_, _, _, _, h, _⟩ := h
  obtain ⟨_, _, _, _, h⟩ := h
  obtain ⟨_, _, _, _, _, _, h⟩ := h
  obtain ⟨l, a, _, g2, _, e2, hl, ha, h⟩ := h
  obtain ⟨_, _, _, _, _, _, h⟩ := h
  obtain ⟨x, _, g3, _, e3, hm, _⟩ := h
  subst e3
  subst e2
  injection e1 with _ e1
  injection e1 with e1 e2
  injection e2 with e2 _
  subst e1 e2
  exact ⟨⟨l, a, rfl, hl, ha⟩, hm⟩

theorem line_key : readKeySignature line = .ok (delta, b) ↔
    ∃ a k name, b = .keySignature a k name ∧ LineSays table line delta (.keySignature a k name) := by
  unfold readKeySignature
  constructor
  · intro h
    split at h
    · rename_i d key mode hm
      have hF := (keyForm line _).mp hm
      have hshape := key_shape line d key mode hF
      obtain ⟨x, h1, h⟩ := bound_ok h
      have hk := keyByName_iff key mode hshape
      generalize keyByName (List.map lower (key ++ [32] ++ mode)) = p at h hk
      obtain ⟨a, k⟩ := p
      obtain ⟨y, h2, h⟩ := bound_ok h
      injection h with h
      injection h with e1 e2
      subst e1 e2
      obtain ⟨hn, hk1⟩ := (hk a k).mp rfl
      have hrange : -7 ≤ a.toInt ∧ a.toInt ≤ 7 := by
        rcases hn with hn | hn
        · exact ⟨hn.1, hn.2.1⟩
        · rw [hn.1]; decide
      have hmade := keySignature_made a k _ hrange.1 hrange.2 (by rw [UInt8.le_iff_toNat_le]; exact hk1) rfl
      rw [h2] at hmade
      injection hmade with hmade
      subst hmade
      exact ⟨_, _, _, rfl, d, _, hF, (parseDelta_iff _ _).mp h1, key, mode, rfl, hn, hk1, rfl⟩
    · cases h
  · rintro ⟨a, k, name, rfl, d, gs, hF, hd, key, mode, rfl, hn, hk1, rfl⟩
    have hshape := key_shape line d key mode hF
    have hk := (keyByName_iff key mode hshape a k).mpr ⟨hn, hk1⟩
    rw [(keyForm line _).mpr hF]
    simp only
    rw [(parseDelta_iff _ _).mpr hd, Outcome.bind_ok, hk]
    have hrange : -7 ≤ a.toInt ∧ a.toInt ≤ 7 := by
      rcases hn with hn | hn
      · exact ⟨hn.1, hn.2.1⟩
      · rw [hn.1]; decide
    simp only
    rw [keySignature_made a k _ hrange.1 hrange.2 (by rw [UInt8.le_iff_toNat_le]; exact hk1) rfl]
    rfl

theorem line_specific : readSequencerSpecific table line = .ok (delta, b) ↔
    ∃ m data, b = .sequencerSpecific m data ∧ LineSays table line delta (.sequencerSpecific m data) := by
  unfold readSequencerSpecific
  constructor
  · intro h
    split at h
    · rename_i d name s hm
      obtain ⟨x, h1, h⟩ := bound_ok h
      obtain ⟨m, h2, h⟩ := bound_ok h
      obtain ⟨data, h3, h⟩ := bound_ok h
      injection h with h
      injection h with e1 e2
      subst e1 e2
      exact ⟨_, _, rfl, d, _, (specificForm line _).mp hm, (parseDelta_iff _ _).mp h1, name, s, rfl, (findManufacturer_iff _ _ _).mp h2,
        (parseHex_iff _ _).mp h3⟩
    · cases h
  · rintro ⟨m, data, rfl, d, gs, hF, hd, name, s, rfl, h1, h2⟩
    rw [(specificForm line _).mpr hF]
    simp only
    rw [(parseDelta_iff _ _).mpr hd, Outcome.bind_ok, (findManufacturer_iff _ _ _).mpr h1, Outcome.bind_ok, (parseHex_iff _ _).mpr h2]
    rfl

theorem line_message : readSysExMessage table line = .ok (delta, b) ↔
    ∃ m data single, b = .sysExMessage m data single ∧ LineSays table line delta (.sysExMessage m data single) := by
  unfold readSysExMessage
  constructor
  · intro h
    split at h
    · rename_i d name s hm
      obtain ⟨x, h1, h⟩ := bound_ok h
      obtain ⟨m, h2, h⟩ := bound_ok h
      obtain ⟨data, h3, h⟩ := bound_ok h
      injection h with h
      injection h with e1 e2
      subst e1 e2
      exact ⟨_, _, _, rfl, d, _, (messageForm line _).mp hm, (parseDelta_iff _ _).mp h1, name, s, rfl, (findManufacturer_iff _ _ _).mp h2,
        (parseHex_iff _ _).mp h3, rfl⟩
    · cases h
  · rintro ⟨m, data, single, rfl, d, gs, hF, hd, name, s, rfl, h1, h2, rfl⟩
    rw [(messageForm line _).mpr hF]
    simp only
    rw [(parseDelta_iff _ _).mpr hd, Outcome.bind_ok, (findManufacturer_iff _ _ _).mpr h1, Outcome.bind_ok, (parseHex_iff _ _).mpr h2]
    rfl

theorem line_continuation : readSysExContinuation line = .ok (delta, b) ↔
    ∃ data last, b = .sysExContinuation data last ∧ LineSays table line delta (.sysExContinuation data last) := by
  unfold readSysExContinuation
  constructor
  · intro h
    split at h
    · rename_i d s hm
      obtain ⟨x, h1, h⟩ := bound_ok h
      obtain ⟨data, h3, h⟩ := bound_ok h
      injection h with h
      injection h with e1 e2
      subst e1 e2
      exact ⟨_, _, rfl, d, _, (continuationForm line _).mp hm, (parseDelta_iff _ _).mp h1, s, rfl, (parseHex_iff _ _).mp h3, rfl⟩
    · cases h
  · rintro ⟨data, last, rfl, d, gs, hF, hd, s, rfl, h1, rfl⟩
    rw [(continuationForm line _).mpr hF]
    simp only
    rw [(parseDelta_iff _ _).mpr hd, Outcome.bind_ok, (parseHex_iff _ _).mpr h1]
    rfl

theorem line_escape : readSysExEscape line = .ok (delta, b) ↔ ∃ data, b = .sysExEscape data ∧ LineSays table line delta (.sysExEscape data) := by
  unfold readSysExEscape
  constructor
  · intro h
    split at h
    · rename_i d s hm
      obtain ⟨x, h1, h⟩ := bound_ok h
      obtain ⟨data, h3, h⟩ := bound_ok h
      injection h with h
      injection h with e1 e2
      subst e1 e2
      exact ⟨_, rfl, d, _, (escapeForm line _).mp hm, (parseDelta_iff _ _).mp h1, s, rfl, (parseHex_iff _ _).mp h3⟩
    · cases h
  · rintro ⟨data, rfl, d, gs, hF, hd, s, rfl, h1⟩
    rw [(escapeForm line _).mpr hF]
    simp only
    rw [(parseDelta_iff _ _).mpr hd, Outcome.bind_ok, (parseHex_iff _ _).mpr h1]
    rfl

theorem not_gt (v n : UInt8) : ¬ v > n ↔ v.toNat ≤ n.toNat := by
  show ¬ n < v ↔ _
  rw [UInt8.lt_iff_toNat_lt]
  omega

theorem note_shape (tag : String) (ps : List LinePart) (d c n : Bytes) (gs : List Bytes) 
    (h : Finds (channelled tag ++ .word "note:" :: .note :: ps) line (d :: c :: n :: gs)) : NoteShape n := by
  obtain ⟨pre, s, _, h, _⟩ := h
  obtain ⟨_, _, _, _, h⟩ := h
  obtain ⟨_, _, g1, _, e1, _, _, _, h⟩ := h
  obtain ⟨_, _, _, _, h, _⟩ := h
  obtain ⟨_, _, _, _, h⟩ := h
  obtain ⟨_, _, _, _, _, _, h⟩ := h
  obtain ⟨_, _, _, _, h⟩ := h
  obtain ⟨_, _, g2, _, e2, _, _, _, h⟩ := h
  obtain ⟨_, _, _, _, _, _, h⟩ := h
  obtain ⟨_, _, _, _, h⟩ := h
  obtain ⟨l, a, dd, _, g3, _, e3, hl, ha, hd, h⟩ := h
  subst e3
  subst e2
  injection e1 with _ e1
  injection e1 with _ e1
  injection e1 with e1 _
  exact ⟨l, a, dd, e1, hl, ha, hd⟩

theorem line_noteOff : readNoteOff line = .ok (delta, b) ↔ ∃ ch n v, b = .noteOff ch n v ∧ LineSays table line delta (.noteOff ch n v) := by
  unfold readNoteOff
  constructor
  · intro h
    split at h
    · rename_i d s1 s2 s3 hm
      have hF := (noteOffForm line _).mp hm
      have hshape := note_shape line "NoteOff" _ d s1 s2 [s3] hF
      obtain ⟨x, h1, h⟩ := bound_ok h
      obtain ⟨ch, h2, h⟩ := bound_ok h
      obtain ⟨n, h3, h⟩ := bound_ok h
      obtain ⟨v, h4, h⟩ := bound_ok h
      split at h
      · cases h
      · rename_i hv
        injection h with h
        injection h with e1 e2
        subst e1 e2
        obtain ⟨q1, q2⟩ := (parseChannel_iff _ _).mp h2
        exact ⟨_, _, _, rfl, d, _, hF, (parseDelta_iff _ _).mp h1, s1, s2, s3, rfl, q1, q2, (parseNote_iff _ _ hshape).mp h3, (parseByte_iff _ _).mp h4,
          (not_gt _ _).mp hv⟩
    · cases h
  · rintro ⟨ch, n, v, rfl, d, gs, hF, hd, s1, s2, s3, rfl, h1, h2, h3, h4, h5⟩
    have hshape := note_shape line "NoteOff" _ d s1 s2 [s3] hF
    rw [(noteOffForm line _).mpr hF]
    simp only
    rw [(parseDelta_iff _ _).mpr hd, Outcome.bind_ok, (parseChannel_iff _ _).mpr ⟨h1, h2⟩, Outcome.bind_ok, (parseNote_iff _ _ hshape).mpr h3,
      Outcome.bind_ok, (parseByte_iff _ _).mpr h4, Outcome.bind_ok, if_neg ((not_gt v 127).mpr h5)]

theorem line_noteOn : readNoteOn line = .ok (delta, b) ↔ ∃ ch n v, b = .noteOn ch n v ∧ LineSays table line delta (.noteOn ch n v) := by
  unfold readNoteOn
  constructor
  · intro h
    split at h
    · rename_i d s1 s2 s3 hm
      have hF := (noteOnForm line _).mp hm
      have hshape := note_shape line "NoteOn" _ d s1 s2 [s3] hF
      obtain ⟨x, h1, h⟩ := bound_ok h
      obtain ⟨ch, h2, h⟩ := bound_ok h
      obtain ⟨n, h3, h⟩ := bound_ok h
      obtain ⟨v, h4, h⟩ := bound_ok h
      obtain ⟨q1, q2⟩ := (parseChannel_iff _ _).mp h2
      split at h
      · cases h
      · rename_i hv
        rw [makeNoteOn, if_neg ((not_gt ch 15).mpr q2), if_neg hv] at h
        injection h with h
        injection h with e1 e2
        subst e1 e2
        exact ⟨_, _, _, rfl, d, _, hF, (parseDelta_iff _ _).mp h1, s1, s2, s3, rfl, q1, q2, (parseNote_iff _ _ hshape).mp h3, (parseByte_iff _ _).mp h4,
          (not_gt _ _).mp hv⟩
    · cases h
  · rintro ⟨ch, n, v, rfl, d, gs, hF, hd, s1, s2, s3, rfl, h1, h2, h3, h4, h5⟩
    have hshape := note_shape line "NoteOn" _ d s1 s2 [s3] hF
    rw [(noteOnForm line _).mpr hF]
    simp only
    rw [(parseDelta_iff _ _).mpr hd, Outcome.bind_ok, (parseChannel_iff _ _).mpr ⟨h1, h2⟩, Outcome.bind_ok, (parseNote_iff _ _ hshape).mpr h3,
      Outcome.bind_ok, (parseByte_iff _ _).mpr h4, Outcome.bind_ok, if_neg ((not_gt v 127).mpr h5), makeNoteOn, if_neg ((not_gt ch 15).mpr h2),
      if_neg ((not_gt v 127).mpr h5)]
    rfl

theorem line_poly : readPolyphonicPressure line = .ok (delta, b) ↔
    ∃ ch p, b = .polyphonicPressure ch p ∧ LineSays table line delta (.polyphonicPressure ch p) := by
  unfold readPolyphonicPressure
  constructor
  · intro h
    split at h
    · rename_i d s1 s2 hm
      obtain ⟨x, h1, h⟩ := bound_ok h
      obtain ⟨ch, h2, h⟩ := bound_ok h
      obtain ⟨v, h4, h⟩ := bound_ok h
      obtain ⟨q1, q2⟩ := (parseChannel_iff _ _).mp h2
      split at h
      · cases h
      · rename_i hv
        rw [makePolyphonicPressure, if_neg ((not_gt ch 15).mpr q2), if_neg hv] at h
        injection h with h
        injection h with e1 e2
        subst e1 e2
        exact ⟨_, _, rfl, d, _, (polyForm line _).mp hm, (parseDelta_iff _ _).mp h1, s1, s2, rfl, q1, q2, (parseByte_iff _ _).mp h4, (not_gt _ _).mp hv⟩
    · cases h
  · rintro ⟨ch, v, rfl, d, gs, hF, hd, s1, s2, rfl, h1, h2, h4, h5⟩
    rw [(polyForm line _).mpr hF]
    simp only
    rw [(parseDelta_iff _ _).mpr hd, Outcome.bind_ok, (parseChannel_iff _ _).mpr ⟨h1, h2⟩, Outcome.bind_ok, (parseByte_iff _ _).mpr h4, Outcome.bind_ok,
      if_neg ((not_gt v 127).mpr h5), makePolyphonicPressure, if_neg ((not_gt ch 15).mpr h2), if_neg ((not_gt v 127).mpr h5)]
    rfl

theorem line_pressure : readChannelPressure line = .ok (delta, b) ↔
    ∃ ch p, b = .channelPressure ch p ∧ LineSays table line delta (.channelPressure ch p) := by
  unfold readChannelPressure
  constructor
  · intro h
    split at h
    · rename_i d s1 s2 hm
      obtain ⟨x, h1, h⟩ := bound_ok h
      obtain ⟨ch, h2, h⟩ := bound_ok h
      obtain ⟨v, h4, h⟩ := bound_ok h
      obtain ⟨q1, q2⟩ := (parseChannel_iff _ _).mp h2
      split at h
      · cases h
      · rename_i hv
        rw [makeChannelPressure, if_neg ((not_gt ch 15).mpr q2), if_neg hv] at h
        injection h with h
        injection h with e1 e2
        subst e1 e2
        exact ⟨_, _, rfl, d, _, (pressureForm line _).mp hm, (parseDelta_iff _ _).mp h1, s1, s2, rfl, q1, q2, (parseByte_iff _ _).mp h4, (not_gt _ _).mp hv⟩
    · cases h
  · rintro ⟨ch, v, rfl, d, gs, hF, hd, s1, s2, rfl, h1, h2, h4, h5⟩
    rw [(pressureForm line _).mpr hF]
    simp only
    rw [(parseDelta_iff _ _).mpr hd, Outcome.bind_ok, (parseChannel_iff _ _).mpr ⟨h1, h2⟩, Outcome.bind_ok, (parseByte_iff _ _).mpr h4, Outcome.bind_ok,
      if_neg ((not_gt v 127).mpr h5), makeChannelPressure, if_neg ((not_gt ch 15).mpr h2), if_neg ((not_gt v 127).mpr h5)]
    rfl

theorem controller_id (n : UInt8) : (Lib.lookupController n).id = n :=
  all8 (P := fun n => (Lib.lookupController n).id = n) (by decide +kernel) n

theorem line_controller : readController line = .ok (delta, b) ↔ ∃ ch c v, b = .controller ch c v ∧ LineSays table line delta (.controller ch c v) := by
  unfold readController
  constructor
  · intro h
    split at h
    · rename_i d s1 s2 s3 hm
      obtain ⟨x, h1, h⟩ := bound_ok h
      obtain ⟨ch, h2, h⟩ := bound_ok h
      obtain ⟨n, h3, h⟩ := bound_ok h
      obtain ⟨v, h4, h⟩ := bound_ok h
      obtain ⟨q1, q2⟩ := (parseChannel_iff _ _).mp h2
      rw [makeController, if_neg ((not_gt ch 15).mpr q2)] at h
      injection h with h
      injection h with e1 e2
      subst e1 e2
      refine ⟨_, _, _, rfl, d, _, (controllerForm line _).mp hm, (parseDelta_iff _ _).mp h1, s1, s2, s3, rfl, q1, q2, ?_, ?_, (parseByte_iff _ _).mp h4⟩
      · rw [controller_id]; exact (parseByte_iff _ _).mp h3
      · rw [controller_id]
    · cases h
  · rintro ⟨ch, c, v, rfl, d, gs, hF, hd, s1, s2, s3, rfl, h1, h2, h3, h4, h5⟩
    rw [(controllerForm line _).mpr hF]
    simp only
    rw [(parseDelta_iff _ _).mpr hd, Outcome.bind_ok, (parseChannel_iff _ _).mpr ⟨h1, h2⟩, Outcome.bind_ok, (parseByte_iff _ _).mpr h3, Outcome.bind_ok,
      (parseByte_iff _ _).mpr h5, Outcome.bind_ok, makeController, if_neg ((not_gt ch 15).mpr h2), ← h4]
    rfl

theorem line_program : readProgramChange line = .ok (delta, b) ↔
    ∃ ch bank p, b = .programChange ch bank p ∧ LineSays table line delta (.programChange ch bank p) := by
  unfold readProgramChange
  constructor
  · intro h
    split at h
    · rename_i d s1 s2 s3 hm
      obtain ⟨x, h1, h⟩ := bound_ok h
      obtain ⟨ch, h2, h⟩ := bound_ok h
      obtain ⟨n, h3, h⟩ := bound_ok h
      obtain ⟨v, h4, h⟩ := bound_ok h
      obtain ⟨q1, q2⟩ := (parseChannel_iff _ _).mp h2
      rw [makeProgramChange, if_neg ((not_gt ch 15).mpr q2)] at h
      injection h with h
      injection h with e1 e2
      subst e1 e2
      exact ⟨_, _, _, rfl, d, _, (programForm line _).mp hm, (parseDelta_iff _ _).mp h1, s1, s2, s3, rfl, q1, q2, (parseUint16_iff _ _).mp ⟨n, h3, rfl⟩,
        (parseByte_iff _ _).mp h4⟩
    · cases h
  · rintro ⟨ch, bank, v, rfl, d, gs, hF, hd, s1, s2, s3, rfl, h1, h2, h3, h4⟩
    obtain ⟨n, h5, rfl⟩ := (parseUint16_iff _ _).mpr h3
    rw [(programForm line _).mpr hF]
    simp only
    rw [(parseDelta_iff _ _).mpr hd, Outcome.bind_ok, (parseChannel_iff _ _).mpr ⟨h1, h2⟩, Outcome.bind_ok, h5, Outcome.bind_ok,
      (parseByte_iff _ _).mpr h4, Outcome.bind_ok, makeProgramChange, if_neg ((not_gt ch 15).mpr h2)]
    rfl

theorem line_bend : readPitchBend line = .ok (delta, b) ↔ ∃ ch v, b = .pitchBend ch v ∧ LineSays table line delta (.pitchBend ch v) := by
  unfold readPitchBend
  constructor
  · intro h
    split at h
    · rename_i d s1 s2 hm
      obtain ⟨x, h1, h⟩ := bound_ok h
      obtain ⟨ch, h2, h⟩ := bound_ok h
      obtain ⟨n, h3, h⟩ := bound_ok h
      obtain ⟨q1, q2⟩ := (parseChannel_iff _ _).mp h2
      rw [makePitchBend, if_neg ((not_gt ch 15).mpr q2)] at h
      injection h with h
      injection h with e1 e2
      subst e1 e2
      exact ⟨_, _, rfl, d, _, (bendForm line _).mp hm, (parseDelta_iff _ _).mp h1, s1, s2, rfl, q1, q2, (parseUint16_iff _ _).mp ⟨n, h3, rfl⟩⟩
    · cases h
  · rintro ⟨ch, v, rfl, d, gs, hF, hd, s1, s2, rfl, h1, h2, h3⟩
    obtain ⟨n, h5, rfl⟩ := (parseUint16_iff _ _).mpr h3
    rw [(bendForm line _).mpr hF]
    simp only
    rw [(parseDelta_iff _ _).mpr hd, Outcome.bind_ok, (parseChannel_iff _ _).mpr ⟨h1, h2⟩, Outcome.bind_ok, h5, Outcome.bind_ok,
      makePitchBend, if_neg ((not_gt ch 15).mpr h2)]
    rfl

end Kinds

/-- The function that reads the lines of a kind. -/
theorem reader_iff (table : List (String × Lib.Manufacturer)) (line : Bytes) (delta : UInt32) (b : Body) :
    readerOf table b line = .ok (delta, b) ↔ LineSays table line delta b := by
  cases b with
  | sequenceNumber n => exact (line_sequenceNumber table line delta _).trans ⟨by rintro ⟨_, ⟨⟩, h⟩; exact h, fun h => ⟨_, rfl, h⟩⟩
  | text k t => exact (line_text table line delta _ k).trans ⟨by rintro ⟨_, ⟨⟩, h⟩; exact h, fun h => ⟨_, rfl, h⟩⟩
  | midiChannelPrefix ch => exact (line_prefix table line delta _).trans ⟨by rintro ⟨_, ⟨⟩, h⟩; exact h, fun h => ⟨_, rfl, h⟩⟩
  | midiPort p => exact (line_port table line delta _).trans ⟨by rintro ⟨_, ⟨⟩, h⟩; exact h, fun h => ⟨_, rfl, h⟩⟩
  | endOfTrack => exact (line_end table line delta _).trans ⟨fun h => h.2, fun h => ⟨rfl, h⟩⟩
  | tempo t => exact (line_tempo table line delta _).trans ⟨by rintro ⟨_, ⟨⟩, h⟩; exact h, fun h => ⟨_, rfl, h⟩⟩
  | smpteOffset h m s r f ff =>
    exact (line_offset table line delta _).trans ⟨by rintro ⟨_, _, _, _, _, _, ⟨⟩, h⟩; exact h, fun h => ⟨_, _, _, _, _, _, rfl, h⟩⟩
  | timeSignature n d t q => exact (line_time table line delta _).trans ⟨by rintro ⟨_, _, _, _, ⟨⟩, h⟩; exact h, fun h => ⟨_, _, _, _, rfl, h⟩⟩
  | keySignature a k name => exact (line_key table line delta _).trans ⟨by rintro ⟨_, _, _, ⟨⟩, h⟩; exact h, fun h => ⟨_, _, _, rfl, h⟩⟩
  | sequencerSpecific m data => exact (line_specific table line delta _).trans ⟨by rintro ⟨_, _, ⟨⟩, h⟩; exact h, fun h => ⟨_, _, rfl, h⟩⟩
  | noteOff ch n v => exact (line_noteOff table line delta _).trans ⟨by rintro ⟨_, _, _, ⟨⟩, h⟩; exact h, fun h => ⟨_, _, _, rfl, h⟩⟩
  | noteOn ch n v => exact (line_noteOn table line delta _).trans ⟨by rintro ⟨_, _, _, ⟨⟩, h⟩; exact h, fun h => ⟨_, _, _, rfl, h⟩⟩
  | polyphonicPressure ch p => exact (line_poly table line delta _).trans ⟨by rintro ⟨_, _, ⟨⟩, h⟩; exact h, fun h => ⟨_, _, rfl, h⟩⟩
  | controller ch c v => exact (line_controller table line delta _).trans ⟨by rintro ⟨_, _, _, ⟨⟩, h⟩; exact h, fun h => ⟨_, _, _, rfl, h⟩⟩
  | programChange ch bank p => exact (line_program table line delta _).trans ⟨by rintro ⟨_, _, _, ⟨⟩, h⟩; exact h, fun h => ⟨_, _, _, rfl, h⟩⟩
  | channelPressure ch p => exact (line_pressure table line delta _).trans ⟨by rintro ⟨_, _, ⟨⟩, h⟩; exact h, fun h => ⟨_, _, rfl, h⟩⟩
  | pitchBend ch v => exact (line_bend table line delta _).trans ⟨by rintro ⟨_, _, ⟨⟩, h⟩; exact h, fun h => ⟨_, _, rfl, h⟩⟩
  | sysExMessage m data single => exact (line_message table line delta _).trans ⟨by rintro ⟨_, _, _, ⟨⟩, h⟩; exact h, fun h => ⟨_, _, _, rfl, h⟩⟩
  | sysExContinuation data last => exact (line_continuation table line delta _).trans ⟨by rintro ⟨_, _, ⟨⟩, h⟩; exact h, fun h => ⟨_, _, rfl, h⟩⟩
  | sysExEscape data => exact (line_escape table line delta _).trans ⟨by rintro ⟨_, ⟨⟩, h⟩; exact h, fun h => ⟨_, rfl, h⟩⟩

theorem find_reader (table : List (String × Lib.Manufacturer)) (line : Bytes) (b : Body) (h : FirstOf keywords (fun k => Occurs k line) b.tag) :
    (textCases table).find? (fun c => contains line (str c.1)) = some (b.tag, readerOf table b) := by
  obtain ⟨l, r, hsplit, hp, hn⟩ := h
  have hu : Unambiguous b.tag line := by
    intro l' r' h' x hx ho
    have := firstOf_unique (p := fun k => Occurs k line) ⟨l, r, hsplit, hp, hn⟩ ⟨l, r, hsplit, hp, hn⟩
    have hnd : keywords.Nodup := by decide +kernel
    have hll : l = l' := by
      have hlen : l.length = l'.length := by
        have h1 : keywords[l.length]? = some b.tag := by rw [hsplit]; simp
        have h2 : keywords[l'.length]? = some b.tag := by rw [h']; simp
        obtain ⟨k1, g1⟩ := List.getElem?_eq_some_iff.mp h1
        obtain ⟨k2, g2⟩ := List.getElem?_eq_some_iff.mp h2
        exact (List.Nodup.getElem_inj_iff hnd).mp (g1.trans g2.symm)
      exact List.append_inj_left (hsplit.symm.trans h') hlen
    subst hll
    exact hn x hx ho
  refine find_index _ _ (caseIndex b) _ (textCases_index table b) ((contains_iff _ _).mpr hp) ?_
  intro x hx
  refine (unambiguous_iff b line).mp hu x.1 ?_
  rw [← textCases_keywords table, ← List.map_take]
  exact List.mem_map_of_mem hx

/-- C132: a line of text is read as an event exactly if the first of the event names in it is that of the event and the line says the event:
the first place of the line with the form of the event gives the delta time and the values.  Nothing else of the line matters. -/
theorem C132_line_means (table : List (String × Lib.Manufacturer)) (line : Bytes) (e : Event) :
    readEvent table line = .ok e ↔
      FirstOf keywords (fun k => Occurs k line) e.body.tag ∧ LineSays table line e.delta e.body ∧ e.tick = 0 ∧ e.bytes = [] := by
  constructor
  · intro he
    have hfirst := (C81_kind_exact table line).1 e he
    unfold readEvent at he
    rw [find_reader table line e.body hfirst] at he
    obtain ⟨⟨delta, body⟩, h1, h2⟩ := bound_ok he
    injection h2 with h2
    subst h2
    exact ⟨hfirst, (reader_iff table line delta body).mp h1, rfl, rfl⟩
  · rintro ⟨hfirst, hsays, ht, hb⟩
    obtain ⟨t, d, bs, body⟩ := e
    simp only at ht hb
    subst ht hb
    unfold readEvent
    rw [find_reader table line body hfirst]
    simp only at hsays ⊢
    rw [(reader_iff table line d body).mpr hsays]
    rfl

/-- A line with words in front, in the middle and at the end that do not count, white space where it is allowed, in upper and lower case. -/
def looseLine : Bytes := str "90 3C 40  DELTA:480 and then NoteOn  Channel:9\tnote:F♯4,velocity:064 loud"

theorem looseLine_read : readEvent [] looseLine = .ok ⟨0, 480, [], .noteOn 9 ⟨66, "F♯4", "F♯4"⟩ 64⟩ := by decide +kernel

example : FirstOf keywords (fun k => Occurs k looseLine) "NoteOn" ∧ LineSays [] looseLine 480 (.noteOn 9 ⟨66, "F♯4", "F♯4"⟩ 64) :=
  have h := (C132_line_means [] looseLine _).mp looseLine_read
  ⟨h.1, h.2.1⟩

/-- The first event name decides: this is no lyric. -/
example : LineSays [] (str "delta:0 Lyric a Marker") 0 (.text .lyric (str "a Marker")) ∧
    LineSays [] (str "delta:0 Lyric a Marker Text") 0 (.text .lyric (str "a Marker Text")) ∧
    ¬ ∃ e, readEvent [] (str "delta:0 Lyric a Marker Text") = .ok e := by
  refine ⟨?_, ?_, ?_⟩
  · exact ((C132_line_means [] _ ⟨0, 0, [], .text .lyric (str "a Marker")⟩).mp (by decide +kernel)).2.1
  · exact (reader_iff [] _ 0 (.text .lyric _)).mp (by decide +kernel)
  · rintro ⟨e, he⟩
    have : readEvent [] (str "delta:0 Lyric a Marker Text") = .err .other := by decide +kernel
    rw [this] at he
    cases he

/-! ### Keys that do not exist -/

/-- The names of keys with more than seven accidentals. -/
def noKeys : List String := ["D♯ major", "E♯ major", "F♭ major", "G♯ major", "A♯ major", "B♯ major",
  "C♭ minor", "D♭ minor", "E♯ minor", "F♭ minor", "G♭ minor", "B♯ minor"]

theorem noKeys_all : ∀ y ∈ lowerKeys, (∀ i : Fin 15, ∀ m : Bool, (str (keyName ((i.val : Int) - 7) m)).map lower ≠ y) →
    ∃ n ∈ noKeys, (str n).map lower = y := by
  decide +kernel

theorem noKeys_none : ∀ n ∈ noKeys, ∀ i : Fin 15, ∀ m : Bool, (str (keyName ((i.val : Int) - 7) m)).map lower ≠ (str n).map lower := by
  decide +kernel

/-- C133: the key that is read is the key that is named in the line, unless the name is one of the twelve names of keys with more than seven
accidentals. -/
theorem C133_key_named_partial (table : List (String × Lib.Manufacturer)) (line : Bytes) (e : Event) (a : Int8) (k : UInt8) (name : String)
    (hb : e.body = .keySignature a k name) (he : readEvent table line = .ok e) :
    ∃ d key mode, Finds (form "KeySignature") line [d, key, mode] ∧ name = keyName a.toInt (k == 1) ∧
      (List.Forall₂ SameLetter (str name) (key ++ 32 :: mode) ∨
        (a = 0 ∧ k = 0 ∧ ∃ n ∈ noKeys, List.Forall₂ SameLetter (str n) (key ++ 32 :: mode))) := by
  obtain ⟨_, h, _⟩ := (C132_line_means table line e).mp he
  rw [hb] at h
  obtain ⟨d, gs, hF, _, key, mode, rfl, hn, hk, rfl⟩ := h
  refine ⟨d, key, mode, hF, rfl, ?_⟩
  rcases hn with ⟨_, _, h⟩ | ⟨h0, hm, h⟩
  · exact Or.inl h
  · refine Or.inr ⟨?_, ?_, ?_⟩
    · exact Int8.toInt_inj.mp h0
    · have : k ≠ 1 := by simpa using hm
      have h1 : k.toNat ≠ 1 := fun e => this (UInt8.toNat_inj.mp e)
      exact UInt8.toNat_inj.mp (by have : (0 : UInt8).toNat = 0 := rfl; omega)
    · have hshape := key_shape line d key mode hF
      have hmem := keyShape_lower key mode hshape
      have hassoc : key ++ [32] ++ mode = key ++ 32 :: mode := by simp
      rw [hassoc] at hmem
      obtain ⟨n, hn, he⟩ := noKeys_all _ hmem (fun i m hc => h ((i.val : Int) - 7) m (by omega) (by omega) ((sameLetters_lower _ _).mpr hc))
      exact ⟨n, hn, (sameLetters_lower _ _).mpr he⟩

/-- C133 fails: a line that names one of these keys is not refused but read as C major. -/
theorem C133_key_named_fails : ∀ n ∈ noKeys,
    (∀ (a : Int) (m : Bool), -7 ≤ a → a ≤ 7 → ¬ List.Forall₂ SameLetter (str (keyName a m)) (str n)) ∧
    ∀ table, readEvent table (str "delta:0 KeySignature " ++ str n) = .ok ⟨0, 0, [], .keySignature 0 0 "C major"⟩ := by
  intro n hn
  constructor
  · intro a m h1 h2 h
    refine noKeys_none n hn ⟨(a + 7).toNat, by omega⟩ m ?_
    have : ((a + 7).toNat : Int) - 7 = a := by omega
    simp only [this]
    exact (sameLetters_lower _ _).mp h
  · intro table
    have hall : ∀ n ∈ noKeys, readEvent [] (str "delta:0 KeySignature " ++ str n) = .ok ⟨0, 0, [], .keySignature 0 0 "C major"⟩ := by
      decide +kernel
    obtain ⟨q1, q2, q3⟩ := (C132_line_means [] _ _).mp (hall n hn)
    exact (C132_line_means table _ _).mpr ⟨q1, q2, q3⟩

example : readEvent [] (str "delta:10 KeySignature e♭ Major") = .ok ⟨0, 10, [], .keySignature (-3) 0 "E♭ major"⟩ := by decide +kernel

/-! ### What follows the values of a line -/

theorem reads_rest (ps : List LinePart) (s : Bytes) (gs : List Bytes) (h : Reads (ps ++ [.rest]) s gs) (hnl : 10 ∉ s) :
    ∃ pre g, s = pre ++ g ∧ gs.getLast? = some g := by
  induction ps generalizing s gs with
  | nil =>
    obtain ⟨x, s', gs', rfl, rfl, _, hs', rfl⟩ := h
    refine ⟨[], x, ?_, rfl⟩
    rcases hs' with rfl | hs'
    · simp
    · cases s' with
      | nil => simp
      | cons b t =>
        simp only [List.head?_cons, Option.some.injEq] at hs'
        subst hs'
        exact absurd (List.mem_append_right _ (List.mem_cons_self)) hnl
  | cons p ps ih =>
    have step : ∀ (x s' : Bytes) (gs0 gs' : List Bytes), s = x ++ s' → gs = gs0 ++ gs' → Reads (ps ++ [.rest]) s' gs' →
        ∃ pre g, s = pre ++ g ∧ gs.getLast? = some g := by
      rintro x s' gs0 gs' rfl rfl hr
      obtain ⟨pre, g, rfl, hg⟩ := ih s' gs' hr (fun hc => hnl (List.mem_append_right _ hc))
      refine ⟨x ++ pre, g, by simp, ?_⟩
      rw [List.getLast?_append, hg]
      rfl
    cases p with
    | word w => obtain ⟨x, s', e, _, h⟩ := h; exact step x s' [] gs e rfl h
    | digits => obtain ⟨x, s', gs', e, eg, _, _, _, h⟩ := h; exact step x s' [x] gs' e eg h
    | positive top => obtain ⟨d, x, s', gs', e, eg, _, _, _, h⟩ := h; exact step (d :: x) s' [d :: x] gs' e eg h
    | blanks => obtain ⟨x, s', e, _, _, _, h⟩ := h; exact step x s' [] gs e rfl h
    | blanks0 => obtain ⟨x, s', e, _, _, h⟩ := h; exact step x s' [] gs e rfl h
    | space => obtain ⟨x, s', e, _, _, h⟩ := h; exact step (x ++ [32]) s' [] gs (by rw [e]; simp) rfl h
    | skip => obtain ⟨x, s', e, _, h, _⟩ := h; exact step x s' [] gs e rfl h
    | skipLast => obtain ⟨x, s', e, _, h, _⟩ := h; exact step x s' [] gs e rfl h
    | upTo => obtain ⟨x, s', gs', e, eg, _, h, _⟩ := h; exact step x s' [x] gs' e eg h
    | rest => obtain ⟨x, s', gs', e, eg, _, _, h⟩ := h; exact step x s' [x] gs' e eg h
    | note => obtain ⟨l, a, d, s', gs', e, eg, _, _, _, h⟩ := h; exact step _ s' [l :: (a ++ [d])] gs' e eg h
    | key => obtain ⟨l, a, s', gs', e, eg, _, _, h⟩ := h; exact step _ s' [l :: a] gs' e eg h
    | mode => obtain ⟨x, s', gs', e, eg, _, h⟩ := h; exact step x s' [x] gs' e eg h

theorem finds_rest (ps : List LinePart) (line : Bytes) (gs : List Bytes) (h : Finds (ps ++ [.rest]) line gs) (hnl : 10 ∉ line) :
    ∃ pre g, line = pre ++ g ∧ gs.getLast? = some g := by
  obtain ⟨pre, s, rfl, h, _⟩ := h
  obtain ⟨pre', g, rfl, hg⟩ := reads_rest ps s gs h (fun hc => hnl (List.mem_append_right _ hc))
  exact ⟨pre ++ pre', g, by simp, hg⟩

/-- The values at the end of a line are all of the line: the text of a text event, the data of a SysEx or sequencer specific event. -/
def EndsWithValue (line : Bytes) : Body → Prop
  | .text _ t => t <:+ line
  | .sequencerSpecific _ data => ∃ s, s <:+ line ∧ HexText s data
  | .sysExMessage _ data _ => ∃ s, s <:+ line ∧ HexText s data
  | .sysExContinuation data _ => ∃ s, s <:+ line ∧ HexText s data
  | .sysExEscape data => ∃ s, s <:+ line ∧ HexText s data
  | _ => True

/-- C134, texts and data: the text and the data of an event are all that is left of the line, so that nothing follows them. -/
theorem C134_nothing_else_partial (table : List (String × Lib.Manufacturer)) (line : Bytes) (hnl : 10 ∉ line) (e : Event)
    (he : readEvent table line = .ok e) : EndsWithValue line e.body := by
  obtain ⟨_, h, _⟩ := (C132_line_means table line e).mp he
  generalize e.body = b at h
  obtain ⟨d, gs, hF, _, h⟩ := h
  cases b with
  | text k t =>
    simp only at h
    subst h
    have hf : ∃ ps, form (Body.text k t).tag = ps ++ [.rest] := by cases k <;> exact ⟨named _ ++ [.blanks], rfl⟩
    obtain ⟨ps, hf⟩ := hf
    rw [hf] at hF
    obtain ⟨pre, g, e1, e2⟩ := finds_rest ps line _ hF hnl
    simp only [List.getLast?_cons_cons, List.getLast?_singleton, Option.some.injEq] at e2
    subst e2
    exact ⟨pre, e1.symm⟩
  | sequencerSpecific m data =>
    obtain ⟨name, s, rfl, _, hs⟩ := h
    obtain ⟨pre, g, e1, e2⟩ := finds_rest (named "SequencerSpecificEvent" ++ [.blanks, .upTo, .word ","]) line _ hF hnl
    simp only [List.getLast?_cons_cons, List.getLast?_singleton, Option.some.injEq] at e2
    subst e2
    exact ⟨_, ⟨pre, e1.symm⟩, hs⟩
  | sysExMessage m data single =>
    obtain ⟨name, s, rfl, _, hs, _⟩ := h
    obtain ⟨pre, g, e1, e2⟩ := finds_rest (named "SysExMessage" ++ [.blanks, .upTo, .word ","]) line _ hF hnl
    simp only [List.getLast?_cons_cons, List.getLast?_singleton, Option.some.injEq] at e2
    subst e2
    exact ⟨_, ⟨pre, e1.symm⟩, hs⟩
  | sysExContinuation data last =>
    obtain ⟨s, rfl, hs, _⟩ := h
    obtain ⟨pre, g, e1, e2⟩ := finds_rest (named "SysExContinuation" ++ [.blanks]) line _ hF hnl
    simp only [List.getLast?_cons_cons, List.getLast?_singleton, Option.some.injEq] at e2
    subst e2
    exact ⟨_, ⟨pre, e1.symm⟩, hs⟩
  | sysExEscape data =>
    obtain ⟨s, rfl, hs⟩ := h
    obtain ⟨pre, g, e1, e2⟩ := finds_rest (named "SysExEscape" ++ [.blanks]) line _ hF hnl
    simp only [List.getLast?_cons_cons, List.getLast?_singleton, Option.some.injEq] at e2
    subst e2
    exact ⟨_, ⟨pre, e1.symm⟩, hs⟩
  | _ => trivial

example : readEvent [] (str "delta:0 SysExEscape 43 12 00 typo") = .err .other ∧
    readEvent [] (str "delta:0 SysExEscape 43 12 00") = .ok ⟨0, 0, [], .sysExEscape [0x43, 0x12, 0x00]⟩ := by decide +kernel

theorem folded_self (w : Bytes) : Folded w w := by
  induction w with
  | nil => exact .nil
  | cons c w ih => exact .letter c c w w (Or.inl rfl) ih

/-- C134 fails: an end of track is read whatever follows it in the line, so long as it is not the name of an event. -/
theorem C134_nothing_else_fails (table : List (String × Lib.Manufacturer)) (x : Bytes)
    (hx : ∀ k ∈ keywords, Occurs k (str "delta:0 EndOfTrack" ++ x) → k = "EndOfTrack") :
    readEvent table (str "delta:0 EndOfTrack" ++ x) = .ok ⟨0, 0, [], .endOfTrack⟩ := by
  refine (C132_line_means table _ _).mpr ⟨?_, ?_, rfl, rfl⟩
  · have hs : keywords = keywords.take 16 ++ "EndOfTrack" :: keywords.drop 17 := by decide
    refine ⟨_, _, hs, ⟨str "delta:0 ", x, congrArg (· ++ x) (show str "delta:0 " ++ str "EndOfTrack" = str "delta:0 EndOfTrack" by decide +kernel)⟩, ?_⟩
    intro k hk ho
    have := hx k (List.mem_of_mem_take hk) ho
    subst this
    revert hk
    decide
  · refine ⟨str "0", [], ⟨[], str "delta:0 EndOfTrack" ++ x, rfl, ?_, fun _ _ _ _ _ => Nat.zero_le _⟩, by unfold Numeral; decide +kernel, rfl⟩
    have e0 : str "delta:0 EndOfTrack" = str "delta:" ++ (str "0" ++ (str " " ++ str "EndOfTrack")) := by decide +kernel
    rw [e0, List.append_assoc, List.append_assoc, List.append_assoc]
    refine ⟨str "delta:", _, rfl, folded_self _, str "0", _, _, rfl, rfl, by decide +kernel, by unfold DigitTo; decide +kernel, ?_,
      str " ", _, rfl, by decide +kernel, ⟨str "EndOfTrack", x, rfl, folded_self _, rfl⟩, ?_⟩
    · intro b t h
      have e1 : str " " = [32] := by decide +kernel
      rw [e1] at h
      injection h with h _
      subst h
      unfold DigitTo
      decide
    · intro y t hs h hr
      have e1 : str " " = [32] := by decide +kernel
      rw [e1] at h ⊢
      cases y with
      | cons _ _ => simp
      | nil =>
        exfalso
        obtain ⟨w, s', e2, hf, _⟩ := hr
        rw [List.nil_append] at h
        rw [← h] at e2
        have e3 : str "EndOfTrack" = 69 :: str "ndOfTrack" := by decide +kernel
        rw [e3] at hf
        cases hf with
        | letter c b w x hsl _ =>
          injection e2 with e2 _
          subst e2
          revert hsl
          unfold SameLetter
          decide
        | kelvin c w x hsl _ => injection e2 with e2 _; revert e2; decide
        | long c w x hsl _ => injection e2 with e2 _; revert e2; decide

/-- Of the velocity `64.5` the first two digits are read. -/
example : readEvent [] (str "delta:0 NoteOn channel:1 note:C4, velocity:64.5 ; typo") = .ok ⟨0, 0, [], .noteOn 1 ⟨60, "C4", "C4"⟩ 64⟩ := by
  decide +kernel

end Midiasm
