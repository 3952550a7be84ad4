import Verif.Lemmas.ReadBack
import Verif.Props.Pipeline
import Verif.Spec.ReadBack
import Mathlib.Data.List.Nodup

/-!
The event names contained in a printed line.
-/

set_option linter.unusedSimpArgs false

namespace Midiasm
open Spec

theorem prefix_sep (sub a b : Bytes) (x : UInt8) (hx : x ∉ sub) : sub.isPrefixOf (a ++ x :: b) = sub.isPrefixOf a := by
  induction a generalizing sub with
  | nil =>
    cases sub with
    | nil => rfl
    | cons s sub =>
      have : (s == x) = false := by
        rw [beq_eq_false_iff_ne]
        intro e
        exact hx (by simp [e])
      simp [List.isPrefixOf, this]
  | cons c a ih =>
    cases sub with
    | nil => rfl
    | cons s sub =>
      simp only [List.cons_append, List.isPrefixOf]
      rw [ih sub (fun h => hx (List.mem_cons_of_mem _ h))]

/-- A word does not extend over a separator. -/
theorem contains_sep (a b sub : Bytes) (x : UInt8) (hx : x ∉ sub) (hne : sub ≠ []) :
    contains (a ++ x :: b) sub = (contains a sub || contains b sub) := by
  induction a with
  | nil =>
    have h := prefix_sep sub [] b x hx
    rw [List.nil_append] at h
    rw [List.nil_append, contains.eq_2, h]
    cases sub with
    | nil => exact absurd rfl hne
    | cons s sub => simp [List.isPrefixOf, contains]
  | cons c a ih =>
    have h := prefix_sep sub (c :: a) b x hx
    rw [List.cons_append] at h
    rw [List.cons_append, contains, h, ih, contains, Bool.or_assoc]

/-- A word with a character that is not in the text is not in the text. -/
theorem contains_missing (s sub : Bytes) (c : UInt8) (hc : c ∈ sub) (hs : c ∉ s) : contains s sub = false := by
  rw [Bool.eq_false_iff]
  intro h
  exact hs (((contains_iff s sub).mp h).subset hc)

/-- A word is not in a text over an alphabet without one of its characters. -/
def foreign (alphabet : Bytes) (kw : String) : Bool := (str kw).any fun c => !alphabet.contains c

theorem contains_foreign (alphabet s : Bytes) (kw : String) (h : foreign alphabet kw = true) (hs : ∀ c ∈ s, c ∈ alphabet) :
    contains s (str kw) = false := by
  obtain ⟨c, hc, hc'⟩ := List.any_eq_true.mp h
  simp at hc'
  exact contains_missing s _ c hc (fun h => hc' (hs c h))

/-- What is printed after the tag and the blanks. -/
def shownFields : Body → Bytes
  | .endOfTrack => []
  | .sequenceNumber n => dec n.toNat
  | .text _ s => s
  | .midiChannelPrefix ch => dec ch.toNat
  | .midiPort port => dec port.toNat
  | .tempo t => str "tempo:" ++ dec t.toNat
  | .smpteOffset h m s r f ff =>
      dec h.toNat ++ ([32] ++ (dec m.toNat ++ ([32] ++ (dec s.toNat ++ ([32] ++ (dec r.toNat ++ ([32] ++ (dec f.toNat ++ ([32] ++ dec ff.toNat)))))))))
  | .timeSignature n d c t =>
      dec n.toNat ++ (str "/" ++ (dec d.toNat ++ (str ", " ++ (dec c.toNat ++ (str " ticks per click, " ++ (dec t.toNat ++ str "/32 per quarter"))))))
  | .keySignature _ _ key => str key
  | .sequencerSpecific m data => str m.name ++ (str ", " ++ hexString data)
  | .noteOff ch note v => str "channel:" ++ (pad 2 (dec ch.toNat) ++ ([32] ++ (str "note:" ++ (str note.name ++ (str ", velocity:" ++ dec v.toNat)))))
  | .noteOn ch note v => str "channel:" ++ (pad 2 (dec ch.toNat) ++ ([32] ++ (str "note:" ++ (str note.name ++ (str ", velocity:" ++ dec v.toNat)))))
  | .polyphonicPressure ch p => str "channel:" ++ (pad 2 (dec ch.toNat) ++ ([32] ++ (str "pressure:" ++ dec p.toNat)))
  | .controller ch c v =>
      str "channel:" ++ (pad 2 (dec ch.toNat) ++ ([32] ++ (dec c.id.toNat ++ (str "/" ++ (str c.name ++ (str ", value:" ++ dec v.toNat))))))
  | .programChange ch bank p =>
      str "channel:" ++ (pad 2 (dec ch.toNat) ++ ([32] ++ (str "bank:" ++ (dec bank.toNat ++ (str ", program:" ++ dec p.toNat)))))
  | .channelPressure ch p => str "channel:" ++ (pad 2 (dec ch.toNat) ++ ([32] ++ (str "pressure:" ++ dec p.toNat)))
  | .pitchBend ch bend => str "channel:" ++ (pad 2 (dec ch.toNat) ++ ([32] ++ (str "bend:" ++ dec bend.toNat)))
  | .sysExMessage m data _ => str m.name ++ (str ", " ++ hexString data)
  | .sysExContinuation data _ => hexString data
  | .sysExEscape data => hexString data

/-- The type or status byte that is printed. -/
def shownByte (b : Body) : UInt8 :=
  match b with
  | .noteOff .. | .noteOn .. | .polyphonicPressure .. | .controller .. | .programChange .. | .channelPressure .. | .pitchBend ..
  | .sysExMessage .. | .sysExContinuation .. | .sysExEscape .. => b.status
  | _ => b.metaType

theorem printBody_fields (b : Body) : ∃ gap : Bytes, (∀ c ∈ gap, c = 32) ∧ (gap = [] → shownFields b = []) ∧
    printBody b = hex2 (shownByte b) ++ ([32] ++ (str b.tag ++ (gap ++ shownFields b))) := by
  obtain ⟨j, hj⟩ := pad_eq 22 (str b.tag)
  have hg : ∀ c ∈ List.replicate j 32 ++ [32], c = (32 : UInt8) := by
    intro c hc
    rcases List.mem_append.mp hc with hc | hc
    · exact List.eq_of_mem_replicate hc
    · simpa using hc
  cases b with
  | endOfTrack => exact ⟨[], by simp, by simp [shownFields], by simp [printBody, shownFields, shownByte]⟩
  | _ =>
    refine ⟨List.replicate j 32 ++ [32], hg, by simp, ?_⟩
    simp only [Body.tag] at hj
    simp only [printBody, shownFields, shownByte, Body.tag, hj, List.append_assoc]

theorem keyword_letters : ∀ kw ∈ keywords, str kw ≠ [] ∧ ∀ c ∈ str kw, (65 ≤ c ∧ c ≤ 90) ∨ (97 ≤ c ∧ c ≤ 122) := by decide +kernel

theorem keyword_nospace (kw : String) (h : kw ∈ keywords) (x : UInt8) (hx : ¬ ((65 ≤ x ∧ x ≤ 90) ∨ (97 ≤ x ∧ x ≤ 122))) : x ∉ str kw :=
  fun hm => hx ((keyword_letters kw h).2 x hm)

theorem contains_spaces (gap s sub : Bytes) (hg : ∀ c ∈ gap, c = 32) (hx : (32 : UInt8) ∉ sub) (hne : sub ≠ []) :
    contains (gap ++ s) sub = contains s sub := by
  induction gap with
  | nil => rfl
  | cons c gap ih =>
    have : c = 32 := hg c (by simp)
    subst this
    have := contains_sep [] (gap ++ s) sub 32 hx hne
    rw [List.nil_append] at this
    rw [List.cons_append, this, ih (fun c hc => hg c (by simp [hc]))]
    have h0 : contains [] sub = false := by
      rw [contains]
      cases sub with
      | nil => exact absurd rfl hne
      | cons _ _ => rfl
    rw [h0, Bool.false_or]

/-- The words in a printed line: those in the tag and those in the fields. -/
theorem contains_word (pre : Bytes) (d : UInt32) (k : Nat) (b : Body) (hpre : ∀ c ∈ pre, c ∈ prefixAlphabet) (kw : String)
    (h32 : (32 : UInt8) ∉ str kw) (hne : str kw ≠ []) (hforeign : foreign (prefixAlphabet ++ str "delta:") kw = true) :
    contains (lineOf pre d k b) (str kw) = (contains (str b.tag) (str kw) || contains (shownFields b) (str kw)) := by
  obtain ⟨gap, hg, hge, hb⟩ := printBody_fields b
  have hsub1 : ∀ c ∈ str "0123456789", c ∈ prefixAlphabet := by decide +kernel
  have hsub2 : ∀ c ∈ str "0123456789ABCDEF", c ∈ prefixAlphabet := by decide +kernel
  have hhead : contains (pre ++ (str "delta:" ++ (dec d.toNat ++ (List.replicate (k + 2) 32 ++ hex2 (shownByte b))))) (str kw) = false := by
    refine contains_foreign _ _ _ hforeign ?_
    intro c hc
    simp only [List.mem_append] at hc ⊢
    rcases hc with hc | hc | hc | hc | hc
    · exact Or.inl (hpre c hc)
    · exact Or.inr hc
    · exact Or.inl (hsub1 c (dec_alphabet _ c hc))
    · rw [List.eq_of_mem_replicate hc]; left; decide +kernel
    · exact Or.inl (hsub2 c (hex2_alphabet _ c hc))
  have htail : contains (str b.tag ++ (gap ++ shownFields b)) (str kw) = (contains (str b.tag) (str kw) || contains (shownFields b) (str kw)) := by
    cases gap with
    | nil =>
      rw [hge rfl]
      have h0 : contains [] (str kw) = false := by
        rw [contains]
        cases h : str kw with
        | nil => exact absurd h hne
        | cons _ _ => rfl
      simp [h0]
    | cons c gap =>
      have : c = 32 := hg c (by simp)
      subst this
      rw [List.cons_append, contains_sep _ _ _ 32 h32 hne, contains_spaces gap _ _ (fun c hc => hg c (by simp [hc])) h32 hne]
  have he : lineOf pre d k b = (pre ++ (str "delta:" ++ (dec d.toNat ++ (List.replicate (k + 2) 32 ++ hex2 (shownByte b))))) ++
      32 :: (str b.tag ++ (gap ++ shownFields b)) := by
    rw [lineOf, hb]
    simp only [List.append_assoc, List.singleton_append]
  rw [he, contains_sep _ _ _ 32 h32 hne, hhead, htail, Bool.false_or]

/-- The event names in a printed line: those in the tag and those in the fields. -/
theorem contains_line (pre : Bytes) (d : UInt32) (k : Nat) (b : Body) (hpre : ∀ c ∈ pre, c ∈ prefixAlphabet) (kw : String) (hk : kw ∈ keywords) :
    contains (lineOf pre d k b) (str kw) = (contains (str b.tag) (str kw) || contains (shownFields b) (str kw)) := by
  have : ∀ kw ∈ keywords, foreign (prefixAlphabet ++ str "delta:") kw = true := by decide +kernel
  exact contains_word pre d k b hpre kw (keyword_nospace kw hk 32 (by decide)) (keyword_letters kw hk).1 (this kw hk)

/-! ### Dispatch -/

/-- The function that reads the events of a kind. -/
def readerOf (table : List (String × Lib.Manufacturer)) : Body → Bytes → Outcome (UInt32 × Body)
  | .sequenceNumber _ => readSequenceNumber
  | .text k _ => readText k
  | .midiChannelPrefix _ => readMIDIChannelPrefix
  | .midiPort _ => readMIDIPort
  | .endOfTrack => readEndOfTrack
  | .tempo _ => readTempo
  | .smpteOffset .. => readSMPTEOffset
  | .timeSignature .. => readTimeSignature
  | .keySignature .. => readKeySignature
  | .sequencerSpecific .. => readSequencerSpecific table
  | .noteOff .. => readNoteOff
  | .noteOn .. => readNoteOn
  | .polyphonicPressure .. => readPolyphonicPressure
  | .controller .. => readController
  | .programChange .. => readProgramChange
  | .channelPressure .. => readChannelPressure
  | .pitchBend .. => readPitchBend
  | .sysExMessage .. => readSysExMessage table
  | .sysExContinuation .. => readSysExContinuation
  | .sysExEscape .. => readSysExEscape

/-- The position of a kind in the list. -/
def caseIndex : Body → Nat
  | .sequenceNumber _ => 0
  | .text .text _ => 1
  | .text .copyright _ => 2
  | .text .trackName _ => 3
  | .text .instrumentName _ => 4
  | .text .lyric _ => 5
  | .text .marker _ => 6
  | .text .cuePoint _ => 7
  | .text .programName _ => 8
  | .text .deviceName _ => 9
  | .midiChannelPrefix _ => 10
  | .midiPort _ => 11
  | .tempo _ => 12
  | .timeSignature .. => 13
  | .keySignature .. => 14
  | .smpteOffset .. => 15
  | .endOfTrack => 16
  | .sequencerSpecific .. => 17
  | .noteOff .. => 18
  | .noteOn .. => 19
  | .polyphonicPressure .. => 20
  | .controller .. => 21
  | .programChange .. => 22
  | .channelPressure .. => 23
  | .pitchBend .. => 24
  | .sysExMessage .. => 25
  | .sysExContinuation .. => 26
  | .sysExEscape .. => 27

theorem textCases_keywords (table : List (String × Lib.Manufacturer)) : (textCases table).map (·.1) = keywords := rfl

theorem textCases_index (table : List (String × Lib.Manufacturer)) (b : Body) :
    (textCases table)[caseIndex b]? = some (b.tag, readerOf table b) := by
  cases b with
  | text k s => cases k <;> rfl
  | _ => rfl

theorem keywords_index (b : Body) : keywords[caseIndex b]? = some b.tag := by
  have := textCases_index [] b
  rw [← textCases_keywords [], List.getElem?_map, this]
  rfl

theorem find_index {α : Type} (l : List α) (p : α → Bool) (i : Nat) (c : α) (hi : l[i]? = some c) (hp : p c = true)
    (hb : ∀ x ∈ l.take i, p x = false) : l.find? p = some c := by
  rw [List.find?_eq_some_iff_append]
  obtain ⟨h, rfl⟩ := List.getElem?_eq_some_iff.mp hi
  refine ⟨hp, l.take i, l.drop (i + 1), ?_, ?_⟩
  · rw [← List.drop_eq_getElem_cons h, List.take_append_drop]
  · intro a ha
    rw [hb a ha]; rfl

theorem contains_self (s : Bytes) : contains s s = true := (contains_iff s s).mpr (List.infix_refl s)

theorem tags_distinct : ∀ i : Fin 28, ∀ kw ∈ keywords.take i.val, ∀ tag ∈ keywords[i.val]?, contains (str tag) (str kw) = false := by
  decide +kernel

/-- A line is read by the function for its tag if no earlier event name is in the fields. -/
theorem readEvent_line (table : List (String × Lib.Manufacturer)) (pre : Bytes) (d : UInt32) (k : Nat) (b : Body)
    (hpre : ∀ c ∈ pre, c ∈ prefixAlphabet) (hu : ∀ kw ∈ keywords.take (caseIndex b), contains (shownFields b) (str kw) = false) :
    readEvent table (lineOf pre d k b) = (do
      let (delta, body) ← readerOf table b (lineOf pre d k b)
      .ok ⟨0, delta, [], body⟩) := by
  have htag : b.tag ∈ keywords := List.mem_of_getElem? (keywords_index b)
  have hlt : caseIndex b < 28 := by
    obtain ⟨h, _⟩ := List.getElem?_eq_some_iff.mp (keywords_index b)
    exact h
  have hfind : (textCases table).find? (fun c => contains (lineOf pre d k b) (str c.1)) = some (b.tag, readerOf table b) := by
    refine find_index _ _ (caseIndex b) _ (textCases_index table b) ?_ ?_
    · simp only
      rw [contains_line pre d k b hpre _ htag, contains_self]; rfl
    · intro x hx
      have hx' : x.1 ∈ keywords.take (caseIndex b) := by
        rw [← textCases_keywords table, ← List.map_take]
        exact List.mem_map_of_mem hx
      rw [contains_line pre d k b hpre _ (List.mem_of_mem_take hx'), hu _ hx', Bool.or_false]
      have := tags_distinct ⟨caseIndex b, hlt⟩ x.1 hx' b.tag (by rw [keywords_index b]; rfl)
      exact this
  unfold readEvent
  rw [hfind]

theorem unambiguous_iff (b : Body) (s : Bytes) : Unambiguous b.tag s ↔ ∀ kw ∈ keywords.take (caseIndex b), contains s (str kw) = false := by
  have hi := keywords_index b
  obtain ⟨hlt, hget⟩ := List.getElem?_eq_some_iff.mp hi
  have hsplit : keywords = keywords.take (caseIndex b) ++ b.tag :: keywords.drop (caseIndex b + 1) := by
    rw [← hget, ← List.drop_eq_getElem_cons hlt, List.take_append_drop]
  constructor
  · intro h kw hk
    rw [Bool.eq_false_iff]
    intro hc
    exact h _ _ hsplit kw hk ((contains_iff _ _).mp hc)
  · intro h l r hlr x hx
    have hnd : keywords.Nodup := by decide +kernel
    have hl : l = keywords.take (caseIndex b) := by
      have hlen : l.length = caseIndex b := by
        have h1 : keywords[l.length]? = some b.tag := by rw [hlr]; simp
        obtain ⟨hl1, hg1⟩ := List.getElem?_eq_some_iff.mp h1
        exact (List.Nodup.getElem_inj_iff hnd).mp (hg1.trans hget.symm)
      rw [← hlen, hlr, List.take_left']
      rfl
    intro hc
    have := h x (hl ▸ hx)
    rw [(contains_iff _ _).mpr hc] at this
    cases this

end Midiasm
