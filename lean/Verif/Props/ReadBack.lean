import Verif.Lemmas.Keywords
import Verif.Spec.Keys
import Verif.Spec.View

/-!
Properties C56 and C57 for single lines: the line printed for an event is read as that event.
-/

set_option linter.unusedSimpArgs false

namespace Midiasm
open Spec

/-- The manufacturer can be found by its name: it is in the table, no other entry has the name, and the name contains no comma or
newline and does not start with a blank. -/
def Findable (table : List (String × Lib.Manufacturer)) (m : Lib.Manufacturer) : Prop :=
  (∃ key, (key, m) ∈ table) ∧ (∀ e ∈ table, e.2.name = m.name → e.2 = m) ∧
    44 ∉ str m.name ∧ 10 ∉ str m.name ∧ ∃ b, (str m.name).head? = some b ∧ b ∉ blanks

/-- The events whose printed line is read as the same event.  Besides the ranges of the fields: texts without newline, leading blank and
event names that take precedence; time signatures with a denominator up to 128 and a number of thirty-seconds whose decimal digits
after the first are not 9 and that is not 0; note names with a one-digit octave (notes from 12 on); manufacturers that can be found by
name. -/
def Body.Readable (table : List (String × Lib.Manufacturer)) : Body → Prop
  | .sequenceNumber _ => True
  | .text k s => 10 ∉ s ∧ (∀ b, s.head? = some b → b ∉ blanks) ∧ Unambiguous k.tag s
  | .midiChannelPrefix ch => ch ≤ 15
  | .midiPort p => p ≤ 127
  | .endOfTrack => True
  | .tempo _ => True
  | .smpteOffset h m s r f ff => h ≤ 24 ∧ m ≤ 59 ∧ s ≤ 59 ∧ (r = 24 ∨ r = 25 ∨ r = 29 ∨ r = 30) ∧ f < r ∧ ff ≤ 100
  | .timeSignature _ d _ t => 1 ≤ d ∧ d ≤ 128 ∧ t ≠ 0 ∧ (10 ≤ t → t % 10 ≠ 9) ∧ (100 ≤ t → t / 10 % 10 ≠ 9)
  | .keySignature a k name => -7 ≤ a.toInt ∧ a.toInt ≤ 7 ∧ k ≤ 1 ∧ name = keyName a.toInt (k == 1)
  | .sequencerSpecific m _ => Findable table m ∧ Unambiguous "SequencerSpecificEvent" (str m.name)
  | .noteOff ch n v => ch ≤ 15 ∧ v ≤ 127 ∧ 12 ≤ n.value ∧ n.value ≤ 131 ∧ ∃ flats, Names flats 1 n.name n.value.toNat
  | .noteOn ch n v => ch ≤ 15 ∧ v ≤ 127 ∧ 12 ≤ n.value ∧ n.value ≤ 131 ∧ ∃ flats, Names flats 1 n.name n.value.toNat
  | .polyphonicPressure ch p => ch ≤ 15 ∧ p ≤ 127
  | .controller ch c _ => ch ≤ 15 ∧ c = Lib.lookupController c.id
  | .programChange ch _ _ => ch ≤ 15
  | .channelPressure ch p => ch ≤ 15 ∧ p ≤ 127
  | .pitchBend ch _ => ch ≤ 15
  | .sysExMessage m _ _ => Findable table m ∧ Unambiguous "SysExMessage" (str m.name)
  | .sysExContinuation _ _ => True
  | .sysExEscape _ => True

/-- The event that is read: terminators of SysEx packets are not printed, and a note is only known by the name that was printed. -/
def Body.asRead : Body → Body
  | .noteOff ch n v => .noteOff ch ⟨n.value, n.name, n.name⟩ v
  | .noteOn ch n v => .noteOn ch ⟨n.value, n.name, n.name⟩ v
  | .sysExMessage m d _ => .sysExMessage m d false
  | .sysExContinuation d _ => .sysExContinuation d false
  | b => b

/-! ### The fields contain no event name -/

/-- Lower case letters, digits and punctuation. -/
def lowAlphabet : Bytes := str "abcdefghijklmnopqrstuvwxyz0123456789 ,:/"

/-- Letters of the names of notes and of the labels beside them. -/
def noteAlphabet : Bytes := str "channel:note velocity,0123456789-ABCDEFG♯♭"

/-- A word that is made of letters and is in none of the labels, numbers, note names and keys that are printed. -/
structure Word (kw : String) : Prop where
  sep : ∀ x, ¬ ((65 ≤ x ∧ x ≤ 90) ∨ (97 ≤ x ∧ x ≤ 122)) → x ∉ str kw
  ne : str kw ≠ []
  start : foreign (prefixAlphabet ++ str "delta:") kw = true
  low : foreign lowAlphabet kw = true
  hex : foreign (str "0123456789ABCDEF ") kw = true
  note : foreign noteAlphabet kw = true
  key : ∀ key ∈ keys, contains (str key.2.2) (str kw) = false

theorem words : ∀ kw ∈ keywords ++ ["MThd", "MTrk"], Word kw := by
  have h1 : ∀ kw ∈ keywords ++ ["MThd", "MTrk"], str kw ≠ [] ∧ ∀ c ∈ str kw, (65 ≤ c ∧ c ≤ 90) ∨ (97 ≤ c ∧ c ≤ 122) := by decide +kernel
  have h2 : ∀ kw ∈ keywords ++ ["MThd", "MTrk"], foreign (prefixAlphabet ++ str "delta:") kw = true := by decide +kernel
  have h3 : ∀ kw ∈ keywords ++ ["MThd", "MTrk"], foreign lowAlphabet kw = true := by decide +kernel
  have h4 : ∀ kw ∈ keywords ++ ["MThd", "MTrk"], foreign (str "0123456789ABCDEF ") kw = true := by decide +kernel
  have h5 : ∀ kw ∈ keywords ++ ["MThd", "MTrk"], foreign noteAlphabet kw = true := by decide +kernel
  have h6 : ∀ key ∈ keys, ∀ kw ∈ keywords ++ ["MThd", "MTrk"], contains (str key.2.2) (str kw) = false := by decide +kernel
  exact fun kw hk => ⟨fun x hx hm => hx ((h1 kw hk).2 x hm), (h1 kw hk).1, h2 kw hk, h3 kw hk, h4 kw hk, h5 kw hk, fun key hkey => h6 key hkey kw hk⟩

theorem dec_low (n : Nat) : ∀ c ∈ dec n, c ∈ lowAlphabet := by
  have : ∀ c ∈ str "0123456789", c ∈ lowAlphabet := by decide +kernel
  exact fun c hc => this c (dec_alphabet n c hc)

theorem pad_low (w : Int) (n : Nat) : ∀ c ∈ pad w (dec n), c ∈ lowAlphabet := by
  obtain ⟨j, hj⟩ := pad_eq w (dec n)
  rw [hj]
  intro c hc
  rcases List.mem_append.mp hc with hc | hc
  · exact dec_low n c hc
  · rw [List.eq_of_mem_replicate hc]; decide +kernel

theorem app_low {a b : Bytes} (ha : ∀ c ∈ a, c ∈ lowAlphabet) (hb : ∀ c ∈ b, c ∈ lowAlphabet) : ∀ c ∈ a ++ b, c ∈ lowAlphabet := by
  intro c hc
  rcases List.mem_append.mp hc with hc | hc
  · exact ha c hc
  · exact hb c hc

theorem sp_low : ∀ c ∈ ([32] : Bytes), c ∈ lowAlphabet := by decide +kernel

theorem contains_low (s : Bytes) (h : ∀ c ∈ s, c ∈ lowAlphabet) (kw : String) (hk : Word kw) : contains s (str kw) = false :=
  contains_foreign _ _ _ hk.low h

theorem contains_hex (data : Bytes) (kw : String) (hk : Word kw) : contains (hexString data) (str kw) = false :=
  contains_foreign _ _ _ hk.hex (hexString_alphabet data)

theorem names_alphabet (flats : Prop) (name : String) (n : UInt8) (hn : n ≤ 131) (h : Names flats 1 name n.toNat) :
    ∀ c ∈ str name, c ∈ noteAlphabet := by
  obtain ⟨p, rfl, hp, _, _⟩ := h
  have hlt : n.toNat ≤ 131 := by rw [UInt8.le_iff_toNat_le] at hn; simpa using hn
  have ht : ∀ p ∈ pitchNames, ∀ o : Fin 11, ∀ c ∈ str (p ++ toString ((o.val : Int) - 1)), c ∈ noteAlphabet := by
    decide +kernel
  exact ht p (pitchClass_mem p _ hp) ⟨n.toNat / 12, by omega⟩

theorem contains_note (ch v : UInt8) (name : String) (h : ∀ c ∈ str name, c ∈ noteAlphabet)
    (kw : String) (hk : Word kw) :
    contains (str "channel:" ++ (pad 2 (dec ch.toNat) ++ ([32] ++ (str "note:" ++ (str name ++ (str ", velocity:" ++ dec v.toNat)))))) (str kw) = false := by
  refine contains_foreign _ _ _ hk.note ?_
  obtain ⟨j, hj⟩ := pad_eq 2 (dec ch.toNat)
  rw [hj]
  have hd : ∀ c ∈ str "0123456789", c ∈ noteAlphabet := by decide +kernel
  have h1 : ∀ c ∈ str "channel:", c ∈ noteAlphabet := by decide +kernel
  have h2 : ∀ c ∈ ([32] : Bytes), c ∈ noteAlphabet := by decide +kernel
  have h3 : ∀ c ∈ str "note:", c ∈ noteAlphabet := by decide +kernel
  have h4 : ∀ c ∈ str ", velocity:", c ∈ noteAlphabet := by decide +kernel
  intro c hc
  simp only [List.mem_append] at hc
  rcases hc with hc | (hc | hc) | hc | hc | hc | hc | hc
  · exact h1 c hc
  · exact hd c (dec_alphabet _ c hc)
  · rw [List.eq_of_mem_replicate hc]; exact h2 32 (by simp)
  · exact h2 c hc
  · exact h3 c hc
  · exact h c hc
  · exact h4 c hc
  · exact hd c (dec_alphabet _ c hc)

theorem contains_data (name data : Bytes) (kw : String) (hk : Word kw) :
    contains (name ++ (str ", " ++ hexString data)) (str kw) = contains name (str kw) := by
  have e : str ", " ++ hexString data = 44 :: ([32] ++ hexString data) := by
    have : str ", " = [44, 32] := by decide +kernel
    rw [this]; rfl
  have h32 := hk.sep 32 (by decide)
  have h44 := hk.sep 44 (by decide)
  have hne := hk.ne
  rw [e, contains_sep _ _ _ 44 h44 hne, contains_spaces [32] _ _ (by simp) h32 hne, contains_hex data kw hk, Bool.or_false]

theorem controller_names (id : UInt8) : ∀ kw ∈ keywords.take 21, contains (str (Lib.lookupController id).name) (str kw) = false := by
  have h1 : ∀ e ∈ Lib.controllers, ∀ kw ∈ keywords.take 21, contains (str e.2.name) (str kw) = false := by decide +kernel
  have h2 : ∀ kw ∈ keywords.take 21, contains (str "<unknown>") (str kw) = false := by decide +kernel
  unfold Lib.lookupController
  cases h : Lib.controllers.find? (fun e => e.1 == id) with
  | none => exact h2
  | some e => exact h1 e (List.mem_of_find?_eq_some h)

theorem contains_controller (ch v : UInt8) (c : Lib.Controller) (kw : String) (hk : Word kw) :
    contains (str "channel:" ++ (pad 2 (dec ch.toNat) ++ ([32] ++ (dec c.id.toNat ++ (str "/" ++ (str c.name ++ (str ", value:" ++ dec v.toNat))))))) (str kw) =
      contains (str c.name) (str kw) := by
  have e1 : ∀ z : Bytes, str "/" ++ z = 47 :: z := by
    have : str "/" = [47] := by decide +kernel
    intro z; rw [this]; rfl
  have e2 : ∀ z : Bytes, str ", value:" ++ z = 44 :: (str " value:" ++ z) := by
    have : str ", value:" = 44 :: str " value:" := by decide +kernel
    intro z; rw [this]; rfl
  have h44 := hk.sep 44 (by decide)
  have h47 := hk.sep 47 (by decide)
  have hne := hk.ne
  have hass : str "channel:" ++ (pad 2 (dec ch.toNat) ++ ([32] ++ (dec c.id.toNat ++ (str "/" ++ (str c.name ++ (str ", value:" ++ dec v.toNat)))))) =
      (str "channel:" ++ (pad 2 (dec ch.toNat) ++ ([32] ++ dec c.id.toNat))) ++ 47 :: (str c.name ++ 44 :: (str " value:" ++ dec v.toNat)) := by
    rw [e1, e2]
    simp only [List.append_assoc]
  rw [hass, contains_sep _ _ _ 47 h47 hne, contains_sep _ _ _ 44 h44 hne,
    contains_low _ (app_low (by decide +kernel) (app_low (pad_low _ _) (app_low sp_low (dec_low _)))) kw hk,
    contains_low _ (app_low (by decide +kernel) (dec_low _)) kw hk]
  simp

/-- The key signatures of the tables. -/
theorem keySignature_made (a : Int8) (k : UInt8) (name : String) (h1 : -7 ≤ a.toInt) (h2 : a.toInt ≤ 7) (h3 : k ≤ 1)
    (h4 : name = keyName a.toInt (k == 1)) : makeKeySignature a k = .ok (.keySignature a k name) := by
  subst h4
  have hx : ∀ x : UInt8, ∀ k : Fin 2, -7 ≤ x.toInt8.toInt ∧ x.toInt8.toInt ≤ 7 →
      makeKeySignature x.toInt8 (UInt8.ofNat k.val) = .ok (.keySignature x.toInt8 (UInt8.ofNat k.val) (keyName x.toInt8.toInt (UInt8.ofNat k.val == 1))) :=
    fun x => all8 (P := fun x => ∀ k : Fin 2, -7 ≤ x.toInt8.toInt ∧ x.toInt8.toInt ≤ 7 →
      makeKeySignature x.toInt8 (UInt8.ofNat k.val) = .ok (.keySignature x.toInt8 (UInt8.ofNat k.val) (keyName x.toInt8.toInt (UInt8.ofNat k.val == 1))))
      (by decide +kernel) x
  have hk : k.toNat < 2 := by
    rw [UInt8.le_iff_toNat_le] at h3
    have : (1 : UInt8).toNat = 1 := rfl
    omega
  have := hx a.toUInt8 ⟨k.toNat, hk⟩
  simp only [Int8.toInt8_toUInt8, UInt8.ofNat_toNat] at this
  exact this ⟨h1, h2⟩

/-- Nothing but texts and the names of manufacturers and controllers can contain a word. -/
theorem fields_free (table : List (String × Lib.Manufacturer)) (b : Body) (hr : b.Readable table) (kw : String) (hk : Word kw)
    (htext : ∀ k s, b = .text k s → contains s (str kw) = false)
    (hseq : ∀ m data, b = .sequencerSpecific m data → contains (str m.name) (str kw) = false)
    (hsys : ∀ m data s, b = .sysExMessage m data s → contains (str m.name) (str kw) = false)
    (hctl : ∀ ch c v, b = .controller ch c v → contains (str (Lib.lookupController c.id).name) (str kw) = false) :
    contains (shownFields b) (str kw) = false := by
  cases b with
  | sequenceNumber n => exact contains_low _ (dec_low _) kw hk
  | text k s => exact htext k s rfl
  | midiChannelPrefix ch => exact contains_low _ (dec_low _) kw hk
  | midiPort p => exact contains_low _ (dec_low _) kw hk
  | endOfTrack => exact contains_low _ (by simp [shownFields]) kw hk
  | tempo t => exact contains_low _ (app_low (by decide +kernel) (dec_low _)) kw hk
  | smpteOffset h m s r f ff =>
    exact contains_low _ (app_low (dec_low _) (app_low sp_low (app_low (dec_low _) (app_low sp_low (app_low (dec_low _) (app_low sp_low
      (app_low (dec_low _) (app_low sp_low (app_low (dec_low _) (app_low sp_low (dec_low _))))))))))) kw hk
  | timeSignature n d c t =>
    exact contains_low _ (app_low (dec_low _) (app_low (by decide +kernel) (app_low (dec_low _) (app_low (by decide +kernel) (app_low (dec_low _)
      (app_low (by decide +kernel) (app_low (dec_low _) (by decide +kernel)))))))) kw hk
  | keySignature a k name =>
    exact hk.key _ (key_mem a k name (keySignature_made a k name hr.1 hr.2.1 hr.2.2.1 hr.2.2.2))
  | sequencerSpecific m data =>
    simp only [shownFields]
    rw [contains_data _ _ kw hk]
    exact hseq m data rfl
  | noteOff ch n v =>
    obtain ⟨_, _, _, h127, flats, hn⟩ := hr
    exact contains_note ch v n.name (names_alphabet flats _ _ h127 hn) kw hk
  | noteOn ch n v =>
    obtain ⟨_, _, _, h127, flats, hn⟩ := hr
    exact contains_note ch v n.name (names_alphabet flats _ _ h127 hn) kw hk
  | polyphonicPressure ch p =>
    exact contains_low _ (app_low (by decide +kernel) (app_low (pad_low _ _) (app_low sp_low (app_low (by decide +kernel) (dec_low _))))) kw hk
  | controller ch c v =>
    simp only [shownFields]
    rw [contains_controller _ _ _ kw hk]
    have := hctl ch c v rfl
    rw [← hr.2] at this
    exact this
  | programChange ch bank p =>
    exact contains_low _ (app_low (by decide +kernel) (app_low (pad_low _ _) (app_low sp_low (app_low (by decide +kernel) (app_low (dec_low _)
      (app_low (by decide +kernel) (dec_low _))))))) kw hk
  | channelPressure ch p =>
    exact contains_low _ (app_low (by decide +kernel) (app_low (pad_low _ _) (app_low sp_low (app_low (by decide +kernel) (dec_low _))))) kw hk
  | pitchBend ch bend =>
    exact contains_low _ (app_low (by decide +kernel) (app_low (pad_low _ _) (app_low sp_low (app_low (by decide +kernel) (dec_low _))))) kw hk
  | sysExMessage m data s =>
    simp only [shownFields]
    rw [contains_data _ _ kw hk]
    exact hsys m data s rfl
  | sysExContinuation data e => exact contains_hex data kw hk
  | sysExEscape data => exact contains_hex data kw hk

/-- Nothing but texts can contain an event name that takes precedence. -/
theorem fields_unambiguous (table : List (String × Lib.Manufacturer)) (b : Body) (hr : b.Readable table) :
    ∀ kw ∈ keywords.take (caseIndex b), contains (shownFields b) (str kw) = false := by
  intro kw hkt
  refine fields_free table b hr kw (words kw (List.mem_append_left _ (List.mem_of_mem_take hkt))) ?_ ?_ ?_ ?_
  · rintro k s rfl; exact (unambiguous_iff (.text k s) s).mp hr.2.2 kw hkt
  · rintro m data rfl; exact (unambiguous_iff (.sequencerSpecific m data) _).mp hr.2 kw hkt
  · rintro m data s rfl; exact (unambiguous_iff (.sysExMessage m data s) _).mp hr.2 kw hkt
  · rintro ch c v rfl; exact controller_names c.id kw hkt

/-! ### Reading -/

theorem blanks_reSpace (b : UInt8) : b ∉ blanks → reSpace b = false :=
  all8 (P := fun b => b ∉ blanks → reSpace b = false) (by decide +kernel) b

theorem str_inj {a b : String} (h : str a = str b) : a = b := by
  rw [← String.toByteArray_inj, ← String.utf8Encode_toList, ← String.utf8Encode_toList]
  unfold List.utf8Encode
  unfold str at h
  rw [h]

theorem findable_ok {table : List (String × Lib.Manufacturer)} {m : Lib.Manufacturer} (h : Findable table m) :
    nameOk (str m.name) = true ∧ findManufacturer table (str m.name) = .ok m := by
  obtain ⟨⟨key, hmem⟩, huniq, h44, h10, b, hb, hbl⟩ := h
  constructor
  · unfold nameOk
    rw [hb]
    simp [blanks_reSpace b hbl, h44, h10]
  · unfold findManufacturer
    cases hf : table.find? (fun e => str m.name == str e.2.name) with
    | none =>
      rw [List.find?_eq_none] at hf
      have := hf _ hmem
      simp at this
    | some e =>
      have hp := List.find?_some hf
      have hme := List.mem_of_find?_eq_some hf
      have hinj : e.2.name = m.name := by
        have : str m.name = str e.2.name := by simpa using hp
        exact (str_inj this).symm
      simp only
      rw [huniq e hme hinj]

theorem beats_ok (t : UInt8) (h0 : t ≠ 0) (h1 : 10 ≤ t → t % 10 ≠ 9) (h2 : 100 ≤ t → t / 10 % 10 ≠ 9) : beatsOk t = true :=
  all8 (P := fun t => t ≠ 0 → (10 ≤ t → t % 10 ≠ 9) → (100 ≤ t → t / 10 % 10 ≠ 9) → beatsOk t = true) (by decide +kernel) t h0 h1 h2

theorem reader_line (table : List (String × Lib.Manufacturer)) (pre : Bytes) (d : UInt32) (k : Nat) (b : Body)
    (hpre : ∀ c ∈ pre, c ∈ prefixAlphabet) (hr : b.Readable table) :
    readerOf table b (lineOf pre d k b) = .ok (d, b.asRead) := by
  cases b with
  | sequenceNumber n => exact read_sequenceNumber pre d k hpre n
  | text tk s =>
    have := read_text pre d k hpre tk s hr.1
    have hdw : s.dropWhile reSpace = s := by
      cases s with
      | nil => rfl
      | cons c s => rw [List.dropWhile_cons_of_neg]; simp [blanks_reSpace c (hr.2.1 c rfl)]
    rw [hdw] at this
    exact this
  | midiChannelPrefix ch => exact read_midiChannelPrefix pre d k hpre ch hr
  | midiPort p => exact read_midiPort pre d k hpre p hr
  | endOfTrack => exact read_endOfTrack pre d k hpre
  | tempo t => exact read_tempo pre d k hpre t
  | smpteOffset h m s r f ff =>
    refine read_smpteOffset pre d k hpre h m s r f ff ?_
    obtain ⟨a1, a2, a3, a4, a5, a6⟩ := hr
    unfold makeSMPTEOffset
    rw [if_neg (UInt8.not_lt.mpr a1), if_neg (UInt8.not_lt.mpr a2), if_neg (UInt8.not_lt.mpr a3),
      if_neg (by rcases a4 with rfl | rfl | rfl | rfl <;> simp), if_neg (UInt8.not_le.mpr a5), if_neg (UInt8.not_lt.mpr a6)]
  | timeSignature n dd c t =>
    obtain ⟨a1, a2, a3, a4, a5⟩ := hr
    exact read_timeSignature pre d k hpre n dd c t a1 a2 (beats_ok t a3 a4 a5)
  | keySignature a kt name =>
    exact read_keySignature pre d k hpre a kt name (keySignature_made a kt name hr.1 hr.2.1 hr.2.2.1 hr.2.2.2)
  | sequencerSpecific m data =>
    obtain ⟨h1, h2⟩ := findable_ok hr.1
    exact read_sequencerSpecific pre d k hpre table m data h1 h2
  | noteOff ch n v =>
    obtain ⟨a1, a2, a3, a4, flats, a5⟩ := hr
    exact read_noteOff pre d k hpre ch v n flats a1 a2 a3 a4 a5
  | noteOn ch n v =>
    obtain ⟨a1, a2, a3, a4, flats, a5⟩ := hr
    exact read_noteOn pre d k hpre ch v n flats a1 a2 a3 a4 a5
  | polyphonicPressure ch p => exact read_polyphonicPressure pre d k hpre ch p hr.1 hr.2
  | controller ch c v => exact read_controller pre d k hpre ch v c hr.1 hr.2
  | programChange ch bank p => exact read_programChange pre d k hpre ch bank p hr
  | channelPressure ch p => exact read_channelPressure pre d k hpre ch p hr.1 hr.2
  | pitchBend ch bend => exact read_pitchBend pre d k hpre ch bend hr
  | sysExMessage m data s =>
    obtain ⟨h1, h2⟩ := findable_ok hr.1
    exact read_sysExMessage pre d k hpre table m data s h1 h2
  | sysExContinuation data e => exact read_sysExContinuation pre d k hpre data e
  | sysExEscape data => exact read_sysExEscape pre d k hpre data

/-- C80: the line printed for a readable event is read as that event: same delta time, same contents (the terminator of a SysEx packet is
added later, from the events that follow). -/
theorem C80_line_reads_back (table : List (String × Lib.Manufacturer)) (e : Event) (line : Bytes) (hp : printEvent e = .ok line)
    (hr : e.body.Readable table) : readEvent table line = .ok ⟨0, e.delta, [], e.body.asRead⟩ := by
  obtain ⟨pre, k, hpre, rfl⟩ := printEvent_lineOf e line hp
  rw [readEvent_line table pre e.delta k e.body hpre (fields_unambiguous table e.body hr), reader_line table pre e.delta k e.body hpre hr]
  rfl

/-- A note, a controller, a text and a SysEx message that can be read. -/
example : (Body.noteOn 3 ⟨61, "C♯4", "D♭4"⟩ 72).Readable [] :=
  ⟨by decide, by decide, by decide, by decide, False, "C♯", by decide +kernel, by decide +kernel, by simp, by decide +kernel⟩

example : (Body.controller 1 ⟨7, "Channel Volume (MSB)"⟩ 100).Readable [] ∧ (Body.text .lyric (str "Marker me")).Readable [] ∧
    (Body.sysExMessage ⟨[0x43], "Japanese", "Yamaha"⟩ [1, 2] true).Readable [("43", ⟨[0x43], "Japanese", "Yamaha"⟩)] :=
  ⟨⟨by decide, by decide +kernel⟩, ⟨by decide +kernel, by decide +kernel, (unambiguous_iff (.text .lyric []) _).mpr (by decide +kernel)⟩,
    ⟨⟨"43", by simp⟩, by simp, by decide +kernel, by decide +kernel, 89, by decide +kernel, by decide⟩,
    (unambiguous_iff (.sysExMessage ⟨[], "", ""⟩ [] true) _).mpr (by decide +kernel)⟩

end Midiasm
