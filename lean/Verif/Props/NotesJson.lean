import Verif.Spec.NotesJson
import Verif.Spec.Layout
import Verif.Lemmas.Seconds
import Verif.Props.NotesPrint
import Verif.Props.JsonText
import Verif.Props.Layout
import Verif.Props.JsonAccepted

/-!
The JSON listing of notes (C120, C121).
-/

set_option linter.unusedSimpArgs false

namespace Midiasm
open Spec

/-! ### Decimal numbers -/

theorem lastDigits_length (j c : Nat) : (lastDigits j c).length = j := by
  induction j generalizing c with
  | zero => rfl
  | succ j ih => simp [lastDigits, ih]

theorem lastDigits_digits (j c : Nat) : ∀ b ∈ lastDigits j c, 48 ≤ b.toNat ∧ b.toNat ≤ 57 := by
  induction j generalizing c with
  | zero => simp [lastDigits]
  | succ j ih =>
    intro b hb
    rw [lastDigits] at hb
    rcases List.mem_append.mp hb with h | h
    · exact ih _ b h
    · rw [List.mem_singleton.mp h, digit_toNat _ (by omega)]; omega

theorem lastDigits_value (j c n : Nat) : digitFold n (lastDigits j c) = n * 10 ^ j + c % 10 ^ j := by
  induction j generalizing c with
  | zero => simp [lastDigits, digitFold, Nat.mod_one]
  | succ j ih =>
    rw [lastDigits, digitFold_append, ih]
    simp only [digitFold, List.foldl_cons, List.foldl_nil, digit_toNat (c % 10) (by omega)]
    rw [Nat.pow_succ, Nat.mul_comm (10 ^ j) 10, Nat.mod_mul, ← Nat.mul_assoc, Nat.mul_comm n 10, Nat.mul_assoc]
    omega

/-- What `decimalText` writes. -/
theorem decimalText_parts (c j : Nat) : ∃ int decimals, decimalText c j = int ++ (if j = 0 then [] else str "." ++ decimals) ∧
    decimals.length = j ∧ Numeral (int ++ decimals) c ∧ (int = str "0" ∨ (Digits int ∧ int.head? ≠ some 48)) ∧ (j ≠ 0 → Digits decimals) := by
  refine ⟨dec (c / 10 ^ j), lastDigits j c, ?_, lastDigits_length j c, ⟨?_, ?_, ?_⟩, decimal_integer _, ?_⟩
  · unfold decimalText
    split
    · rename_i h; subst h; simp
    · rfl
  · simp [dec_ne_nil]
  · intro b hb
    rcases List.mem_append.mp hb with h | h
    · exact dec_digits_toNat _ b h
    · exact lastDigits_digits _ _ b h
  · have h1 : digitFold 0 (dec (c / 10 ^ j) ++ lastDigits j c) = c := by
      rw [digitFold_append, digitFold_dec, lastDigits_value, Nat.mul_comm, Nat.div_add_mod]
    exact h1
  · intro hj
    refine ⟨?_, lastDigits_digits _ _⟩
    intro h
    have := lastDigits_length j c
    rw [h] at this
    exact hj this.symm

theorem number_decimal {sign : Bytes} (hs : sign = [] ∨ sign = str "-") (c j : Nat) : NumberText (sign ++ decimalText c j) := by
  obtain ⟨int, decimals, h1, h2, h3, h4, h5⟩ := decimalText_parts c j
  refine ⟨sign, int, if j = 0 then [] else str "." ++ decimals, [], by rw [h1]; simp, hs, h4, ?_, .inl rfl⟩
  by_cases hj : j = 0
  · simp [hj]
  · simp only [hj, if_false]
    exact .inr ⟨decimals, rfl, h5 hj⟩

/-! ### Times -/

/-- The text of a time. -/
def secondsText (d : Int) : Bytes :=
  if truncateMs d < 0 then 45 :: formatFloat (durationSeconds (truncateMs d).natAbs) else formatFloat (durationSeconds (truncateMs d).natAbs)

theorem secondsJson_text (d : Int) : secondsJson d = .num (secondsText d) := rfl

/-- What is written for a time. -/
theorem seconds_decimal {d : Int} (hd : Duration64 d) : ∃ c j sign, secondsText d = sign ++ decimalText c j ∧
    ((sign = [] ∧ 0 ≤ milliseconds d) ∨ (sign = str "-" ∧ milliseconds d < 0)) ∧
    1000 * c * 10 ^ 11 < (milliseconds d).natAbs * 10 ^ j * 10 ^ 11 + 10 ^ j ∧
    (milliseconds d).natAbs * 10 ^ j * 10 ^ 11 < 1000 * c * 10 ^ 11 + 10 ^ j ∧
    ((milliseconds d).natAbs < 1000 ∨ 32000 ≤ (milliseconds d).natAbs → 1000 * c = (milliseconds d).natAbs * 10 ^ j) := by
  have hm := truncateMs_milliseconds d
  have ha : (truncateMs d).natAbs = (milliseconds d).natAbs * 1000000 := by omega
  have hb : (milliseconds d).natAbs < 10 ^ 13 := by
    obtain ⟨h1, h2⟩ := hd
    have : milliseconds d = if 0 ≤ d then d / 1000000 else -(-d / 1000000) := rfl
    split at this <;> omega
  have key : ∃ c j, formatFloat (durationSeconds ((milliseconds d).natAbs * 1000000)) = decimalText c j ∧
      1000 * c * 10 ^ 11 < (milliseconds d).natAbs * 10 ^ j * 10 ^ 11 + 10 ^ j ∧
      (milliseconds d).natAbs * 10 ^ j * 10 ^ 11 < 1000 * c * 10 ^ 11 + 10 ^ j ∧
      ((milliseconds d).natAbs < 1000 ∨ 32000 ≤ (milliseconds d).natAbs → 1000 * c = (milliseconds d).natAbs * 10 ^ j) := by
    generalize (milliseconds d).natAbs = n at *
    by_cases hn : n < 1000 ∨ 32000 ≤ n
    · obtain ⟨x, j, h1, h2, h3, -⟩ := formatFloat_ms hb
      rw [durationSeconds_nearest hb hn]
      have he : 1000 * x = n * 10 ^ j := by
        rw [← h3, Nat.mul_assoc, ← Nat.pow_add, show 3 - j + j = 3 by omega]
        omega
      have hp : 0 < 10 ^ j := Nat.pow_pos (by omega)
      exact ⟨x, j, h1, by omega, by omega, fun _ => he⟩
    · obtain ⟨c, j, h1, h2, h3⟩ := durationSeconds_close (n := n) (by omega) (by omega)
      exact ⟨c, j, h1, h2, h3, fun h => absurd h hn⟩
  obtain ⟨c, j, h1, h2, h3, h4⟩ := key
  unfold secondsText
  rw [ha, h1]
  by_cases hs : truncateMs d < 0
  · rw [if_pos hs]
    exact ⟨c, j, str "-", rfl, .inr ⟨rfl, by omega⟩, h2, h3, h4⟩
  · rw [if_neg hs]
    exact ⟨c, j, [], rfl, .inl ⟨rfl, by omega⟩, h2, h3, h4⟩

theorem seconds_number {d : Int} (hd : Duration64 d) : NumberText (secondsText d) := by
  obtain ⟨c, j, sign, h1, h2, -⟩ := seconds_decimal hd
  rw [h1]
  exact number_decimal (h2.imp And.left And.left) c j

theorem gap_pos {c x y : Nat} (h3 : 1000 * c * 10 ^ 11 < x * 10 ^ 11 + y) (h4 : x * 10 ^ 11 < 1000 * c * 10 ^ 11 + y) :
    (1000 * (c : Int) - (x : Int)).natAbs * 10 ^ 11 < y := by
  generalize hd : (1000 * (c : Int) - (x : Int)).natAbs = d
  have h : d + x = 1000 * c ∨ d + 1000 * c = x := by clear h3 h4; omega
  clear hd
  rcases h with h | h
  · rw [← h, Nat.add_mul] at h3 h4
    generalize 10 ^ 11 = p at *
    omega
  · rw [← h, Nat.add_mul] at h3 h4
    generalize 10 ^ 11 = p at *
    omega

theorem gap_neg {c x y : Nat} (h3 : 1000 * c * 10 ^ 11 < x * 10 ^ 11 + y) (h4 : x * 10 ^ 11 < 1000 * c * 10 ^ 11 + y) :
    (1000 * (-(c : Int)) - (-(x : Int))).natAbs * 10 ^ 11 < y := by
  generalize hd : (1000 * (-(c : Int)) - (-(x : Int))).natAbs = d
  have h : d + x = 1000 * c ∨ d + 1000 * c = x := by clear h3 h4; omega
  clear hd
  rcases h with h | h
  · rw [← h, Nat.add_mul] at h3 h4
    generalize 10 ^ 11 = p at *
    omega
  · rw [← h, Nat.add_mul] at h3 h4
    generalize 10 ^ 11 = p at *
    omega

theorem gap_zero {x y : Nat} (h4 : x * 10 ^ 11 < 1000 * 0 * 10 ^ 11 + y) (h6 : 1 * y ≤ x) : False := by omega

theorem seconds_nearly {d : Int} (hd : Duration64 d) : NearlySeconds d (secondsText d) := by
  obtain ⟨c, j, sign, h1, h2, h3, h4, h5⟩ := seconds_decimal hd
  obtain ⟨int, decimals, g1, g2, g3, g4, -⟩ := decimalText_parts c j
  have hi : int ≠ [] := by
    rcases g4 with rfl | ⟨⟨h, -⟩, -⟩
    · decide +kernel
    · exact h
  rcases h2 with ⟨rfl, hs⟩ | ⟨rfl, hs⟩
  · obtain ⟨n, hn⟩ := Int.eq_ofNat_of_zero_le hs
    rw [hn, Int.natAbs_natCast] at h3 h4 h5
    have hdec : DecimalNumber (secondsText d) (c : Int) j :=
      ⟨[], int, decimals, by rw [h1, g1]; simp, .inl ⟨rfl, by omega⟩, hi, g2, by rw [Int.natAbs_natCast]; exact g3⟩
    have hcast : ((n * 10 ^ j : Nat) : Int) = (n : Int) * 10 ^ j := by simp
    rw [NearlySeconds, CloseSeconds, ExactSeconds, hn, Int.natAbs_natCast]
    refine ⟨⟨c, j, hdec, ?_⟩, fun h => ⟨c, j, hdec, ?_⟩⟩
    · rw [← hcast]
      exact gap_pos h3 h4
    · rw [← hcast, ← h5 h]; simp
  · obtain ⟨n, hn⟩ : ∃ n : Nat, milliseconds d = -(n : Int) := ⟨(milliseconds d).natAbs, by omega⟩
    rw [hn, Int.natAbs_neg, Int.natAbs_natCast] at h3 h4 h5
    have hc0 : 0 < c := by
      apply Nat.pos_of_ne_zero
      intro h0
      subst h0
      have h6 : 1 * 10 ^ j ≤ n * 10 ^ j := Nat.mul_le_mul_right _ (by omega)
      exact gap_zero h4 h6
    have hdec : DecimalNumber (secondsText d) (-(c : Int)) j :=
      ⟨str "-", int, decimals, by rw [h1, g1]; simp, .inr ⟨rfl, by omega⟩, hi, g2, by rw [Int.natAbs_neg, Int.natAbs_natCast]; exact g3⟩
    have hcast : ((n * 10 ^ j : Nat) : Int) = (n : Int) * 10 ^ j := by simp
    rw [NearlySeconds, CloseSeconds, ExactSeconds, hn, Int.natAbs_neg, Int.natAbs_natCast]
    refine ⟨⟨-c, j, hdec, ?_⟩, fun h => ⟨-c, j, hdec, ?_⟩⟩
    · rw [Int.neg_mul, ← hcast]
      exact gap_neg h3 h4
    · rw [Int.neg_mul, ← hcast, ← h5 h]; omega

/-! ### The document -/

theorem letters_runes (s : String) : runes (str s) = letters s := runes_chars s.toList

theorem noteJson_object {n : Note} (h : Durations n) : NoteObject NearlySeconds n (noteJsonValue n) := by
  refine ⟨dec n.channel.toNat, dec n.note.toNat, dec n.velocity.toNat, secondsText n.start, secondsText n.end_, secondsText n.duration, ?_,
    dec_numeral _, dec_numeral _, dec_numeral _, seconds_nearly h.1, seconds_nearly h.2.1, seconds_nearly h.2.2⟩
  simp only [noteJsonValue, jobj, jnum, jstr, secondsJson_text, List.map_cons, List.map_nil, letters_runes]

theorem sound_seconds {d : Int} (h : Duration64 d) : Wellformed (secondsJson d) := by
  rw [secondsJson_text, Wellformed]
  exact seconds_number h

theorem sound_note {n : Note} (h : Durations n) : Wellformed (noteJsonValue n) := by
  apply wf_obj
  intro m hm
  simp only [List.mem_cons, List.not_mem_nil, or_false] at hm
  rcases hm with rfl | rfl | rfl | rfl | rfl | rfl | rfl
  · exact sound_jnum _
  · exact sound_jnum _
  · exact sound_jstr _
  · exact sound_jnum _
  · exact sound_seconds h.1
  · exact sound_seconds h.2.1
  · exact sound_seconds h.2.2

theorem seen_notes (notes : List Note) : seen (notesJsonValue notes) = notesJsonValue notes := by
  have hn : ∀ n : Note, seen (noteJsonValue n) = noteJsonValue n := by
    intro n
    simp [noteJsonValue, secondsJson_text, seen_jobj, seen_jnum, seen_jstr, seen_num]
  cases notes with
  | nil => simp [notesJsonValue, seen_jobj, seen_null]
  | cons n ns =>
    simp only [notesJsonValue, seen_jobj, List.map_cons, List.map_nil, seen_arr, hn, List.map_map]
    congr 5
    exact List.map_congr_left fun n _ => hn n

theorem sound_notes {notes : List Note} (h : ∀ n ∈ notes, Durations n) : Wellformed (notesJsonValue notes) := by
  apply wf_obj
  intro m hm
  simp only [List.mem_cons, List.not_mem_nil, or_false] at hm
  subst hm
  cases notes with
  | nil => exact sound_null
  | cons n ns =>
    apply wf_arr
    intro j hj
    obtain ⟨n', hn', rfl⟩ := List.mem_map.mp hj
    exact sound_note (h n' hn')

theorem notesJson_document {notes : List Note} (h : ∀ n ∈ notes, Durations n) : NotesDocument NearlySeconds notes (notesJsonValue notes) := by
  unfold notesJsonValue
  cases notes with
  | nil => exact ⟨.null, by simp only [jobj, List.map_cons, List.map_nil, letters_runes], .inl ⟨rfl, rfl⟩⟩
  | cons n ns =>
    refine ⟨.arr ((n :: ns).map noteJsonValue), by simp only [jobj, List.map_cons, List.map_nil, letters_runes], .inr ⟨by simp, _, rfl, ?_⟩⟩
    generalize n :: ns = l at *
    induction l with
    | nil => exact .nil
    | cons n l ih => exact .cons (noteJson_object (h n (by simp))) (ih fun m hm => h m (by simp [hm]))

/-! ### Extracted notes -/

theorem wrap64_range (x : Int) : Duration64 (wrap64 x) := by
  unfold wrap64 Duration64
  have h1 := Int.le_bmod (x := x) (m := 2 ^ 64) (by decide)
  have h2 := Int.bmod_lt (x := x) (m := 2 ^ 64) (by decide)
  omega

theorem roundMs_range {d : Int} (h : Duration64 d) : Duration64 (roundMs d) := by
  unfold roundMs
  obtain ⟨h1, h2⟩ := h
  have ht := Int.mul_tdiv_add_tmod d 1000000
  have hw := wrap64_range (d - 1000000 + -(d.tmod 1000000))
  have hw' := wrap64_range (d + 1000000 - d.tmod 1000000)
  unfold Duration64 at *
  simp only
  split
  · rename_i hd
    have := Int.tmod_nonneg 1000000 (a := -d) (by omega)
    rw [Int.neg_tmod] at this
    split
    · omega
    · split <;> omega
  · rename_i hd
    have := Int.tmod_nonneg 1000000 (a := d) (by omega)
    have := Int.tmod_eq_emod_of_nonneg (a := d) (b := 1000000) (by omega)
    split
    · omega
    · split <;> omega

theorem stampEvents_range (ppqn : UInt16) (es : List NoteEvent) : ∀ (tempo : UInt64) (at_ : Int) (scale : ScaleKind) (out : List NoteEvent),
    stampEvents ppqn tempo at_ scale es = .ok out → ∀ e ∈ out, Duration64 e.at_ := by
  induction es with
  | nil => intro tempo at_ scale out h; rw [stampEvents] at h; injection h with h; subst h; simp
  | cons e es ih =>
    intro tempo at_ scale out h
    rw [stampEvents] at h
    split at h
    · cases h
    · obtain ⟨rest, h1, h2⟩ := bound_ok h
      injection h2 with h2
      subst h2
      intro x hx
      rcases List.mem_cons.mp hx with rfl | hx
      · exact roundMs_range (wrap64_range _)
      · exact ih _ _ _ _ h1 x hx

theorem finishNote_range {mc : MiddleC} {t : Int} {p e : NoteEvent} {n : Note} (hp : Duration64 p.at_) (he : Duration64 e.at_)
    (h : finishNote mc t p e = .ok n) : Durations n := by
  unfold finishNote at h
  split at h
  · injection h with h
    subst h
    exact ⟨hp, he, wrap64_range _⟩
  · cases h

theorem endNote_range {mc : MiddleC} {t : Int} {pending : Pending} {ch k : UInt8} {e : NoteEvent} {r : List Note × Pending}
    (hp : ∀ c, ∀ p ∈ pending c, Duration64 p.at_) (he : Duration64 e.at_) (h : endNote mc t pending ch k e = .ok r) :
    (∀ n ∈ r.1, Durations n) ∧ ∀ c, ∀ p ∈ r.2 c, Duration64 p.at_ := by
  unfold endNote at h
  split at h
  · injection h with h
    subst h
    exact ⟨by simp, hp⟩
  · rename_i p hf
    obtain ⟨n, h1, h2⟩ := bound_ok h
    injection h2 with h2
    subst h2
    refine ⟨?_, ?_⟩
    · intro x hx
      rw [List.mem_singleton.mp hx]
      exact finishNote_range (hp ch p (List.mem_of_find?_eq_some hf)) he h1
    · intro c q hq
      simp only at hq
      split at hq
      · exact hp c q (List.mem_of_mem_filter hq)
      · exact hp c q hq

theorem finishNotes_range {mc : MiddleC} {t : Int} {e : NoteEvent} (he : Duration64 e.at_) (ps : List NoteEvent) : ∀ ns,
    (∀ p ∈ ps, Duration64 p.at_) → finishNotes mc t e ps = .ok ns → ∀ n ∈ ns, Durations n := by
  induction ps with
  | nil => intro ns _ h; rw [finishNotes] at h; injection h with h; subst h; simp
  | cons p ps ih =>
    intro ns hp h
    rw [finishNotes] at h
    obtain ⟨n, h1, h2⟩ := bound_ok h
    obtain ⟨ns', h3, h4⟩ := bound_ok h2
    injection h4 with h4
    subst h4
    intro x hx
    rcases List.mem_cons.mp hx with rfl | hx
    · exact finishNote_range (hp p (by simp)) he h1
    · exact ih _ (fun q hq => hp q (by simp [hq])) h3 x hx

theorem noteLoop_range {mc : MiddleC} {ord : MapOrder} {t : Int} (es : List NoteEvent) : ∀ (k : Nat) (pending : Pending) (out : List Note),
    (∀ e ∈ es, Duration64 e.at_) → (∀ c, ∀ p ∈ pending c, Duration64 p.at_) → noteLoop mc ord t k pending es = .ok out →
    ∀ n ∈ out, Durations n := by
  induction es with
  | nil => intro k pending out _ _ h; rw [noteLoop] at h; injection h with h; subst h; simp
  | cons e es ih =>
    intro k pending out hes hp h
    have he := hes e (by simp)
    have hes' : ∀ e ∈ es, Duration64 e.at_ := fun x hx => hes x (by simp [hx])
    have ends : ∀ ch key, (endNote mc t pending ch key e >>= fun r => noteLoop mc ord t k r.2 es >>= fun rest => .ok (r.1 ++ rest)) = .ok out →
        ∀ n ∈ out, Durations n := by
      intro ch key h
      obtain ⟨r, h1, h2⟩ := bound_ok h
      obtain ⟨rest, h3, h4⟩ := bound_ok h2
      injection h4 with h4
      subst h4
      obtain ⟨g1, g2⟩ := endNote_range hp he h1
      intro n hn
      rcases List.mem_append.mp hn with hn | hn
      · exact g1 n hn
      · exact ih _ _ _ hes' g2 h3 n hn
    rw [noteLoop] at h
    split at h
    · split at h
      · split at h
        · exact ih _ _ _ hes' hp h
        · split at h
          · cases h
          · refine ih _ _ _ hes' ?_ h
            intro c p hpm
            split at hpm
            · rcases List.mem_append.mp hpm with hh | hh
              · exact hp c p hh
              · rw [List.mem_singleton.mp hh]; exact he
            · exact hp c p hpm
      · exact ends _ _ h
    · exact ends _ _ h
    · obtain ⟨ns, h1, h2⟩ := bound_ok h
      obtain ⟨rest, h3, h4⟩ := bound_ok h2
      injection h4 with h4
      subst h4
      intro n hn
      rcases List.mem_append.mp hn with hn | hn
      · refine finishNotes_range he _ _ ?_ h1 n hn
        intro p hpm
        obtain ⟨i, -, hi⟩ := List.mem_flatMap.mp hpm
        exact hp _ p ((ord.perm _ _ _).mem_iff.mp hi)
      · refine ih _ _ _ hes' ?_ h3 n hn
        intro c p hpm
        split at hpm
        · cases hpm
        · exact hp c p hpm
    · exact ih _ _ _ hes' hp h

theorem extractTracks_range {mc : MiddleC} {ord : Nat → MapOrder} {t : Int} {m : Option MThd} {tempos : List Event} (ts : List MTrk) :
    ∀ i out, extractTracks mc ord t m tempos i ts = .ok out → ∀ n ∈ out, Durations n := by
  induction ts with
  | nil => intro i out h; rw [extractTracks] at h; injection h with h; subst h; simp
  | cons x ts ih =>
    intro i out h
    rw [extractTracks.eq_def] at h
    cases m with
    | none => cases h
    | some m =>
      obtain ⟨es, h1, h2⟩ := bound_ok h
      obtain ⟨l, h3, h4⟩ := bound_ok h2
      obtain ⟨rest, h5, h6⟩ := bound_ok h4
      injection h6 with h6
      subst h6
      intro n hn
      rcases List.mem_append.mp hn with hn | hn
      · refine noteLoop_range _ _ _ _ ?_ (by simp) h3 n hn
        intro e he
        unfold buildTrackEvents at h1
        obtain ⟨st, g1, g2⟩ := bound_ok h1
        injection g2 with g2
        subst g2
        exact stampEvents_range _ _ _ _ _ _ g1 e (List.mem_of_mem_filter he)
      · exact ih _ _ h5 n hn

theorem extracted_range {mc : MiddleC} {ord : Nat → MapOrder} {t : Int} {smf : SMF} {notes : List Note}
    (h : extractNotes mc ord t smf = .ok notes) : ∀ n ∈ notes, Durations n := by
  unfold extractNotes at h
  obtain ⟨tempos, -, h2⟩ := bound_ok h
  exact extractTracks_range _ _ _ h2

/-! ### The properties -/

/-- **C121.** The JSON listing of notes is a JSON document, laid out in lines, that lists the notes in order, each with channel, number, name,
velocity and the times in seconds: exact to the millisecond below one second and from 32 seconds on, less than 10^-14 seconds off otherwise. -/
theorem C121_notes_document (notes : List Note) (h : ∀ n ∈ notes, Durations n) :
    ∃ j, JsonText Chars j (notesJsonText notes) ∧ NotesDocument NearlySeconds notes j ∧ LaidOut .code 10 0 (notesJsonText notes) := by
  refine ⟨notesJsonValue notes, seen_notes notes ▸ writeJson_text _ 0 (sound_notes h), notesJson_document h, ?_⟩
  have := laid_value (notesJsonValue notes) 0 (sound_notes h) [] (fun q => ⟨rfl, rfl⟩) 10
  rw [List.append_nil] at this
  exact this

/-- **C121.** Notes extracted from a file have durations of 64 bits. -/
theorem C121_extracted (mc : MiddleC) (ord : Nat → MapOrder) (t : Int) (smf : SMF) (notes : List Note)
    (h : extractNotes mc ord t smf = .ok notes) :
    ∃ j, JsonText Chars j (notesJsonText notes) ∧ NotesDocument NearlySeconds notes j ∧ LaidOut .code 10 0 (notesJsonText notes) :=
  C121_notes_document notes (extracted_range h)

theorem nearly_exact {d : Int} {s : Bytes} (h : (milliseconds d).natAbs < 1000 ∨ 32000 ≤ (milliseconds d).natAbs) (hs : NearlySeconds d s) :
    ExactSeconds d s := hs.2 h

/-- **C120**, the part that holds: the times are exact to the millisecond if each is below one second or at least 32 seconds. -/
theorem C120_exact_partial (notes : List Note) (h : ∀ n ∈ notes, Durations n)
    (hs : ∀ n ∈ notes, ∀ d ∈ [n.start, n.end_, n.duration], (milliseconds d).natAbs < 1000 ∨ 32000 ≤ (milliseconds d).natAbs) :
    ∃ j, JsonText Chars j (notesJsonText notes) ∧ NotesDocument ExactSeconds notes j := by
  obtain ⟨j, h1, ⟨v, h2, h3⟩, -⟩ := C121_notes_document notes h
  refine ⟨j, h1, v, h2, h3.imp id ?_⟩
  rintro ⟨h4, l, h5, h6⟩
  refine ⟨h4, l, h5, ?_⟩
  clear h h1 h2 h3 h4 h5
  induction h6 with
  | nil => exact .nil
  | cons hn _ ih =>
    rename_i n j ns js _
    refine .cons ?_ (ih fun m hm => hs m (by simp [hm]))
    obtain ⟨ch, key, v, start, end_, duration, g1, g2, g3, g4, g5, g6, g7⟩ := hn
    have := hs n (by simp)
    exact ⟨ch, key, v, start, end_, duration, g1, g2, g3, g4, nearly_exact (this _ (by simp)) g5, nearly_exact (this _ (by simp)) g6,
      nearly_exact (this _ (by simp)) g7⟩

/-- The digits of a decimal number are those of its text. -/
theorem decimal_digits {s : Bytes} {c : Int} {j : Nat} (h : DecimalNumber s c j) : digitFold 0 (s.filter isDigit) = c.natAbs := by
  obtain ⟨sign, int, decimals, rfl, h2, h3, h4, h5, h6, h7⟩ := h
  have hd : ∀ l : Bytes, (∀ b ∈ l, 48 ≤ b.toNat ∧ b.toNat ≤ 57) → l.filter isDigit = l := by
    intro l hl
    rw [List.filter_eq_self]
    intro b hb
    rw [isDigit_iff]
    exact hl b hb
  have h8 : sign.filter isDigit = [] := by
    rcases h2 with ⟨rfl, -⟩ | ⟨rfl, -⟩
    · rfl
    · decide +kernel
  have h9 : (if j = 0 then [] else str "." ++ decimals).filter isDigit = decimals := by
    split
    · rename_i hj
      rw [hj] at h4
      rw [List.length_eq_zero_iff.mp h4]
      rfl
    · rw [List.filter_append, show (str ".").filter isDigit = [] by decide +kernel, List.nil_append]
      exact hd _ fun b hb => h6 b (by simp [hb])
  rw [List.filter_append, List.filter_append, h8, h9, List.nil_append, hd int fun b hb => h6 b (by simp [hb])]
  exact h7

/-- A listing that is not exact. -/
theorem listing_wrong (notes : List Note) (h2 : notes.map (·.start) = [1118000000])
    (h4 : NotesDocument ExactSeconds notes (notesJsonValue notes)) : False := by
  obtain ⟨n, rfl⟩ : ∃ n, notes = [n] := by
    cases notes with
    | nil => simp at h2
    | cons n ns =>
      cases ns with
      | nil => exact ⟨n, rfl⟩
      | cons m ms => simp at h2
  rw [List.map_cons, List.map_nil] at h2
  have h2 : n.start = 1118000000 := by injection h2
  obtain ⟨v, h5, h6⟩ := h4
  rcases h6 with ⟨h6, -⟩ | ⟨-, l, rfl, h7⟩
  · cases h6
  · have h8 : l = [noteJsonValue n] := by
      unfold notesJsonValue jobj at h5
      injection h5 with h5
      simp only [List.map_cons, List.map_nil] at h5
      injection h5 with h5 _
      injection h5 with _ h5
      injection h5 with h5
      exact h5.symm
    subst h8
    cases h7 with
    | cons hn' _ =>
      obtain ⟨ch, key, v, start, end_, duration, g1, -, -, -, ⟨c, i, g5, g6⟩, -⟩ := hn'
      have hst : secondsText n.start = start := by
        unfold noteJsonValue jobj at g1
        injection g1 with g1
        simp only [List.map_cons, List.map_nil, secondsJson_text] at g1
        injection g1 with _ g1
        injection g1 with _ g1
        injection g1 with _ g1
        injection g1 with _ g1
        injection g1 with g1 _
        injection g1 with _ g1
        injection g1
      have hc := decimal_digits g5
      rw [h2] at hst
      rw [← hst, show digitFold 0 ((secondsText 1118000000).filter isDigit) = 11179999999999999 by decide +kernel] at hc
      rw [h2, show milliseconds 1118000000 = 1118 by decide] at g6
      have hpos : (0 : Int) < 10 ^ i := Int.pow_pos (by omega)
      have hcc : c = 11179999999999999 := by
        have : 0 < c := by omega
        omega
      subst hcc
      by_cases h0 : i < 4
      · have : i = 0 ∨ i = 1 ∨ i = 2 ∨ i = 3 := by omega
        rcases this with rfl | rfl | rfl | rfl <;> exact absurd g6 (by decide)
      · obtain ⟨k, rfl⟩ : ∃ k, i = k + 4 := ⟨i - 4, by omega⟩
        rw [Int.pow_add] at g6
        generalize (10 : Int) ^ k = x at g6
        omega

/-- **C120 fails**: a file with a note that starts 1.118 seconds after the beginning.  Its listing in JSON says 1.1179999999999999. -/
theorem C120_exact_fails : ∃ file smf notes, decode .c3 [] file = .ok smf ∧ extractNotes .c3 (fun _ => idOrder) 0 smf = .ok notes ∧
    notes.map (·.start) = [1118000000] ∧ ¬ ∃ j, JsonText Chars j (notesJsonText notes) ∧ NotesDocument ExactSeconds notes j := by
  obtain ⟨smf, h1, h2⟩ := Outcome.of_test (o := decode .c3 [] (tracksFile 1 0 50 [[], [0x88, 0x5e, 0x90, 60, 64, 1, 0x80, 60, 0]]))
    (p := fun smf : SMF => (match extractNotes .c3 (fun _ => idOrder) 0 smf with
      | .ok ns => ns.map (·.start) == [1118000000]
      | _ => false)) (by decide +kernel)
  split at h2
  · rename_i notes hn
    simp only [beq_iff_eq] at h2
    refine ⟨_, smf, notes, h1, hn, h2, ?_⟩
    rintro ⟨j, h3, h4⟩
    have hw := writeJson_text (notesJsonValue notes) 0 (sound_notes (extracted_range hn))
    rw [seen_notes] at hw
    have hj : j = notesJsonValue notes := C88_unambiguous _ _ _ h3 hw
    subst hj
    exact listing_wrong notes h2 h4
  · cases h2

/-- A listing, and times that are not exact. -/
example : (∀ n ∈ [(⟨3, 60, "C3", 90, 0, 480, 1118000000, 1500000000, 382000000⟩ : Note)], Durations n) ∧
    notesJsonText [⟨3, 60, "C3", 90, 0, 480, 1118000000, 1500000000, 382000000⟩] =
      str "{\n  \"notes\": [\n    {\n      \"channel\": 3,\n      \"midi-note\": 60,\n      \"note\": \"C3\",\n      \"velocity\": 90,\n      \"start\": 1.1179999999999999,\n      \"end\": 1.5,\n      \"duration\": 0.382\n    }\n  ]\n}" ∧
    notesJsonText [] = str "{\n  \"notes\": null\n}" ∧
    secondsText (-31952000000) = str "-31.951999999999998" ∧ secondsText 9223372036854775807 = str "9223372036.854" ∧
    secondsText 32001999999 = str "32.001" := by
  refine ⟨?_, by decide +kernel⟩
  intro n hn
  rw [List.mem_singleton.mp hn]
  unfold Durations Duration64
  decide

end Midiasm
