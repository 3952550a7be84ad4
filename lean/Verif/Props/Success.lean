import Verif.Spec.Success
import Verif.Props.Table
import Verif.Props.Split
import Verif.Props.NotesListing
import Verif.Props.Assembled
import Verif.Props.JsonFile
import Verif.Props.CommandsExamples

/-!
Property C157: when the exit status of a run is zero.
-/

set_option linter.unusedSimpArgs false

namespace Midiasm
open Spec

/-! ### Names -/

theorem json_suffix (file : Bytes) : extPath file = str ".json" ↔ str ".json" <:+ file := by
  have hj : str ".json" = 46 :: str "json" := by decide +kernel
  rw [hj]
  constructor
  · intro h
    unfold extPath at h
    simp only at h
    split at h
    · cases h
    · rename_i hne
      obtain ⟨a, l, hl⟩ := List.exists_cons_of_ne_nil hne
      have ha : a = 46 := by
        have := List.head?_dropWhile_not (fun x : UInt8 => x != 46) (file.reverse.takeWhile (· != 47))
        rw [hl] at this
        simpa using this
      subst ha
      have e := List.takeWhile_append_dropWhile (p := fun x : UInt8 => x != 46) (l := file.reverse.takeWhile (· != 47))
      have e' := List.takeWhile_append_dropWhile (p := fun x : UInt8 => x != 47) (l := file.reverse)
      rw [hl] at e
      rw [← e] at e'
      injection h with _ h
      rw [← List.reverse_inj, List.reverse_append, List.reverse_append, List.reverse_cons, List.reverse_reverse, h] at e'
      refine ⟨(file.reverse.dropWhile (· != 47)).reverse ++ l.reverse, ?_⟩
      rw [← List.singleton_append, List.append_assoc]
      rw [List.append_assoc] at e'
      exact e'
  · rintro ⟨a, rfl⟩
    exact extPath_dot _ _ (by decide +kernel) (by decide +kernel)

theorem split_stem {x b : Bytes} (h : SplitStem x b) : trimSuffix (basePath x) (extPath x) = b := by
  have hrep : ∀ n, (List.replicate (n + 1) (47 : UInt8)).reverse = List.replicate (n + 1) 47 := fun n => List.reverse_replicate ..
  have hext : ∀ (d : Bytes) (n : Nat), extPath (d ++ List.replicate (n + 1) 47) = [] := by
    intro d n
    unfold extPath
    rw [List.reverse_append, hrep, List.replicate_succ]
    simp
  have hdrop : ∀ (n : Nat) (l : Bytes), (List.replicate n (47 : UInt8) ++ l).dropWhile (· = 47) = l.dropWhile (· = 47) := by
    intro n l
    exact List.dropWhile_append_of_pos (by intro c hc; simp [List.eq_of_mem_replicate hc])
  rcases h with h | ⟨d, n, rfl, hd, hb, hne⟩ | ⟨n, rfl, rfl⟩
  · exact stem_eq h
  · rw [hext]
    have hbase : basePath (d ++ b ++ List.replicate (n + 1) 47) = b := by
      unfold basePath
      rw [if_neg (by simp)]
      have h1 : (d ++ b ++ List.replicate (n + 1) (47 : UInt8)).reverse.dropWhile (· = 47) = b.reverse ++ d.reverse := by
        rw [List.reverse_append, hrep, hdrop, List.reverse_append]
        cases hr : b.reverse with
        | nil => exact absurd (by simpa using congrArg List.reverse hr) hne
        | cons c l =>
          have : c ≠ 47 := by
            rintro rfl
            exact hb (List.mem_reverse.1 (by rw [hr]; exact List.mem_cons_self))
          simp [this]
      have h2 : (b.reverse ++ d.reverse).takeWhile (· != 47) = b.reverse := by
        rw [List.takeWhile_append_of_pos]
        · have : d.reverse.takeWhile (· != 47) = [] := by rcases hd with rfl | ⟨d', rfl⟩ <;> simp
          rw [this, List.append_nil]
        · intro c hc
          simp only [bne_iff_ne]
          rintro rfl
          exact hb (List.mem_reverse.1 hc)
      simp only [h1, h2, List.reverse_reverse, if_neg hne]
    rw [hbase]
    simp [trimSuffix]
  · have h0 := hext [] n
    rw [List.nil_append] at h0
    rw [h0]
    have h1 := hdrop (n + 1) []
    rw [List.append_nil, List.dropWhile_nil] at h1
    have hbase : basePath (List.replicate (n + 1) 47) = [47] := by
      unfold basePath
      rw [if_neg (by simp), hrep, h1]
      rfl
    rw [hbase]
    rfl

theorem splitStem_exists (x : Bytes) (hx : x ≠ []) : ∃ b, SplitStem x b := by
  have e := List.takeWhile_append_dropWhile (p := fun c : UInt8 => c != 47) (l := x.reverse)
  have he : x = (x.reverse.dropWhile (· != 47)).reverse ++ (x.reverse.takeWhile (· != 47)).reverse := by
    rw [← List.reverse_append, e, List.reverse_reverse]
  have h47 : ∀ l : Bytes, (47 : UInt8) ∉ (l.takeWhile (· != 47)) := by
    intro l h
    have := mem_takeWhile_p h
    simp at this
  have hslash : ∀ l : Bytes, (l.dropWhile (· != 47)).reverse = [] ∨ ∃ d, (l.dropWhile (· != 47)).reverse = d ++ [47] := by
    intro l
    cases hl : l.dropWhile (· != 47) with
    | nil => exact Or.inl rfl
    | cons a k =>
      have := List.head?_dropWhile_not (fun c : UInt8 => c != 47) l
      rw [hl] at this
      simp only [List.head?_cons, bne_iff_ne, Bool.not_eq_true] at this
      have ha : a = 47 := by simpa using this
      exact Or.inr ⟨k.reverse, by rw [List.reverse_cons, ha]⟩
  by_cases hlast : x.reverse.takeWhile (· != 47) = []
  · -- slashes at the end
    have k := List.takeWhile_append_dropWhile (p := fun c : UInt8 => c == 47) (l := x.reverse)
    have hs : ∀ c ∈ x.reverse.takeWhile (· == 47), c = 47 := fun c hc => by simpa using mem_takeWhile_p hc
    have hr := List.eq_replicate_of_mem hs
    have hpos : x.reverse.takeWhile (· == 47) ≠ [] := by
      cases hrev : x.reverse with
      | nil => exact absurd (by simpa using congrArg List.reverse hrev) hx
      | cons a l =>
        rw [hrev] at hlast
        by_cases ha : a = 47
        · simp [ha]
        · simp [ha] at hlast
    obtain ⟨n, hn⟩ : ∃ n, (x.reverse.takeWhile (· == 47)).length = n + 1 := by
      cases h : x.reverse.takeWhile (· == 47) with
      | nil => exact absurd h hpos
      | cons a l => exact ⟨l.length, rfl⟩
    rw [hn] at hr
    have hx' : x = (x.reverse.dropWhile (· == 47)).reverse ++ List.replicate (n + 1) 47 := by
      have := congrArg List.reverse k
      rw [List.reverse_append, List.reverse_reverse, hr, List.reverse_replicate] at this
      exact this.symm
    cases hrest : x.reverse.dropWhile (· == 47) with
    | nil =>
      rw [hrest] at hx'
      exact ⟨[47], Or.inr (Or.inr ⟨n, hx', rfl⟩)⟩
    | cons a l =>
      have ha : a ≠ 47 := by
        have := List.head?_dropWhile_not (fun c : UInt8 => c == 47) x.reverse
        rw [hrest] at this
        simpa using this
      have f := List.takeWhile_append_dropWhile (p := fun c : UInt8 => c != 47) (l := a :: l)
      refine ⟨((a :: l).takeWhile (· != 47)).reverse, Or.inr (Or.inl ⟨((a :: l).dropWhile (· != 47)).reverse, n, ?_, hslash _, ?_, ?_⟩)⟩
      · rw [← List.reverse_append, f, ← hrest]
        exact hx'
      · rw [List.mem_reverse]
        exact h47 _
      · simp [ha]
  · -- a last element
    have g := List.takeWhile_append_dropWhile (p := fun c : UInt8 => c != 46) (l := x.reverse.takeWhile (· != 47))
    cases hdot : (x.reverse.takeWhile (· != 47)).dropWhile (· != 46) with
    | nil =>
      refine ⟨(x.reverse.takeWhile (· != 47)).reverse, Or.inl ⟨_, [], by rw [List.append_nil]; exact he, hslash _, ?_, ?_, Or.inl ⟨rfl, ?_⟩⟩⟩
      · rw [List.mem_reverse]; exact h47 _
      · simpa using hlast
      · rw [List.mem_reverse]
        rw [hdot, List.append_nil] at g
        rw [← g]
        intro h
        have := mem_takeWhile_p h
        simp at this
    | cons a l =>
      have ha : a = 46 := by
        have := List.head?_dropWhile_not (fun c : UInt8 => c != 46) (x.reverse.takeWhile (· != 47))
        rw [hdot] at this
        simpa using this
      subst ha
      rw [hdot] at g
      have hin : ∀ c, c ∈ (x.reverse.takeWhile (· != 47)).takeWhile (· != 46) ++ 46 :: l → c ≠ 47 := by
        rintro c hc rfl
        rw [g] at hc
        exact h47 _ hc
      refine ⟨l.reverse, Or.inl ⟨_, 46 :: ((x.reverse.takeWhile (· != 47)).takeWhile (· != 46)).reverse, ?_, hslash x.reverse, ?_, by simp,
        Or.inr ⟨_, rfl, ?_, ?_⟩⟩⟩
      · have := congrArg List.reverse g
        rw [List.reverse_append, List.reverse_cons, List.append_assoc, List.singleton_append] at this
        rw [List.append_assoc, this]
        exact he
      · rw [List.mem_reverse]
        exact fun h => hin _ (by simp [h]) rfl
      · rw [List.mem_reverse]
        intro h
        have := mem_takeWhile_p h
        simp at this
      · rw [List.mem_reverse]
        exact fun h => hin _ (List.mem_append_left _ h) rfl

/-! ### The input -/

theorem inputSays_iff (w : World) (s : List (Bytes × FlagValue)) (file : Bytes) (h : Header) (ts : List TrackEntry) :
    InputSays w s file h ts ↔ ∃ smf, Decodes w s file smf ∧ ¬ Trackless1 smf ∧ smf.ShowsFile h ts := by
  constructor
  · rintro ⟨hf, bytes, mc, hr, hn, hs, ht⟩
    obtain ⟨smf, hd, hsh⟩ := (C143_decoding mc w.spare bytes h ts).2 hs
    exact ⟨smf, ⟨hf, bytes, mc, hr, hn, hd⟩, not_trackless hs hsh ht, hsh⟩
  · rintro ⟨smf, ⟨hf, bytes, mc, hr, hn, hd⟩, ht, hsh⟩
    have hs := (C143_decoding mc w.spare bytes h ts).1 ⟨smf, hd, hsh⟩
    refine ⟨hf, bytes, mc, hr, hn, hs, ?_⟩
    rintro ⟨h1, h2⟩
    obtain ⟨⟨m, m1, m2, _⟩, m3⟩ := hsh
    obtain ⟨_, _, _, _, _, _, hlen, _⟩ := hs
    refine ht ⟨m, m1, by rw [m2.2.2.1]; exact h1, ?_⟩
    rw [← m3, List.length_map, h2] at hlen
    exact List.length_eq_zero_iff.1 hlen

theorem decodes_shows {w : World} {s : List (Bytes × FlagValue)} {file : Bytes} {smf : SMF} (hd : Decodes w s file smf) :
    ∃ h ts, smf.ShowsFile h ts := by
  obtain ⟨_, bytes, mc, _, _, hd⟩ := hd
  obtain ⟨h, ts, _, hs⟩ := C143_total mc w.spare bytes smf hd
  exact ⟨h, ts, hs⟩

/-- A command on a MIDI file succeeds if the file decodes and its work on it succeeds. -/
theorem withFile_success (w : World) (s : List (Bytes × FlagValue)) (f : Bytes) (g : SMF → RunResult) (P : Header → List TrackEntry → Prop)
    (hP : ∀ smf h ts, Decodes w s f smf → smf.ShowsFile h ts → ((g smf).status = .success ↔ P h ts)) :
    (withFile w (middleC s) f g).status = .success ↔ ∃ h ts, InputSays w s f h ts ∧ P h ts := by
  constructor
  · intro hs
    rcases withFile_cases w s f g with ⟨smf, hd, ht, e⟩ | ⟨_, _, h⟩
    · rw [e] at hs
      obtain ⟨h, ts, hsh⟩ := decodes_shows hd
      exact ⟨h, ts, (inputSays_iff w s f h ts).2 ⟨smf, hd, ht, hsh⟩, (hP smf h ts hd hsh).1 hs⟩
    · exact absurd hs h
  · rintro ⟨h, ts, hi, hp⟩
    obtain ⟨smf, hd, ht, hsh⟩ := (inputSays_iff w s f h ts).1 hi
    rw [withFile_ok hd ht]
    exact (hP smf h ts hd hsh).2 hp

theorem emit_success (w : World) (s : List (Bytes × FlagValue)) (o : Outcome Bytes) :
    (emit w (stringFlag s "out") o).status = .success ↔ (∃ b, o = .ok b) ∧ OutputFree w s := by
  by_cases hc : CanCreate w s
  · rw [(emit_status w s o).1 hc]
    have : OutputFree w s := hc
    cases o <;> simp [statusOf, this]
  · rw [(emit_status w s o).2 hc]
    exact ⟨fun h => (by cases h), fun h => absurd h.2 hc⟩

theorem save_success (w : World) (s : List (Bytes × FlagValue)) (o : Outcome Bytes) :
    (save w (stringFlag s "out") o).status = .success ↔ (∃ b, o = .ok b) ∧ OutputFree w s := by
  cases o with
  | ok b =>
    by_cases hc : CanCreate w s
    · rw [(save_status w s b).1 hc]
      exact ⟨fun _ => ⟨⟨b, rfl⟩, hc⟩, fun _ => rfl⟩
    · rw [(save_status w s b).2 hc]
      exact ⟨fun h => (by cases h), fun h => absurd h.2 hc⟩
  | err e => simp [save, statusOf]
  | panic => simp [save, statusOf]
  | diverge => simp [save, statusOf]

/-! ### Commands -/

theorem timeable_iff {smf : SMF} {h : Header} {ts : List TrackEntry}
    (hs : smf.ShowsFile h ts) : Timeable h ts ↔ ¬ Untimeable smf := by
  obtain ⟨⟨m, m1, m2, _⟩, rfl⟩ := hs
  have hdiv : m.division.toNat = h.division := m2.2.2.2.2.1
  unfold Timeable Untimeable
  cases ht : smf.tracks with
  | nil => simp
  | cons t0 rest =>
    have htempo : tempoChanges t0.entry = [] ↔ ¬ HasTempo t0 := by
      rw [tempoChanges, List.filterMap_eq_nil_iff]
      simp only [HasTempo, MTrk.entry, List.mem_map, forall_exists_index, and_imp, forall_apply_eq_imp_iff₂, not_exists, not_and]
      refine forall_congr' fun e => forall_congr' fun _ => ?_
      rw [Option.map_eq_none_iff, Event.entry]
      cases hb : e.body <;> simp [Body.view, setsTempo]
    have hev : (∀ t ∈ rest.map MTrk.entry, t.events = []) ↔ ∀ t ∈ rest, t.events = [] := by
      simp only [List.mem_map, forall_exists_index, and_imp, forall_apply_eq_imp_iff₂, MTrk.entry, List.map_eq_nil_iff]
    constructor
    · rintro ⟨t0', rest', e, hc⟩ (h0 | ⟨m', t0'', rest'', t, e1, e2, e3, e4, e5⟩)
      · cases h0
      · rw [List.map_cons] at e
        injection e with ea eb
        subst ea; subst eb
        injection e3 with ea eb
        subst ea; subst eb
        rw [m1] at e1
        injection e1 with e1
        subst e1
        rcases hc with hc | hc | ⟨hc, hc'⟩
        · omega
        · rw [List.map_eq_nil_iff] at hc
          rw [hc] at e4
          cases e4
        · rcases e5 with e5 | e5
          · exact e5 (hev.1 hc t e4)
          · exact htempo.1 hc' e5
    · intro hu
      refine ⟨t0.entry, rest.map MTrk.entry, rfl, ?_⟩
      by_cases hc : 0 < h.division ∧ h.division < 32768
      · exact Or.inl hc
      · right
        cases hr : rest with
        | nil => exact Or.inl rfl
        | cons t1 rest' =>
          right
          rw [← hr, hev, htempo]
          have hno : ∀ t ∈ rest, ¬ (t.events ≠ [] ∨ HasTempo t0) := by
            intro t htm hx
            exact hu (Or.inr ⟨m, t0, rest, t, m1, by omega, rfl, htm, hx⟩)
          refine ⟨fun t htm => ?_, fun hx => hno t1 (by rw [hr]; exact List.mem_cons_self) (Or.inr hx)⟩
          exact Decidable.byContradiction fun hne => hno t htm (Or.inl hne)

/-- The delimiter: the values can be written exactly if it is a character other than a quote, a line end, NUL and the replacement character. -/
theorem writeDelimited_ok (header : List Bytes) (recs : List (List Bytes)) (c : Nat) :
    (∃ b, writeDelimited header recs c = .ok b) ↔ c ∉ [0, 10, 13, 34, 0xfffd] := by
  constructor
  · rintro ⟨b, hb⟩ hc
    have : writeDelimited header recs c = .err .other := by
      simp only [List.mem_cons, List.not_mem_nil, or_false] at hc
      rcases hc with rfl | rfl | rfl | rfl | rfl <;> rfl
    rw [this] at hb
    cases hb
  · intro hc
    simp only [List.mem_cons, List.not_mem_nil, or_false, not_or] at hc
    unfold writeDelimited
    split
    · rename_i hlt
      unfold writeTSV
      have hn : ∀ k, k < 128 → c ≠ k → UInt8.ofNat c ≠ UInt8.ofNat k := by
        intro k hk hne h
        have := congrArg UInt8.toNat h
        simp only [UInt8.toNat_ofNat'] at this
        omega
      rw [if_neg]
      · exact ⟨_, rfl⟩
      · have h0 := hn 0 (by omega) hc.1
        have h1 := hn 10 (by omega) hc.2.1
        have h2 := hn 13 (by omega) hc.2.2.1
        have h3 := hn 34 (by omega) hc.2.2.2.1
        have e0 : UInt8.ofNat 0 = 0 := rfl
        have e1 : UInt8.ofNat 10 = 10 := rfl
        have e2 : UInt8.ofNat 13 = 13 := rfl
        have e3 : UInt8.ofNat 34 = 34 := rfl
        rw [e0] at h0; rw [e1] at h1; rw [e2] at h2; rw [e3] at h3
        simp [h0, h1, h2, h3]
    · rw [if_neg (show ¬ c = runeError from hc.2.2.2.2)]
      exact ⟨_, rfl⟩

theorem first_char (d : Bytes) (c : Nat) (hc : (runes d).head? = some c) (hne : c ≠ 0xfffd) :
    ∃ ch : Char, ch.val.toNat = c ∧ ∃ rest, d = String.utf8EncodeChar ch ++ rest := by
  cases d with
  | nil => cases hc
  | cons b rest =>
    rw [runes_cons, List.head?_cons] at hc
    injection hc with hc
    obtain ⟨ch, hch⟩ := exists_char (decodeRune_scalar b rest)
    refine ⟨ch, hch.trans hc, ?_⟩
    rcases decodeRune_valid b rest with ⟨h, _⟩ | ⟨t, h1, h2⟩
    · rw [h] at hc
      exact absurd hc.symm hne
    · refine ⟨rest.drop (decodeRune b rest).2, ?_⟩
      rw [← encodeRune_char, hch, ← h2, List.cons_append, ← h1]

theorem refused_chars (d : Char) : d ∉ ['\x00', '\n', '\r', '"', '�'] ↔ d.val.toNat ∉ [0, 10, 13, 34, 0xfffd] := by
  have hch : ∀ c : Char, d = c ↔ d.val.toNat = c.val.toNat := fun c => ⟨fun h => by rw [h], fun h => Char.ext (UInt32.toNat_inj.1 h)⟩
  simp only [List.mem_cons, List.not_mem_nil, or_false, hch]
  exact Iff.rfl

theorem tsv_text (s : List (Bytes × FlagValue)) (recs : List (List Bytes)) :
    (∃ b, (if stringFlag s "out" = [] ∨ boolFlag s "tabular" = true then Outcome.ok (writeTable recs)
       else if stringFlag s "delimiter" = [] ∨ stringFlag s "delimiter" = str "\\t" then writeDelimited tsvHeader recs 9
       else writeDelimited tsvHeader recs ((runes (stringFlag s "delimiter")).headD 0)) = .ok b) ↔
    (NoText s "out" ∨ Given s "tabular" (.bool true) ∨ ∃ d, ValuesApart s d ∧ d ∉ ['\x00', '\n', '\r', '"', '�']) := by
  have hbs : str "\\t" = [92, 116] := by decide +kernel
  by_cases h1 : stringFlag s "out" = [] ∨ boolFlag s "tabular" = true
  · rw [if_pos h1]
    refine ⟨fun _ => ?_, fun _ => ⟨_, rfl⟩⟩
    rcases h1 with h | h
    · exact Or.inl (out_empty.1 h)
    · exact Or.inr (Or.inl ((boolFlag_given s _).1 h))
  · rw [if_neg h1]
    have n1 : ¬ NoText s "out" := fun h => h1 (Or.inl (out_empty.2 h))
    have n2 : ¬ Given s "tabular" (.bool true) := fun h => h1 (Or.inr ((boolFlag_given s _).2 h))
    have hdel : ∀ d, d ≠ [] → (stringFlag s "delimiter" = d ↔ Given s "delimiter" (.string d)) := by
      intro d hd
      constructor
      · intro h
        have := stringFlag_given s "delimiter" (by rw [h]; exact hd)
        rwa [h] at this
      · exact stringFlag_eq s _ _
    simp only [n1, n2, false_or]
    by_cases h2 : stringFlag s "delimiter" = [] ∨ stringFlag s "delimiter" = str "\\t"
    · rw [if_pos h2]
      refine ⟨fun _ => ⟨'\t', ?_, by decide⟩, fun _ => (writeDelimited_ok _ _ _).2 (by decide)⟩
      rcases h2 with h | h
      · exact Or.inl ⟨out_empty.1 h, rfl⟩
      · exact Or.inr (Or.inl ⟨(hdel _ (by rw [hbs]; simp)).1 h, rfl⟩)
    · rw [if_neg h2, writeDelimited_ok]
      rw [not_or] at h2
      constructor
      · intro hc
        cases hr : (runes (stringFlag s "delimiter")).head? with
        | none =>
          cases hs : stringFlag s "delimiter" with
          | nil => exact absurd hs h2.1
          | cons b rest => rw [hs, runes_cons] at hr; cases hr
        | some c =>
          have hc' : (runes (stringFlag s "delimiter")).headD 0 = c := by rw [List.headD_eq_head?_getD, hr]; rfl
          rw [hc'] at hc
          obtain ⟨ch, e1, rest, e2⟩ := first_char _ c hr (by rintro rfl; exact hc (by decide))
          subst e1
          refine ⟨ch, Or.inr (Or.inr ⟨rest, (hdel _ ?_).1 e2, e2 ▸ h2.2⟩), (refused_chars ch).2 hc⟩
          rw [← e2]; exact h2.1
      · rintro ⟨d, hd, hc⟩
        rw [refused_chars] at hc
        rcases hd with ⟨h, _⟩ | ⟨h, _⟩ | ⟨rest, h, _⟩
        · exact absurd (out_empty.2 h) h2.1
        · exact absurd (stringFlag_eq s _ _ h) h2.2
        · rw [stringFlag_eq s _ _ h, ← encodeRune_char, runes_encode_append _ (char_scalar d)]
          exact hc

theorem splitTracks_success (w : World) (fresh : Bool) (p : Printer) (dir base : Bytes) (ts : List MTrk) :
    (splitTracks w fresh p dir base ts).2 = .success ↔
      ∀ t ∈ ts, mayCreate w fresh (joinPath dir (base ++ str "-" ++ dec t.trackNumber ++ str ".MTrk")) = true := by
  induction ts with
  | nil => simp [splitTracks]
  | cons t ts ih =>
    rw [splitTracks]
    simp only [List.mem_cons, forall_eq_or_imp]
    split
    · rename_i h
      simp only [h, true_and]
      exact ih
    · rename_i h
      exact ⟨fun hh => (by cases hh), fun hh => absurd hh.1 h⟩

theorem split_success (w : World) (s : List (Bytes × FlagValue)) (file : Bytes) (p : Printer) (smf : SMF) (hd : Decodes w s file smf) :
    (separate w (stringFlag s "out") p smf (if stringFlag s "out" = [] then file else stringFlag s "out")).status = .success ↔
      SplitFree w s file smf.tracks.length := by
  obtain ⟨hfile, bytes, mc, _, _, hdec⟩ := id hd
  -- the tracks are numbered
  have hnum : ∀ P : Nat → Prop, (∀ t ∈ smf.tracks, P t.trackNumber) ↔ ∀ i, i < smf.tracks.length → P i := by
    intro P
    constructor
    · intro h i hi
      have := h _ (List.getElem_mem hi)
      rwa [decoded_numbers hdec i _ (List.getElem?_eq_getElem hi)] at this
    · intro h t ht
      obtain ⟨i, hi, e⟩ := List.getElem_of_mem ht
      have := decoded_numbers hdec i t (by rw [List.getElem?_eq_getElem hi, e])
      rw [this]
      exact h i hi
  -- where and under which name
  let x := if stringFlag s "out" = [] then file else stringFlag s "out"
  let dir := if stringFlag s "out" = [] then dirPath file else stringFlag s "out"
  have hxne : x ≠ [] := by
    show (if stringFlag s "out" = [] then file else stringFlag s "out") ≠ []
    split
    · exact hfile
    · assumption
  obtain ⟨base, hbase⟩ := splitStem_exists x hxne
  have hx : ∀ y, NamedAfter s file y ↔ y = x := by
    intro y
    show _ ↔ y = if stringFlag s "out" = [] then file else stringFlag s "out"
    unfold NamedAfter
    rw [out_given, ← out_empty]
    by_cases h : stringFlag s "out" = []
    · rw [if_pos h]
      constructor
      · rintro (⟨h1, h2⟩ | ⟨_, h2⟩)
        · exact absurd (h2.symm.trans h) h1
        · exact h2
      · exact fun e => Or.inr ⟨h, e⟩
    · rw [if_neg h]
      constructor
      · rintro (⟨_, h2⟩ | ⟨h1, _⟩)
        · exact h2.symm
        · exact absurd h1 h
      · exact fun e => Or.inl ⟨e ▸ h, e.symm⟩
  have hdir : ∀ y, SplitDirectory s file y ↔ y = dir := by
    intro y
    show _ ↔ y = if stringFlag s "out" = [] then dirPath file else stringFlag s "out"
    unfold SplitDirectory
    rw [out_given, ← out_empty]
    by_cases h : stringFlag s "out" = []
    · rw [if_pos h]
      constructor
      · rintro (⟨h1, h2⟩ | ⟨_, h2⟩)
        · exact absurd (h2.symm.trans h) h1
        · exact h2
      · exact fun e => Or.inr ⟨h, e⟩
    · rw [if_neg h]
      constructor
      · rintro (⟨_, h2⟩ | ⟨h1, _⟩)
        · exact h2.symm
        · exact absurd h1 h
      · exact fun e => Or.inl ⟨e ▸ h, e.symm⟩
  have hdx : (if stringFlag s "out" = [] then dirPath x else stringFlag s "out") = dir := by
    show (if stringFlag s "out" = [] then dirPath (if stringFlag s "out" = [] then file else stringFlag s "out") else stringFlag s "out") =
      if stringFlag s "out" = [] then dirPath file else stringFlag s "out"
    split <;> rfl
  have hod : Output s dir ↔ stringFlag s "out" ≠ [] := by
    rw [out_given]
    show _ ∧ stringFlag s "out" = (if stringFlag s "out" = [] then dirPath file else stringFlag s "out") ↔ _
    by_cases h : stringFlag s "out" = []
    · refine ⟨fun hh => ?_, fun hh => absurd h hh⟩
      rw [if_pos h] at hh
      exact absurd (hh.2.symm.trans h) (dirPath_ne _)
    · refine ⟨fun _ => h, fun _ => ?_⟩
      rw [if_neg h]
      exact ⟨by show (if stringFlag s "out" = [] then dirPath file else stringFlag s "out") ≠ []; rw [if_neg h]; exact h, rfl⟩
  have hfree : SplitFree w s file smf.tracks.length ↔
      (stringFlag s "out" ≠ [] → w.mkdirAll dir = true ∧ (w.isDir dir = true ∨ w.superuser = true)) ∧
      w.create (joinPath dir (base ++ str ".MThd")) = true ∧
      ∀ i, i < smf.tracks.length → w.create (joinPath dir (base ++ str "-" ++ dec i ++ str ".MTrk")) = true := by
    constructor
    · rintro ⟨dir', x', base', h1, h2, h3, h4, h5⟩
      rw [hdir] at h1
      rw [hx] at h2
      subst h1; subst h2
      have : base' = base := by rw [← split_stem h3, ← split_stem hbase]
      subst this
      rw [hod] at h4
      exact ⟨h4, h5⟩
    · rintro ⟨h4, h5⟩
      exact ⟨dir, x, base, (hdir _).2 rfl, (hx _).2 rfl, hbase, fun h => h4 (hod.1 h), h5⟩
  rw [hfree]
  have hbase' := split_stem hbase
  have hmay : ∀ name, mayCreate w (decide (stringFlag s "out" ≠ []) && !w.isDir dir) name = true ↔
      w.create name = true ∧ (stringFlag s "out" ≠ [] → w.isDir dir = true ∨ w.superuser = true) := by
    intro name
    unfold mayCreate
    by_cases h : stringFlag s "out" = [] <;> cases w.isDir dir <;> cases w.superuser <;> simp [h]
  unfold separate
  simp only
  show (if _ then _ else _ : RunResult).status = _ ↔ _
  rw [show (if stringFlag s "out" = [] then file else stringFlag s "out") = x from rfl, hdx, hbase']
  by_cases hm : stringFlag s "out" ≠ [] ∧ w.mkdirAll dir = false
  · rw [if_pos hm]
    refine ⟨fun h => (by cases h), fun h => ?_⟩
    have := (h.1 hm.1).1
    rw [hm.2] at this
    cases this
  · rw [if_neg hm]
    have hm' : stringFlag s "out" ≠ [] → w.mkdirAll dir = true := by
      intro h
      cases hk : w.mkdirAll dir with
      | true => rfl
      | false => exact absurd ⟨h, hk⟩ hm
    by_cases hh : mayCreate w (decide (stringFlag s "out" ≠ []) && !w.isDir dir) (joinPath dir (base ++ str ".MThd")) = true
    · rw [if_pos hh]
      show (splitTracks w _ p dir base smf.tracks).2 = _ ↔ _
      rw [splitTracks_success, hnum (fun i => mayCreate w _ (joinPath dir (base ++ str "-" ++ dec i ++ str ".MTrk")) = true)]
      rw [hmay] at hh
      constructor
      · intro h
        exact ⟨fun ho => ⟨hm' ho, hh.2 ho⟩, hh.1, fun i hi => ((hmay _).1 (h i hi)).1⟩
      · rintro ⟨_, _, h⟩ i hi
        exact (hmay _).2 ⟨h i hi, hh.2⟩
    · rw [if_neg hh]
      refine ⟨fun h => (by cases h), fun h => absurd ((hmay _).2 ⟨h.2.1, fun ho => (h.1 ho).2⟩) hh⟩

theorem document_success {w : World} {s : List (Bytes × FlagValue)} {file : Bytes} {smf : SMF} (hd : Decodes w s file smf) :
    (writeDocument w (stringFlag s "out") builtin smf).status = .success ↔ OutputFree w s := by
  obtain ⟨_, bytes, mc, _, _, hdec⟩ := id hd
  obtain ⟨text, htext⟩ := C84_decoded_prints mc w.spare bytes smf hdec
  show _ ↔ CanCreate w s
  rw [canCreate_iff]
  have hb : builtin.document smf = (text, true) := by
    show (match printSMF smf with | .ok t => (t, true) | _ => ([], false)) = _
    rw [htext]
  unfold writeDocument
  rw [hb]
  by_cases h1 : stringFlag s "out" = []
  · simp [h1]
  · cases h2 : w.create (stringFlag s "out") <;> simp [h1, h2]

theorem assembled_iff (w : World) (s : List (Bytes × FlagValue)) (file : Bytes) (b : Bytes) :
    InputStands w file b ↔ ∃ text, w.file file = some text ∧
      (if extPath file = str ".json" then assembleJsonText (middleC s) text else assembleText Lib.manufacturers text) = .ok b := by
  unfold InputStands
  constructor
  · rintro ⟨hf, text, hr, h⟩
    refine ⟨text, file_some.2 ⟨hf, hr⟩, ?_⟩
    rcases h with ⟨h1, h2⟩ | ⟨h1, h2⟩
    · rw [if_pos ((json_suffix file).2 h1)]
      exact (C138_json_text _ text b).2 h2
    · rw [if_neg fun h => h1 ((json_suffix file).1 h)]
      exact (C135_assembled_file _ text b).2 h2
  · rintro ⟨text, hr, h⟩
    rw [file_some] at hr
    refine ⟨hr.1, text, hr.2, ?_⟩
    by_cases he : extPath file = str ".json"
    · rw [if_pos he] at h
      exact Or.inl ⟨(json_suffix file).1 he, (C138_json_text _ text b).1 h⟩
    · rw [if_neg he] at h
      exact Or.inr ⟨fun hh => he ((json_suffix file).2 hh), (C135_assembled_file _ text b).1 h⟩

theorem execute_success (w : World) (c : Command) (s : List (Bytes × FlagValue)) (r : List Bytes) (hp : c = .disassemble → NoText s "templates") :
    (execute w c s r).status = .success ↔ Succeeds w c s (r.headD []) := by
  cases c with
  | help => exact ⟨fun _ => trivial, fun _ => rfl⟩
  | version => exact ⟨fun _ => trivial, fun _ => rfl⟩
  | humanise =>
    refine ⟨fun h => ?_, fun h => h.elim⟩
    simp only [execute, runHumanise, withFile] at h
    split at h
    · cases h
    · rename_i o hno
      revert h hno
      cases load w (if boolFlag s "C4" = true then MiddleC.c4 else MiddleC.c3) (r.headD []) <;> simp [statusOf]
  | assemble =>
    simp only [execute, runAssemble, ← middleC.eq_def, Succeeds]
    cases hf : w.file (r.headD []) with
    | none =>
      refine ⟨fun h => (by cases h), fun h => ?_⟩
      obtain ⟨⟨b, hb⟩, _⟩ := h
      obtain ⟨text, ht, _⟩ := (assembled_iff w s _ b).1 hb
      rw [hf] at ht
      cases ht
    | some text =>
      simp only
      rw [save_success]
      refine and_congr_left fun _ => exists_congr fun b => ?_
      rw [assembled_iff w s, hf]
      exact ⟨fun h => ⟨text, rfl, h⟩, fun ⟨text', e, h⟩ => by injection e with e; rw [e]; exact h⟩
  | export_ =>
    simp only [execute, runExport, ← middleC.eq_def, Succeeds]
    rw [withFile_success w s _ _ (fun _ _ => OutputFree w s)]
    · simp only [← exists_and_right]
    · intro smf h ts _ _
      rw [emit_success]
      exact ⟨fun h => h.2, fun h => ⟨⟨_, rfl⟩, h⟩⟩
  | transpose =>
    simp only [execute, runTranspose, ← middleC.eq_def, Succeeds]
    rw [withFile_success w s _ _ (fun _ _ => OutputFree w s)]
    · simp only [← exists_and_right]
    · intro smf h ts hd _
      obtain ⟨_, bytes, mc, _, _, hdec⟩ := hd
      obtain ⟨bs, hb⟩ := transposeExecute_total (mc' := middleC s) hdec (intFlag s "semitones")
      rw [save_success, hb]
      exact ⟨fun h => h.2, fun h => ⟨⟨_, rfl⟩, h⟩⟩
  | notes =>
    simp only [execute, runNotes, ← middleC.eq_def, Succeeds]
    rw [withFile_success w s _ _ (fun h ts => Timeable h ts ∧ OutputFree w s)]
    · simp only [← exists_and_right, and_assoc]
    · intro smf h ts hd hs
      obtain ⟨_, bytes, mc, _, _, hdec⟩ := hd
      obtain ⟨n1, n2⟩ := extractNotes_total (mc' := middleC s) hdec w.order (intFlag s "transpose")
      rw [emit_success, timeable_iff hs]
      refine and_congr_left fun _ => ?_
      by_cases hu : Untimeable smf
      · rw [n1 hu]
        simp [Outcome.bind_panic, hu]
      · obtain ⟨ns, h⟩ := n2 hu
        rw [h]
        simp [hu]
  | click =>
    simp only [execute, runClick, ← middleC.eq_def, Succeeds]
    rw [withFile_success w s _ _ (fun h ts => ts ≠ [] ∧ OutputFree w s)]
    · simp only [← exists_and_right, and_assoc]
    · intro smf h ts hd hs
      obtain ⟨⟨m, hm, _⟩, rfl⟩ := hs
      obtain ⟨c1, c2⟩ := C77_click_silent smf m hm
      show _ ↔ _ ∧ CanCreate w s
      by_cases hcc : CanCreate w s
      · have : ¬ (stringFlag s "out" ≠ [] ∧ w.create (stringFlag s "out") = false) := by
          rcases (canCreate_iff w s).mp hcc with h | h <;> simp [h]
        rw [if_neg this]
        by_cases hu : smf.tracks = []
        · rw [c2 hu]
          simp [statusOf, hcc, hu]
        · rw [c1 hu]
          simp [hu, hcc]
      · have : stringFlag s "out" ≠ [] ∧ w.create (stringFlag s "out") = false := by
          rw [canCreate_iff, not_or, Bool.not_eq_true] at hcc
          exact hcc
        rw [if_pos this]
        simp [hcc]
  | tsv =>
    simp only [execute, runTsv, ← middleC.eq_def, Succeeds]
    rw [withFile_success w s _ _ (fun _ _ => OutputFree w s ∧
      (NoText s "out" ∨ Given s "tabular" (.bool true) ∨ ∃ d, ValuesApart s d ∧ d ∉ ['\x00', '\n', '\r', '"', '�']))]
    · simp only [← exists_and_right]
    · intro smf h ts _ _
      rw [emit_success, tsv_text, and_comm]
  | disassemble =>
    simp only [execute, runDisassemble, ← middleC.eq_def, Succeeds]
    rw [withFile_success w s _ _ (fun _ ts => (¬ Given s "split" (.bool true) ∧ OutputFree w s) ∨ (Given s "split" (.bool true) ∧
      SplitFree w s (r.headD []) ts.length))]
    intro smf h ts hd hs
    have hpr : printerFor w (stringFlag s "templates") = some builtin := by
      rw [printerFor, if_pos (out_empty.2 (hp rfl))]
    rw [hpr]
    simp only
    have hlen : ts.length = smf.tracks.length := by rw [← hs.2, List.length_map]
    by_cases hsp : Given s "split" (.bool true)
    · rw [if_pos ((boolFlag_given s _).2 hsp), split_success w s _ _ _ hd, hlen]
      simp [hsp]
    · rw [if_neg (by rw [not_flag hsp]; decide), document_success hd]
      simp [hsp]

/-- **C157.** The program ends normally exactly if the command line invokes a command with options that it has, and the command does what it
is asked to.  Nothing in this statement but the parts of the environment refers to the model.  (With the built in templates.) -/
theorem C157_success (w : World) (argv : List Bytes)
    (hp : ∀ args s r, Invokes .disassemble args argv → CommandLine (options .disassemble) args s r → NoText s "templates") :
    (midiasm w argv).status = .success ↔
      ∃ c args s r, Invokes c args argv ∧ CommandLine (options c) args s r ∧ Succeeds w c s (r.headD []) := by
  constructor
  · intro h
    obtain ⟨c, args, hi⟩ := invokes_exists argv
    cases hpar : parseFlags (commandFlags c) args with
    | ok s r =>
      have hl := (parse_iff c args s r).mp hpar
      rw [midiasm_runs hi hl] at h
      exact ⟨c, args, s, r, hi, hl, (execute_success w c s r (by rintro rfl; exact hp args s r hi hl)).1 h⟩
    | help => rw [midiasm_invoked hi, hpar] at h; cases h
    | bad => rw [midiasm_invoked hi, hpar] at h; cases h
  · rintro ⟨c, args, s, r, hi, hl, h⟩
    rw [midiasm_runs hi hl]
    exact (execute_success w c s r (by rintro rfl; exact hp args s r hi hl)).2 h

/-- **C157.** What the command `assemble` writes: the file that the text or the JSON text stands for. -/
theorem C157_assemble (w : World) (args argv : List Bytes) (s : List (Bytes × FlagValue)) (r : List Bytes) (hi : Invokes .assemble args argv)
    (hl : CommandLine (options .assemble) args s r) :
    (∀ b, InputStands w (r.headD []) b → Saves w s b (midiasm w argv)) ∧
    ((∀ b, ¬ InputStands w (r.headD []) b) → (midiasm w argv).files = [] ∧ (midiasm w argv).stdout = [] ∧ (midiasm w argv).status ≠ .success) := by
  rw [midiasm_runs hi hl]
  simp only [execute, runAssemble, ← middleC.eq_def]
  constructor
  · intro b hb
    obtain ⟨text, ht, h⟩ := (assembled_iff w s _ b).1 hb
    rw [ht]
    simp only
    rw [h]
    exact save_saves w s b
  · intro hb
    cases hf : w.file (r.headD []) with
    | none => exact ⟨rfl, rfl, by simp⟩
    | some text =>
      simp only
      have hno : ∀ b, (if extPath (r.headD []) = str ".json" then assembleJsonText (middleC s) text else assembleText Lib.manufacturers text) ≠ .ok b :=
        fun b h => hb b ((assembled_iff w s _ b).2 ⟨text, hf, h⟩)
      revert hno
      generalize (if extPath (r.headD []) = str ".json" then assembleJsonText (middleC s) text else assembleText Lib.manufacturers text) = o
      intro hno
      cases o with
      | ok b => exact absurd rfl (hno b)
      | err e => simp [save, statusOf]
      | panic => simp [save, statusOf]
      | diverge => simp [save, statusOf]

/-! ### Runs -/

/-- `midiasm disassemble --split --out parts in.mid` succeeds, because the directory is there; into a directory that is not there
(`--out bits/`) it fails. -/
example : (midiasm demo [str "disassemble", str "--split", str "--out", str "parts", str "in.mid"]).status = .success ∧
    (midiasm demo [str "disassemble", str "--split", str "--out", str "bits/", str "in.mid"]).status ≠ .success := by
  have hl : ∀ d : Bytes, d = str "parts" ∨ d = str "bits/" → CommandLine (options .disassemble) [str "--split", str "--out", d, str "in.mid"]
      [(str "split", .bool true), (str "out", .string d)] [str "in.mid"] := by
    rintro d (rfl | rfl) <;> exact by_parse (by decide +kernel)
  have hone : ∀ d : Bytes, d = str "parts" ∨ d = str "bits/" → ∀ c args s r,
      Invokes c args [str "disassemble", str "--split", str "--out", d, str "in.mid"] → CommandLine (options c) args s r →
      c = .disassemble ∧ s = [(str "split", .bool true), (str "out", .string d)] ∧ r = [str "in.mid"] := by
    intro d hd c args s r hi hc
    have h1 := (select_invoked (c := .disassemble) (args := [str "--split", str "--out", d, str "in.mid"]) (Or.inl rfl)).symm.trans (select_invoked hi)
    injection h1 with h1 h2
    subst h1; subst h2
    have h3 := (parse_iff _ _ _ _).mpr hc
    rw [(parse_iff _ _ _ _).mpr (hl d hd)] at h3
    injection h3 with h3 h4
    exact ⟨rfl, h3.symm, h4.symm⟩
  have hp : ∀ d : Bytes, d = str "parts" ∨ d = str "bits/" → NoText [(str "split", .bool true), (str "out", .string d)] "templates" := by
    rintro d (rfl | rfl) <;> exact out_empty.mp (by decide +kernel)
  have ho : ∀ d : Bytes, d = str "parts" ∨ d = str "bits/" → Output [(str "split", .bool true), (str "out", .string d)] d := by
    rintro d (rfl | rfl) <;> exact out_given.mpr ⟨by decide +kernel, by decide +kernel⟩
  have hs : ∀ d : Bytes, Given [(str "split", .bool true), (str "out", .string d)] "split" (.bool true) := by
    intro d
    refine ⟨[], _, rfl, ?_⟩
    intro p hp
    rw [List.mem_singleton] at hp
    rw [hp]
    show str "out" ≠ str "split"
    decide +kernel
  constructor
  · rw [C157_success demo _ (fun args s r hi hc => by
      obtain ⟨_, e, _⟩ := hone _ (Or.inl rfl) _ args s r hi hc
      rw [e]
      exact hp _ (Or.inl rfl))]
    obtain ⟨smf, _, h1, _, _, hne, _⟩ := plain_decoded
    obtain ⟨h, ts, hsh⟩ := decodes_shows (demo_decodes (s := [(str "split", .bool true), (str "out", .string (str "parts"))])
      (not_given (by decide +kernel)) h1)
    refine ⟨.disassemble, _, _, _, Or.inl rfl, hl _ (Or.inl rfl), h, ts, (inputSays_iff _ _ _ _ _).2 ⟨smf, demo_decodes
      (not_given (by decide +kernel)) h1, fun ⟨_, _, _, h⟩ => hne h, hsh⟩, Or.inr ⟨hs _, ?_⟩⟩
    exact ⟨str "parts", str "parts", str "parts", Or.inl (ho _ (Or.inl rfl)), Or.inl (ho _ (Or.inl rfl)),
      Or.inl ⟨[], [], by simp, Or.inl rfl, by decide +kernel, by decide +kernel, Or.inl ⟨rfl, by decide +kernel⟩⟩,
      fun _ => ⟨rfl, Or.inl (by decide +kernel)⟩, rfl, fun _ _ => rfl⟩
  · rw [ne_eq, C157_success demo _ (fun args s r hi hc => by
      obtain ⟨_, e, _⟩ := hone _ (Or.inr rfl) _ args s r hi hc
      rw [e]
      exact hp _ (Or.inr rfl))]
    rintro ⟨c, args, s, r, hi, hc, h⟩
    obtain ⟨rfl, rfl, rfl⟩ := hone _ (Or.inr rfl) c args s r hi hc
    obtain ⟨_, _, _, ⟨h1, _⟩ | ⟨_, dir, x, base, k1, _, _, k4, _⟩⟩ := h
    · exact h1 (hs _)
    · have hd : dir = str "bits/" := by
        rcases k1 with k | ⟨k, _⟩
        · obtain ⟨_, e⟩ := out_given.mp k
          rw [← e]
          decide +kernel
        · exact absurd (k _ (ho _ (Or.inr rfl)).2) (by decide +kernel)
      subst hd
      exact absurd (k4 (ho _ (Or.inr rfl))).2 (by decide +kernel)

/-- C157: a name that ends in a slash, and the files of `--out bits/`. -/
example : SplitStem (str "a.b/bits.x/") (str "bits.x") ∧ Stem (str "a.b/bits.x") (str "bits") ∧ str ".json" <:+ str "a/b.json" := by
  refine ⟨Or.inr (Or.inl ⟨str "a.b/", 0, by decide +kernel, Or.inr ⟨str "a.b", by decide +kernel⟩, by decide +kernel, by decide +kernel⟩), ?_, ?_⟩
  · exact ⟨str "a.b/", str ".x", by decide +kernel, Or.inr ⟨str "a.b", by decide +kernel⟩, by decide +kernel, by decide +kernel,
      Or.inr ⟨str "x", by decide +kernel, by decide +kernel, by decide +kernel⟩⟩
  · exact ⟨str "a/b", by decide +kernel⟩

end Midiasm
