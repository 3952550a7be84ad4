import Verif.Props.Commands
import Verif.Lemmas.Paths

/-!
Disassembling into separate files (commands/disassemble.go:111-153).
-/

set_option linter.unusedSimpArgs false

namespace Midiasm
open Spec

theorem stem_eq {x b : Bytes} (h : Stem x b) : trimSuffix (basePath x) (extPath x) = b := by
  obtain ⟨dir, ext, rfl, hdir, hb, hne, hext⟩ := h
  have hext47 : 47 ∉ ext := by
    rcases hext with ⟨rfl, _⟩ | ⟨e, rfl, _, h⟩
    · simp
    · simp only [List.mem_cons, not_or]
      exact ⟨by decide, h⟩
  have h47 : 47 ∉ b ++ ext := by
    simp only [List.mem_append, not_or]
    exact ⟨hb, hext47⟩
  have hall : ∀ c ∈ (b ++ ext).reverse, (c != 47) = true := by
    intro c hc
    simp only [List.mem_reverse] at hc
    simp only [bne_iff_ne]
    rintro rfl
    exact h47 hc
  have hrev : (dir ++ b ++ ext).reverse = (b ++ ext).reverse ++ dir.reverse := by simp
  have hdirtw : dir.reverse.takeWhile (· != 47) = [] := by
    rcases hdir with rfl | ⟨d, rfl⟩ <;> simp
  have hlast : (dir ++ b ++ ext).reverse.takeWhile (· != 47) = (b ++ ext).reverse := by
    rw [hrev, List.takeWhile_append_of_pos hall, hdirtw, List.append_nil]
  have hbase : basePath (dir ++ b ++ ext) = b ++ ext := by
    have hne' : dir ++ b ++ ext ≠ [] := by
      intro h
      simp only [List.append_eq_nil_iff] at h
      exact hne (by simp [h.1.2, h.2])
    have hdw : (dir ++ b ++ ext).reverse.dropWhile (· = 47) = (dir ++ b ++ ext).reverse := by
      rw [hrev]
      cases hr : (b ++ ext).reverse with
      | nil =>
        exfalso
        apply hne
        simpa using congrArg List.reverse hr
      | cons c l =>
        have := hall c (by rw [hr]; simp)
        simp only [bne_iff_ne] at this
        simp [this]
    unfold basePath
    rw [if_neg hne', hdw, hlast, List.reverse_reverse]
    simp only [if_neg hne]
  rw [hbase]
  rcases hext with ⟨rfl, hs⟩ | ⟨e, rfl, he, he47⟩
  · have : extPath (dir ++ b ++ []) = [] := by
      have hd : ∀ c ∈ b.reverse, (c != 46) = true := by
        intro c hc
        simp only [List.mem_reverse] at hc
        simp only [bne_iff_ne]
        rintro rfl
        exact hs hc
      unfold extPath
      rw [hlast]
      have h2 := List.dropWhile_append_of_pos (l₂ := []) hd
      simp only [List.append_nil, List.dropWhile_nil] at h2
      simp [h2]
    rw [this]
    simp [trimSuffix]
  · rw [extPath_dot _ e he47 he]
    simp [trimSuffix]

/-- The texts of the tracks, printed one by one, make up the text of all of them. -/
theorem printTracks_split (ts : List MTrk) (text : Bytes) (h : printTracks ts = .ok text) :
    (ts.map fun t => (builtin.track t).1).flatten = text := by
  induction ts generalizing text with
  | nil =>
    rw [printTracks] at h
    cases h
    rfl
  | cons t ts ih =>
    rw [printTracks] at h
    cases h1 : printMTrk t with
    | ok a =>
      cases h2 : printTracks ts with
      | ok b =>
        rw [h1, h2] at h
        simp only [Outcome.bind_ok] at h
        injection h with h
        rw [List.map_cons, List.flatten_cons, ih b h2, ← h]
        simp [builtin, h1]
      | err e => rw [h1, h2] at h; cases h
      | panic => rw [h1, h2] at h; cases h
      | diverge => rw [h1, h2] at h; cases h
    | err e => rw [h1] at h; cases h
    | panic => rw [h1] at h; cases h
    | diverge => rw [h1] at h; cases h

theorem splitTracks_all (w : World) (fresh : Bool) (p : Printer) (dir base : Bytes) (ts : List MTrk)
    (h : ∀ name, mayCreate w fresh name = true) :
    splitTracks w fresh p dir base ts =
      (ts.map fun t => (joinPath dir (base ++ (str "-" ++ (dec t.trackNumber ++ str ".MTrk"))), (p.track t).1), .success) := by
  induction ts with
  | nil => rfl
  | cons t ts ih =>
    rw [splitTracks]
    simp only [h, if_true, ih, List.map_cons, List.append_assoc]

theorem dec_injective {a b : Nat} (h : dec a = dec b) : a = b := by
  have h1 := digitsValue_dec a
  rw [h, digitsValue_dec b] at h1
  injection h1 with h1
  exact h1.symm

theorem slash_free (a : Nat) : (47 : UInt8) ∉ str "-" ++ (dec a ++ str ".MTrk") := by
  simp only [List.mem_append, not_or]
  refine ⟨by decide +kernel, ?_, by decide +kernel⟩
  intro h
  have := (dec_digits a _ h).1
  revert this
  decide

theorem decoded_numbers {mc : MiddleC} {spare file : Bytes} {smf : SMF} (hd : decode mc spare file = .ok smf) (i : Nat) (t : MTrk)
    (ht : smf.tracks[i]? = some t) : t.trackNumber = i := by
  obtain ⟨_, _, _, _, _, _, h⟩ := decode_ok hd
  obtain ⟨ch, hwf, htag, _, hu⟩ := h i t ht
  exact ((unmarshalMTrk_ok mc spare i ch hwf htag t).1 hu).2.2.1

/-- What a split disassembly does. -/
theorem split_files (w : World) (args argv : List Bytes) (s : List (Bytes × FlagValue)) (r : List Bytes) (hi : Invokes .disassemble args argv)
    (hl : CommandLine (options .disassemble) args s r) (smf : SMF) (hd : Decodes w s (r.headD []) smf) (ht : ¬ Trackless1 smf)
    (hp : NoText s "templates") (hs : Given s "split" (.bool true)) (dir x base : Bytes) (hdir : SplitDirectory s (r.headD []) dir)
    (hx : NamedAfter s (r.headD []) x) (hb : Stem x base) (hc : ∀ name, w.create name = true) (hm : w.mkdirAll dir = true)
    (hex : NoText s "out" ∨ w.isDir dir = true ∨ w.superuser = true) :
    ∃ m, smf.mthd = some m ∧ midiasm w argv = ⟨(joinPath dir (base ++ str ".MThd"), printMThd m) ::
      (smf.tracks.map fun t => (builtin.track t).1).mapIdx (fun i t => (joinPath dir (base ++ (str "-" ++ (dec i ++ str ".MTrk"))), t)), [],
      .success⟩ := by
  obtain ⟨_, bytes, mc, _, _, hdec⟩ := id hd
  obtain ⟨m, _, hmm, _⟩ := decode_ok hdec
  have hsplit : boolFlag s "split" = true := (boolFlag_given s "split").mpr hs
  have hdir' : dir = if stringFlag s "out" = [] then dirPath (r.headD []) else stringFlag s "out" := by
    rcases hdir with h | ⟨h, rfl⟩
    · obtain ⟨h1, h2⟩ := out_given.mp h
      rw [h2, if_neg h1]
    · rw [if_pos (out_empty.mpr h)]
  have hx' : x = if stringFlag s "out" = [] then r.headD [] else stringFlag s "out" := by
    rcases hx with h | ⟨h, rfl⟩
    · obtain ⟨h1, h2⟩ := out_given.mp h
      rw [h2, if_neg h1]
    · rw [if_pos (out_empty.mpr h)]
  have hfresh : ∀ name, mayCreate w (decide (stringFlag s "out" ≠ []) && !w.isDir dir) name = true := by
    intro name
    simp only [mayCreate, hc, Bool.true_and, Bool.or_eq_true]
    rcases hex with h | h | h
    · left
      simp [out_empty.mpr h]
    · left
      simp [h]
    · right
      exact h
  have e : midiasm w argv = ⟨(joinPath dir (base ++ str ".MThd"), printMThd m) ::
      smf.tracks.map fun t => (joinPath dir (base ++ (str "-" ++ (dec t.trackNumber ++ str ".MTrk"))), (builtin.track t).1), [], .success⟩ := by
    rw [midiasm_runs hi hl]
    simp only [execute, runDisassemble, ← middleC.eq_def]
    rw [withFile_ok hd ht]
    simp only [printerFor, out_empty.mpr hp, if_true, hsplit, ← hx', separate]
    have hdx : (if stringFlag s "out" = [] then dirPath x else stringFlag s "out") = dir := by
      rw [hdir']
      by_cases ho : stringFlag s "out" = []
      · simp only [if_pos ho] at hx' ⊢
        rw [hx']
      · simp only [if_neg ho]
    rw [hdx, stem_eq hb, if_neg (by rw [hm]; simp)]
    have := splitTracks_all w (decide (stringFlag s "out" ≠ []) && !w.isDir dir) builtin dir base smf.tracks hfresh
    simp only [hfresh, if_true, this, hmm]
    rfl
  have hfiles : (smf.tracks.map fun t => (joinPath dir (base ++ (str "-" ++ (dec t.trackNumber ++ str ".MTrk"))), (builtin.track t).1)) =
      (smf.tracks.map fun t => (builtin.track t).1).mapIdx
        (fun i t => (joinPath dir (base ++ (str "-" ++ (dec i ++ str ".MTrk"))), t)) := by
    apply List.ext_getElem?
    intro i
    simp only [List.getElem?_map, List.getElem?_mapIdx]
    cases hti : smf.tracks[i]? with
    | none => simp
    | some t => simp [decoded_numbers hdec i t hti]
  exact ⟨m, hmm, by rw [e, hfiles]⟩

/-- C100: a split disassembly writes one file for the header and one for every track, with different names made of the name of the input
or the output directory and the number of the track; one after the other the files make up the whole disassembly.  (Every file can
be created, and the directory exists already.) -/
theorem C100_split (w : World) (args argv : List Bytes) (s : List (Bytes × FlagValue)) (r : List Bytes) (hi : Invokes .disassemble args argv)
    (hl : CommandLine (options .disassemble) args s r) (smf : SMF) (hd : Decodes w s (r.headD []) smf) (ht : ¬ Trackless1 smf)
    (hp : NoText s "templates") (hs : Given s "split" (.bool true)) (dir x base : Bytes) (hdir : SplitDirectory s (r.headD []) dir)
    (hx : NamedAfter s (r.headD []) x) (hb : Stem x base) (hc : ∀ name, w.create name = true) (hm : w.mkdirAll dir = true)
    (hex : NoText s "out" ∨ w.isDir dir = true ∨ w.superuser = true) :
    ∃ (text header : Bytes) (tracks : List Bytes), printSMF smf = .ok text ∧ header ++ tracks.flatten = text ∧ tracks.length = smf.tracks.length ∧
      (midiasm w argv).status = .success ∧ (midiasm w argv).stdout = [] ∧
      (midiasm w argv).files = (joinPath dir (base ++ str ".MThd"), header) ::
        tracks.mapIdx (fun i t => (joinPath dir (base ++ str "-" ++ dec i ++ str ".MTrk"), t)) ∧
      ((midiasm w argv).files.map (·.1)).Nodup := by
  obtain ⟨_, bytes, mc, _, _, hdec⟩ := id hd
  obtain ⟨text, htext⟩ := C84_decoded_prints mc w.spare bytes smf hdec
  have hdne : dir ≠ [] := by
    rcases hdir with h | ⟨_, rfl⟩
    · exact h.1
    · exact dirPath_ne _
  obtain ⟨m, hmm, e⟩ := split_files w args argv s r hi hl smf hd ht hp hs dir x base hdir hx hb hc hm hex
  obtain ⟨tt, htt, hcat⟩ : ∃ tt, printTracks smf.tracks = .ok tt ∧ text = printMThd m ++ tt := by
    rw [printSMF, hmm] at htext
    cases h2 : printTracks smf.tracks with
    | ok b =>
      simp only [h2, Outcome.bind_ok] at htext
      injection htext with htext
      exact ⟨b, rfl, htext.symm⟩
    | err e => simp only [h2] at htext; cases htext
    | panic => simp only [h2] at htext; cases htext
    | diverge => simp only [h2] at htext; cases htext
  refine ⟨text, printMThd m, smf.tracks.map fun t => (builtin.track t).1, htext, ?_, by simp, by rw [e], by rw [e], ?_, ?_⟩
  · rw [printTracks_split _ _ htt, hcat]
  · rw [e]
    simp only [List.append_assoc]
  · rw [e]
    simp only [List.map_cons, List.nodup_cons]
    have hlen : ∀ i, 3 ≤ (str "-" ++ (dec i ++ str ".MTrk")).length := by
      intro i
      simp only [List.length_append, show (str ".MTrk").length = 5 by decide +kernel]
      omega
    constructor
    · intro hmem
      simp only [List.mem_map, List.mem_mapIdx] at hmem
      obtain ⟨_, ⟨i, _, rfl⟩, hh⟩ := hmem
      have := joinPath_injective dir base _ _ hdne (slash_free i) (hlen i) (by decide +kernel) (by decide +kernel) hh
      have hh2 := congrArg List.head? this
      rw [show str "-" = [45] by decide +kernel, show str ".MThd" = [46, 77, 84, 104, 100] by decide +kernel] at hh2
      simp at hh2
    · rw [List.nodup_iff_getElem?_ne_getElem?]
      intro i j hij hj
      simp only [List.length_map, List.length_mapIdx] at hj
      rw [List.getElem?_map, List.getElem?_map, List.getElem?_mapIdx, List.getElem?_mapIdx, List.getElem?_map, List.getElem?_map]
      rw [List.getElem?_eq_getElem (by omega), List.getElem?_eq_getElem hj]
      simp only [Option.map_some]
      intro hh
      injection hh with hh
      have := joinPath_injective dir base _ _ hdne (slash_free i) (hlen i) (slash_free j) (hlen j) hh
      have := List.append_cancel_left this
      have := List.append_cancel_right this
      have := dec_injective this
      omega

/-- C100 is false for a directory that does not exist yet: it is made without permissions, so nothing can be written into it. -/
theorem C100_new_directory_fails (w : World) (args argv : List Bytes) (s : List (Bytes × FlagValue)) (r : List Bytes)
    (hi : Invokes .disassemble args argv) (hl : CommandLine (options .disassemble) args s r) (smf : SMF) (hd : Decodes w s (r.headD []) smf)
    (ht : ¬ Trackless1 smf) (hp : NoText s "templates") (hs : Given s "split" (.bool true)) (dir : Bytes) (hdir : Output s dir)
    (hnew : w.isDir dir = false) (hu : w.superuser = false) :
    midiasm w argv = ⟨[], [], .failed⟩ := by
  obtain ⟨h1, h2⟩ := out_given.mp hdir
  rw [midiasm_runs hi hl]
  simp only [execute, runDisassemble, ← middleC.eq_def]
  rw [withFile_ok hd ht]
  simp only [printerFor, out_empty.mpr hp, if_true, (boolFlag_given s "split").mpr hs, h2]
  unfold separate
  simp only [if_neg h1]
  by_cases hm : w.mkdirAll dir = false
  · rw [if_pos ⟨h1, hm⟩]
  · rw [if_neg (fun h => hm h.2)]
    have hmc : ∀ name, mayCreate w (decide (dir ≠ []) && !w.isDir dir) name = false := by
      intro name
      simp [mayCreate, h1, hnew, hu]
    rw [if_neg (by rw [hmc]; simp)]

end Midiasm
