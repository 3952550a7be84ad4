import Verif.Spec.NotesListing
import Verif.Props.NotesPrint
import Verif.Props.NotesJson
import Verif.Props.Table

/-!
C148: the notes of a file and the exact text of their listing, from the bytes of the file.
-/

set_option linter.unusedSimpArgs false

namespace Midiasm
open Spec

/-! ### Times -/

theorem fmtFracLoop_zero (p v : Nat) (acc : Bytes) : fmtFracLoop (p + 1) (10 * v) false acc = fmtFracLoop p v false acc := by
  have h1 : 10 * v % 10 = 0 := by omega
  have h2 : 10 * v / 10 = v := by omega
  rw [fmtFracLoop]
  simp [h1, h2]

theorem fmtFracLoop_zeros (p v : Nat) (acc : Bytes) : fmtFracLoop (p + 6) (1000000 * v) false acc = fmtFracLoop p v false acc := by
  rw [show 1000000 * v = 10 * (10 * (10 * (10 * (10 * (10 * v))))) by omega, show p + 6 = p + 5 + 1 from rfl, fmtFracLoop_zero,
    show p + 5 = p + 4 + 1 from rfl, fmtFracLoop_zero, show p + 4 = p + 3 + 1 from rfl, fmtFracLoop_zero, show p + 3 = p + 2 + 1 from rfl,
    fmtFracLoop_zero, show p + 2 = p + 1 + 1 from rfl, fmtFracLoop_zero, fmtFracLoop_zero]

theorem fmtFrac_ms (v : Nat) : fmtFrac (1000000 * v) 6 = ([], v) := by
  unfold fmtFrac
  rw [show (6 : Nat) = 0 + 6 from rfl, fmtFracLoop_zeros]
  rfl

theorem fmtFracLoop_three (v : Nat) :
    fmtFracLoop 3 v false [] = ((fmtFracLoop 3 (v % 1000) false []).1, (fmtFracLoop 3 (v % 1000) false []).2.1, v / 1000) := by
  have hd : v / 10 / 10 / 10 = v / 1000 := by omega
  have e1 : v % 1000 % 10 = v % 10 := by omega
  have e2 : v % 1000 / 10 % 10 = v / 10 % 10 := by omega
  have e3 : v % 1000 / 10 / 10 % 10 = v / 10 / 10 % 10 := by omega
  simp only [fmtFracLoop, hd, e1, e2, e3]

theorem fmtFrac_seconds (v : Nat) : fmtFrac (1000000 * v) 9 = (str (secondFraction (v % 1000)), v / 1000) := by
  have key : ∀ u : Fin 1000, (if (fmtFracLoop 3 u.val false []).1 then 46 :: (fmtFracLoop 3 u.val false []).2.1
      else (fmtFracLoop 3 u.val false []).2.1) = str (secondFraction u.val) := by decide +kernel
  unfold fmtFrac
  rw [show (9 : Nat) = 3 + 6 from rfl, fmtFracLoop_zeros, fmtFracLoop_three]
  exact Prod.ext_iff.2 ⟨key ⟨v % 1000, Nat.mod_lt _ (by decide)⟩, rfl⟩

theorem duration_text (ms : Nat) : durationString (truncateMs ((1000000 * ms : Nat) : Int)) = str (timeText ms) := by
  have ht : truncateMs ((1000000 * ms : Nat) : Int) = ((1000000 * ms : Nat) : Int) := by
    unfold truncateMs
    rw [Int.tmod_eq_emod_of_nonneg (by omega)]
    omega
  rw [ht, durationString, if_neg (by omega), Int.natAbs_natCast, formatDuration, timeText]
  by_cases h0 : ms = 0
  · subst h0; rfl
  rw [if_neg h0]
  by_cases h1 : ms < 1000
  · rw [if_pos h1, if_pos (by omega), if_neg (by omega), if_neg (by omega), if_neg (by omega), fmtFrac_ms]
    simp only [List.append_nil, dec_eq_repr, ← str_append]
    rfl
  · rw [if_neg h1, if_neg (by omega), fmtFrac_seconds]
    have e1 : ms / 1000 / 60 = ms / 60000 := by omega
    have e2 : ms / 60000 / 60 = ms / 3600000 := by omega
    simp only [e1, e2, dec_eq_repr, ← str_append]
    by_cases h2 : 60000 ≤ ms
    · rw [if_pos (show ms / 60000 > 0 by omega), if_pos h2]
      by_cases h3 : 3600000 ≤ ms
      · rw [if_pos (show ms / 3600000 > 0 by omega), if_pos h3]
        congr 1
        simp [ToString.toString, String.append_assoc]
      · rw [if_neg (show ¬ ms / 3600000 > 0 by omega), if_neg h3]
        congr 1
    · rw [if_neg (show ¬ ms / 60000 > 0 by omega), if_neg h2, if_neg (show ¬ 3600000 ≤ ms by omega)]
      congr 1

/-! ### Lines -/

theorem padded_text (w : Nat) (s : String) : padRight w (str s) = str (blankFilled w s) := by
  have hl : (letters s).length = s.length := by rw [letters, List.length_map, String.length_toList]
  have hb : ∀ n, str (String.ofList (List.replicate n ' ')) = List.replicate n 32 := by
    intro n
    unfold str
    rw [String.toList_ofList]
    induction n with
    | zero => rfl
    | succ n ih => rw [List.replicate_succ, List.replicate_succ, List.flatMap_cons, ih]; rfl
  rw [padRight, blankFilled, str_append, hb, letters_runes, hl]

theorem hexText_str (b : UInt8) : hex2 b = str (hexText b) :=
  all8 (P := fun b => hex2 b = str (hexText b)) (by decide +kernel) b

/-- The times of a note are whole milliseconds, not negative. -/
def Note.Whole (x : Note) : Prop :=
  ∃ a b c : Nat, x.start = ((1000000 * a : Nat) : Int) ∧ x.end_ = ((1000000 * b : Nat) : Int) ∧ x.duration = ((1000000 * c : Nat) : Int)

theorem printNote_line (x : Note) (h : x.Whole) : printNote x = str (noteLine x) ++ str "\n" := by
  obtain ⟨a, b, c, h1, h2, h3⟩ := h
  have e : ∀ n : Nat, ((1000000 * n : Nat) : Int).toNat / 1000000 = n := by intro n; omega
  unfold printNote noteLine
  simp only [h1, h2, h3, duration_text, e, dec_eq_repr, padded_text, hexText_str, ← str_append]

theorem printNotes_lines (notes : List Note) (h : ∀ x ∈ notes, x.Whole) :
    printNotes notes = notes.flatMap fun x => str (noteLine x) ++ str "\n" := by
  unfold printNotes
  induction notes with
  | nil => rw [List.flatMap_nil, List.flatMap_nil]
  | cons x xs ih =>
    rw [List.flatMap_cons, List.flatMap_cons, printNote_line x (h x (by simp)), ih (fun y hy => h y (by simp [hy]))]

/-! ### Notes -/

theorem tempoSet_view (b : Body) : setsTempo b.view = b.tempoSet := by
  cases b <;> rfl

theorem contents_entry (t : MTrk) : t.entry.events.map (·.content) = t.contents := by
  rw [MTrk.entry, List.map_map]; rfl

theorem tempos_entry (t : MTrk) : tempoChanges t.entry = t.tempos := by
  rw [tempoChanges, MTrk.entry, MTrk.tempos, List.filterMap_map]
  apply List.filterMap_congr
  intro e _
  show (setsTempo e.body.view).map (fun v => (e.tick.toNat, v)) = _
  rw [tempoSet_view]
  cases e.body <;> rfl

theorem stamps_entry (t : MTrk) : (t.entry.events.map fun e => (e.tick, e.delta, setsTempo e.content)) = t.events.map eventStamp := by
  rw [MTrk.entry, List.map_map]
  apply List.map_congr_left
  intro e _
  show (e.tick.toNat, e.delta.toNat, setsTempo e.body.view) = _
  rw [tempoSet_view]
  rfl

theorem timesMs_entry (m : TempoMap) (ppqn : Nat) (t : MTrk) {i : Nat} (h : i < t.events.length) :
    1000000 * (timesMs m ppqn t.entry).getD i 0 = nearestMs (codeTime m ppqn t i) := by
  rw [timesMs, stamps_entry, List.getD_eq_getElem?_getD, List.getElem?_map, codeTime_get m ppqn t h]
  simp only [Option.map_some, Option.getD_some, nearestMs]
  omega

theorem noteRecord_eq (mc : MiddleC) (n : Int) (m : TempoMap) (ppqn : Nat) (t : MTrk) (p : Span) (x : Note) (ho : NoteOf mc n t p x)
    (hs : IsSpan t.contents p) (ht : NoteTimed m ppqn t p x) : x = noteRecord (octaveOffset mc) n m ppqn t.entry p := by
  obtain ⟨t1, t2, t3⟩ := ht
  have hf : p.first < t.events.length := by
    have := (List.getElem?_eq_some_iff.1 ho.startTick).1
    rwa [List.length_map] at this
  have hl : p.last < t.events.length := by
    have := (List.getElem?_eq_some_iff.1 ho.endTick).1
    rwa [List.length_map] at this
  have hk : (max 0 (min 255 ((p.key : Int) + n))).toNat = x.note.toNat := by
    have := ho.note
    omega
  have hticks : ∀ i (v : UInt64), (t.events.map Event.tick)[i]? = some v → UInt64.ofNat ((t.entry.events.map (·.tick)).getD i 0) = v := by
    intro i v hv
    rw [List.getElem?_map] at hv
    rw [MTrk.entry, List.map_map, List.getD_eq_getElem?_getD, List.getElem?_map]
    cases he : t.events[i]? with
    | none => rw [he] at hv; cases hv
    | some e =>
      rw [he] at hv
      injection hv with hv
      rw [← hv]
      show UInt64.ofNat e.tick.toNat = e.tick
      exact UInt64.ofNat_toNat
  have hmono := codeTime_mono m ppqn t (Nat.le_of_lt hs.2.2.1) hl
  have hm2 : nearestMs (codeTime m ppqn t p.first) ≤ nearestMs (codeTime m ppqn t p.last) := by
    unfold nearestMs
    exact Nat.mul_le_mul_right _ (Nat.div_le_div_right (by omega))
  have a1 := timesMs_entry m ppqn t hf
  have a2 := timesMs_entry m ppqn t hl
  unfold noteRecord
  simp only [contents_entry, hk, hticks _ _ ho.startTick, hticks _ _ ho.endTick, ho.event, velocityOf]
  have hd : x.duration = ((1000000 * ((timesMs m ppqn t.entry).getD p.last 0 - (timesMs m ppqn t.entry).getD p.first 0) : Nat) : Int) := by
    rw [t3, t1, t2, ← a1, ← a2]
    omega
  rw [← hd, a1, a2, ← t1, ← t2, ← ho.spelling, ← ho.channel]
  simp only [UInt8.ofNat_toNat]

theorem noteRecord_whole (offset n : Int) (m : TempoMap) (ppqn : Nat) (t : TrackEntry) (p : Span) : (noteRecord offset n m ppqn t p).Whole :=
  ⟨_, _, _, rfl, rfl, rfl⟩

theorem fileNotes_whole (offset n : Int) (ppqn : Nat) (ts : List TrackEntry) (pss : List (List Span)) :
    ∀ x ∈ fileNotes offset n ppqn ts pss, x.Whole := by
  intro x hx
  obtain ⟨⟨t, ps⟩, _, h⟩ := List.mem_flatMap.1 hx
  obtain ⟨p, _, rfl⟩ := List.mem_map.1 h
  exact noteRecord_whole _ _ _ _ _ _

/-- Tracks short enough for their times to fit into 64 bits whatever the tempo. -/
def Brief (t : TrackEntry) : Prop := 1000 * (t.events.map (·.delta)).sum * 2 ^ 24 < 2 ^ 63 - 1000000

theorem brief_entry (t : MTrk) (h : Brief t.entry) : t.Timed ∧ t.ticks < 2 ^ 32 := by
  have : (t.entry.events.map (·.delta)).sum = t.ticks := by
    rw [MTrk.entry, List.map_map]; rfl
  rw [Brief, this] at h
  refine ⟨h, ?_⟩
  omega

/-- **C148.** The notes of a file, from its bytes. -/
theorem C148_notes (mc : MiddleC) (spare bytes : Bytes) (h : Header) (ts : List TrackEntry) (hf : FileSays (octaveOffset mc) bytes h ts)
    (hd : 0 < h.division ∧ h.division < 32768) (hn : ts ≠ []) (hb : ∀ t ∈ ts, Brief t) (ord : Nat → MapOrder) (n : Int) (hfit : Fits n) :
    ∃ smf pss, decode mc spare bytes = .ok smf ∧ List.Forall₂ (fun (t : TrackEntry) ps => SpansOf (t.events.map (·.content)) ps) (ts.drop 1) pss ∧
      extractNotes mc ord n smf = .ok (fileNotes (octaveOffset mc) n h.division ts pss) := by
  obtain ⟨smf, hdec, hs⟩ := (C143_decoding mc spare bytes h ts).2 hf
  obtain ⟨⟨m, hm, hsh, _⟩, rfl⟩ := hs
  have hq : m.ppqn.toNat = h.division := (hsh.2.2.2.2.2.1 hd.2).1
  have hp : m.ppqn ≠ 0 := by
    intro h0
    rw [h0] at hq
    simp at hq
    omega
  cases htr : smf.tracks with
  | nil => rw [htr] at hn; exact absurd rfl hn
  | cons t0 rest =>
    have hbt : ∀ t ∈ smf.tracks, t.Timed ∧ t.ticks < 2 ^ 32 := fun t ht => brief_entry t (hb _ (List.mem_map.2 ⟨t, ht, rfl⟩))
    obtain ⟨nss, h1, h2⟩ := C71_notes_exact hdec m hm hp t0 rest htr (fun t ht => (hbt t ht).2) ord n hfit
    rw [hq] at h2
    have htd : ∀ t ∈ rest, t.Timed := fun t ht => (hbt t (by simp [htr, ht])).1
    have key : ∃ pss, List.Forall₂ (fun (t : TrackEntry) ps => SpansOf (t.events.map (·.content)) ps) (rest.map MTrk.entry) pss ∧
        nss.flatten = ((rest.map MTrk.entry).zip pss).flatMap fun (t, ps) => ps.map (noteRecord (octaveOffset mc) n t0.tempos h.division t) := by
      clear htr h1 hbt hb
      induction h2 with
      | nil => exact ⟨[], .nil, rfl⟩
      | cons a _ ih =>
        rename_i t ns rest nss _
        obtain ⟨ps, g1, g2, g3, g4⟩ := a
        obtain ⟨pss, k1, k2⟩ := ih (fun t ht => htd t (by simp [ht]))
        refine ⟨ps :: pss, .cons ⟨g1, by rw [contents_entry]; exact g2, g3⟩ k1, ?_⟩
        rw [List.flatten_cons, k2, List.map_cons, List.zip_cons_cons, List.flatMap_cons]
        congr 1
        have hsp : ∀ p ∈ ps, IsSpan t.contents p := fun p hp => (g2 p).1 hp
        have ht := htd t (by simp)
        clear g1 g2 g3 k1 k2 ih
        induction g4 with
        | nil => rfl
        | cons b _ ih =>
          show _ = List.map _ (_ :: _)
          rw [List.map_cons, ih (fun p hp => hsp p (by simp [hp]))]
          rw [noteRecord_eq mc n _ _ _ _ _ b.1 (hsp _ (by simp)) (b.2 ht)]
    obtain ⟨pss, k1, k2⟩ := key
    refine ⟨smf, pss, hdec, ?_, ?_⟩
    · rw [List.map_cons]; exact k1
    · rw [h1, k2, List.map_cons, fileNotes, List.drop_succ_cons, List.drop_zero, List.headD_cons, tempos_entry]

/-- **C148.** The command `notes`: the exact text, from the bytes of the file. -/
theorem C148_notes_command (w : World) (args argv : List Bytes) (s : List (Bytes × FlagValue)) (r : List Bytes) (hi : Invokes .notes args argv)
    (hl : CommandLine (options .notes) args s r) (hr : r.headD [] ≠ []) (bytes : Bytes) (hby : w.read (r.headD []) = some bytes) (mc : MiddleC)
    (hmc : Naming s mc) (h : Header) (ts : List TrackEntry) (hf : FileSays (octaveOffset mc) bytes h ts) (hd : 0 < h.division ∧ h.division < 32768)
    (hn : ts ≠ []) (hb : ∀ t ∈ ts, Brief t) (n : Int) (hnum : Number s "transpose" n) (hfit : Fits n) :
    ∃ pss, List.Forall₂ (fun (t : TrackEntry) ps => SpansOf (t.events.map (·.content)) ps) (ts.drop 1) pss ∧
      (¬ Given s "json" (.bool true) →
        Delivers w s ((fileNotes (octaveOffset mc) n h.division ts pss).flatMap fun x => str (noteLine x) ++ str "\n") (midiasm w argv)) ∧
      (Given s "json" (.bool true) → ∃ j text, JsonText Chars j text ∧
        NotesDocument NearlySeconds (fileNotes (octaveOffset mc) n h.division ts pss) j ∧ LaidOut .code 10 0 text ∧
        Delivers w s text (midiasm w argv)) := by
  obtain ⟨smf, pss, hdec, h1, h2⟩ := C148_notes mc w.spare bytes h ts hf hd hn hb w.order n hfit
  obtain ⟨smf', hdec', hs⟩ := (C143_decoding mc w.spare bytes h ts).2 hf
  have hss : smf' = smf := by
    rw [hdec] at hdec'
    injection hdec' with e
    exact e.symm
  subst hss
  have ht : ¬ Trackless1 smf' := by
    rintro ⟨_, _, _, h0⟩
    obtain ⟨_, rfl⟩ := hs
    rw [h0] at hn
    exact hn rfl
  have hu : ¬ Untimeable smf' := by
    intro hu
    have := (extractNotes_total (mc' := mc) hdec w.order n).1 hu
    rw [h2] at this
    cases this
  obtain ⟨notes, g1, g2, g3⟩ := C116_notes w args argv s r hi hl smf' ⟨hr, bytes, mc, hby, hmc, hdec⟩ ht hu mc hmc n hnum
  rw [h2] at g1
  injection g1 with g1
  subst g1
  refine ⟨pss, h1, fun hj => ?_, fun hj => ?_⟩
  · have := g3 hj
    rwa [printNotes_lines _ (fileNotes_whole _ _ _ _ _)] at this
  · obtain ⟨j, j1, j2, j3⟩ := C121_extracted mc w.order n smf' _ h2
    exact ⟨j, _, j1, j2, j3, g2 hj⟩

/-! ### Examples -/

/-- A track with a tempo event of its own. -/
def ownTempo : Bytes :=
  tracksFile 1 0 96 [[0, 0xff, 0x51, 3, 7, 0xa1, 0x20], [0, 0x90, 60, 64, 48, 0xff, 0x51, 3, 0x0f, 0x42, 0x40, 48, 0x92, 61, 5, 49, 0x80, 60, 0]]

/-- C148: a file that meets the hypotheses; the listing of its notes, the second of which starts half a second and a second at the tempo of its
own track later, and is cut off at the end of the track. -/
example : ∃ h ts, FileSays 1 ownTempo h ts ∧ (0 < h.division ∧ h.division < 32768) ∧ ts ≠ [] ∧ (∀ t ∈ ts, Brief t) ∧
    ∃ t0 t1, ts = [t0, t1] ∧ tempoChanges t0 = [(0, 500000)] ∧ timesMs (tempoChanges t0) 96 t1 = [0, 250, 750, 1260, 1260] ∧
      [(⟨0, 60, 0, 3⟩ : Span), ⟨2, 61, 2, 4⟩].map (fun p => noteLine (noteRecord 1 0 (tempoChanges t0) 96 t1 p)) =
        ["C4   channel:0   note:3C  velocity:64   start:0s         end:1.26s      duration:1.26s",
         "C♯4  channel:2   note:3D  velocity:5    start:750ms      end:1.26s      duration:510ms"] := by
  obtain ⟨smf, h1, h2⟩ := Outcome.of_test (o := decode .c3 [] ownTempo)
    (p := fun smf => match smf.mthd, smf.tracks.map MTrk.entry with
      | some m, [t0, t1] => decide (m.division = 96) && decide ((t0.events.map (·.delta)).sum = 0) && decide ((t1.events.map (·.delta)).sum = 145) &&
        decide (tempoChanges t0 = [(0, 500000)]) && decide (timesMs (tempoChanges t0) 96 t1 = [0, 250, 750, 1260, 1260]) &&
        decide ([(⟨0, 60, 0, 3⟩ : Span), ⟨2, 61, 2, 4⟩].map (fun p => noteLine (noteRecord 1 0 (tempoChanges t0) 96 t1 p)) =
          ["C4   channel:0   note:3C  velocity:64   start:0s         end:1.26s      duration:1.26s",
           "C♯4  channel:2   note:3D  velocity:5    start:750ms      end:1.26s      duration:510ms"])
      | _, _ => false) (by decide +kernel)
  obtain ⟨h, ts, f1, ⟨m, m1, m2, _⟩, f3⟩ := C143_total .c3 [] _ smf h1
  rw [m1, f3] at h2
  split at h2
  · rename_i m' t0 t1 e1
    injection e1 with e1
    subst e1
    simp only [Bool.and_eq_true, decide_eq_true_eq] at h2
    obtain ⟨⟨⟨⟨⟨a1, a2⟩, a3⟩, a4⟩, a5⟩, a6⟩ := h2
    have hdiv : h.division = 96 := by
      rw [← m2.2.2.2.2.1, a1]; rfl
    refine ⟨h, _, f1, by omega, by simp, ?_, t0, t1, rfl, a4, a5, a6⟩
    intro t ht
    simp only [List.mem_cons, List.not_mem_nil, or_false] at ht
    rcases ht with rfl | rfl
    · rw [Brief, a2]; decide
    · rw [Brief, a3]; decide
  · cases h2

end Midiasm
