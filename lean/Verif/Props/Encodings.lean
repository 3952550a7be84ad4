import Verif.Props.Export
import Verif.Props.Blameless
import Verif.Props.Repeatable

/-!
C180: how the events of a file are encoded does not matter.
-/

set_option linter.unusedSimpArgs false

namespace Midiasm
open Spec

/-- An event without its bytes. -/
def _root_.Spec.Entry.bare (e : Entry) : Entry := { e with bytes := [] }

/-- A track without its bytes. -/
def _root_.Spec.TrackEntry.bare (t : TrackEntry) : TrackEntry := ⟨t.number, [], 0, [], t.events.map Entry.bare⟩

theorem shown_universal {c : Content} (h : manufacturerID (asShown c) ≠ some [0x7e]) : asShown c = c := by
  apply asShown_eq
  intro hc
  apply h
  cases c <;> simp_all [asShown, manufacturerID]

theorem entries_bare (offset : Int) (l : List (Spec.Item × Content)) : ∀ (l' : List (Spec.Item × Content)) (past : List Content) (elapsed : Nat),
    (entries offset past elapsed l).map (fun e => (e.delta, e.content)) = (entries offset past elapsed l').map (fun e => (e.delta, e.content)) →
    (∀ e ∈ entries offset past elapsed l, manufacturerID e.content ≠ some [0x7e]) →
    (entries offset past elapsed l).map Entry.bare = (entries offset past elapsed l').map Entry.bare := by
  induction l with
  | nil =>
    intro l' past elapsed h _
    cases l' with
    | nil => rfl
    | cons x l' => cases h
  | cons x l ih =>
    obtain ⟨i, c⟩ := x
    intro l' past elapsed h hm
    cases l' with
    | nil => cases h
    | cons x' l' =>
      obtain ⟨i', c'⟩ := x'
      simp only [entries, List.map_cons, List.cons.injEq, Prod.mk.injEq] at h
      obtain ⟨⟨h1, h2⟩, h3⟩ := h
      simp only [entries, List.forall_mem_cons] at hm
      have e1 := shown_universal hm.1
      have e2 := shown_universal (h2 ▸ hm.1)
      rw [e1, e2] at h2
      subst h2
      rw [e1, h1] at hm
      rw [e1, h1] at h3
      simp only [entries, List.map_cons, e1, h1]
      rw [ih l' _ _ h3 hm.2]
      rfl

/-- Two files that stand for the same events at the same times stand for the same, but for the bytes. -/
theorem same_bare (offset : Int) (bytes bytes' : Bytes) (h h' : Header) (ts ts' : List TrackEntry) (hf : FileSays offset bytes h ts)
    (hf' : FileSays offset bytes' h' ts') (he : contentsOf id ts = contentsOf id ts')
    (hm : ∀ t ∈ ts, ∀ e ∈ t.events, manufacturerID e.content ≠ some [0x7e]) : ts.map TrackEntry.bare = ts'.map TrackEntry.bare := by
  have hl : ts.length = ts'.length := by simpa [contentsOf] using congrArg List.length he
  refine List.ext_getElem (by rw [List.length_map, List.length_map, hl]) fun n h1 h2 => ?_
  rw [List.getElem_map, List.getElem_map]
  rw [List.length_map] at h1 h2
  have g := congrArg (fun l => l[n]?) he
  simp only [contentsOf, List.getElem?_map, List.getElem?_eq_getElem h1, List.getElem?_eq_getElem h2, Option.map_some, Option.some.injEq] at g
  have n1 := fileSays_numbered hf n _ (List.getElem?_eq_getElem h1)
  have n2 := fileSays_numbered hf' n _ (List.getElem?_eq_getElem h2)
  have key : ∀ {bytes : Bytes} {h : Header} {ts : List TrackEntry} (_ : FileSays offset bytes h ts) (hn : n < ts.length), ∃ l, ts[n].events = entries offset [] 0 l := by
    rintro bytes h ts ⟨cs, tail, _, _, _, _, h5, h6, h7⟩ hn
    obtain ⟨items, tl, rs', ms, _, _, _, _, e⟩ := h7 n _ _ (List.getElem?_eq_getElem (by omega)) (List.getElem?_eq_getElem hn)
    exact ⟨_, by rw [e]⟩
  obtain ⟨l, k1⟩ := key hf h1
  obtain ⟨l', k2⟩ := key hf' h2
  have hm' := hm _ (List.getElem_mem h1)
  rw [k1] at g hm'
  rw [k2] at g
  unfold TrackEntry.bare
  rw [n1, n2, k1, k2, entries_bare offset l l' [] 0 g hm']

theorem document_bare (q : Bytes → String) (h : Header) (ts : List TrackEntry) : documentLines q h (ts.map TrackEntry.bare) = documentLines q h ts := by
  have key : (ts.map TrackEntry.bare).map (trackObject q) = ts.map (trackObject q) := by
    rw [List.map_map]
    refine List.map_congr_left fun t _ => ?_
    show trackObject q t.bare = trackObject q t
    unfold trackObject TrackEntry.bare
    simp only [List.map_map]
    rfl
  unfold documentLines
  rw [key]
  simp only [List.map_eq_nil_iff]

theorem rows_bare (ts : List TrackEntry) : tableRows (ts.map TrackEntry.bare) = tableRows ts := by
  have e1 : ((ts.map TrackEntry.bare).map fun t => t.events.length) = ts.map fun t => t.events.length := by
    rw [List.map_map]
    refine List.map_congr_left fun t _ => ?_
    exact List.length_map ..
  have e2 : tableRow (ts.map TrackEntry.bare) = tableRow ts := by
    funext j
    unfold tableRow
    rw [List.flatMap_map]
    congr 1
    funext t
    show (match (t.events.map Entry.bare)[j]? with
      | some e => entryCells e
      | none => _) = _
    rw [List.getElem?_map]
    cases t.events[j]? <;> rfl
  unfold tableRows
  rw [e1, e2, List.flatMap_map]

theorem warnings_bare (format : Nat) (ts : List TrackEntry) : fileWarnings format (ts.map TrackEntry.bare) = fileWarnings format ts := by
  have hc : ∀ t : TrackEntry, t.bare.events.map (·.content) = t.events.map (·.content) := by
    intro t
    show (t.events.map _).map _ = _
    rw [List.map_map]
    rfl
  have hl : ∀ t : TrackEntry, t.bare.events.length = t.events.length := fun t => List.length_map ..
  have e1 : ∀ t, endWarnings (TrackEntry.bare t) = endWarnings t := by
    intro t
    unfold endWarnings
    rw [hc, hl]
    rfl
  have e2 : ∀ t, trackBankWarnings (TrackEntry.bare t) = trackBankWarnings t := by
    intro t
    unfold trackBankWarnings
    rw [hc, hl]
    rfl
  have e3 : formatWarnings format (ts.map TrackEntry.bare) = formatWarnings format ts := by
    have key : ∀ (g : Nat → Content → String) (p : Content → Bool) (q : List TrackEntry),
        ((q.map TrackEntry.bare).flatMap fun t => (t.events.filter fun e => p e.content).map fun e => g t.number e.content) =
          q.flatMap fun t => (t.events.filter fun e => p e.content).map fun e => g t.number e.content := by
      intro g p q
      rw [List.flatMap_map]
      congr 1
      funext t
      rw [filtered_contents p (g _), filtered_contents p (g _), hc]
      rfl
    unfold formatWarnings
    rw [List.length_map, ← List.map_take, ← List.map_drop]
    have a := key (fun _ c => s!"Track 0: unexpected event ({warnedName c})") (fun c => decide (¬ TempoMapKind c)) (ts.take 1)
    have b := key (fun k c => s!"Track {k}: unexpected event ({warnedName c})") (fun c => decide (TempoMapOnly c)) (ts.drop 1)
    rw [a, b]
  unfold fileWarnings
  rw [e3, List.flatMap_map, List.flatMap_map]
  simp only [e1, e2]

/-- Two files that stand for the same header and the same events at the same times.  Universal SysEx messages are excepted, because the two kinds show up
as one (C22). -/
structure SameMusic (mc : MiddleC) (bytes bytes' : Bytes) (h : Header) (ts ts' : List TrackEntry) : Prop where
  one : FileSays (octaveOffset mc) bytes h ts
  other : FileSays (octaveOffset mc) bytes' h ts'
  same : contentsOf id ts = contentsOf id ts'
  plain : ∀ t ∈ ts, ∀ e ∈ t.events, manufacturerID e.content ≠ some [0x7e]

/-- **C180.** The files are exported as the same JSON and as the same table, and are written again, transposed or not, as the same file. -/
theorem C180_same_results (mc : MiddleC) (spare spare' bytes bytes' : Bytes) (h : Header) (ts ts' : List TrackEntry) (hs : SameMusic mc bytes bytes' h ts ts') :
    ∃ smf smf', decode mc spare bytes = .ok smf ∧ decode mc spare' bytes' = .ok smf' ∧ exportText smf = exportText smf' ∧
      exportTsv (smf.tracks.map (·.events)) = exportTsv (smf'.tracks.map (·.events)) ∧ encode smf = encode smf' ∧
      ∀ (mc' : MiddleC) (n : Int), Fits n → transposeExecute mc' n false smf = transposeExecute mc' n false smf' := by
  have hb := same_bare _ bytes bytes' h h ts ts' hs.one hs.other hs.same hs.plain
  obtain ⟨smf, q, a1, a2, a3⟩ := C144_export_text mc spare bytes h ts hs.one
  obtain ⟨smf', q', b1, b2, b3⟩ := C144_export_text mc spare' bytes' h ts' hs.other
  have hq : q = q' := funext fun s => C144_quoted_unique (a2 s) (b2 s)
  obtain ⟨x, c1, c2⟩ := C147_rows mc spare bytes h ts hs.one
  obtain ⟨y, d1, d2⟩ := C147_rows mc spare' bytes' h ts' hs.other
  obtain ⟨u, e1, e2⟩ := C146_rewritten mc spare bytes h ts hs.one
  obtain ⟨v, f1, f2⟩ := C146_rewritten mc spare' bytes' h ts' hs.other
  rw [a1] at c1 e1
  rw [b1] at d1 f1
  cases c1
  cases d1
  cases e1
  cases f1
  refine ⟨smf, smf', a1, b1, ?_, ?_, ?_, fun mc' n hn => ?_⟩
  · rw [a3, b3, hq, ← document_bare q' h ts, hb, document_bare]
  · rw [c2, d2, ← rows_bare ts, hb, rows_bare]
  · rw [e2, f2, hs.same]
  · obtain ⟨x, g1, g2⟩ := C146_transposed mc mc' spare bytes h ts hs.one n hn
    obtain ⟨y, k1, k2⟩ := C146_transposed mc mc' spare' bytes' h ts' hs.other n hn
    rw [a1] at g1
    rw [b1] at k1
    cases g1
    cases k1
    rw [g2, k2, contentsOf_map, hs.same, ← contentsOf_map]

/-- **C180.** The warnings about the files are the same. -/
theorem C180_same_warnings (w w' : World) (mc : MiddleC) (file file' bytes bytes' : Bytes) (hfile : file ≠ []) (hfile' : file' ≠ []) (hby : w.read file = some bytes)
    (hby' : w'.read file' = some bytes') (h : Header) (ts ts' : List TrackEntry) (hs : SameMusic mc bytes bytes' h ts ts') (hn : ¬ (h.format = 1 ∧ ts = [])) :
    warningsFor w mc file = warningsFor w' mc file' := by
  have hb := same_bare _ bytes bytes' h h ts ts' hs.one hs.other hs.same hs.plain
  have hl : ts.length = ts'.length := by simpa using congrArg List.length hb
  rw [C149_warnings w mc file bytes hfile hby h ts hs.one hn,
    C149_warnings w' mc file' bytes' hfile' hby' h ts' hs.other (fun hc => hn ⟨hc.1, List.eq_nil_of_length_eq_zero (by rw [hl, hc.2]; rfl)⟩),
    ← warnings_bare _ ts, hb, warnings_bare]

/-- **C180.** The command `export` delivers the same for both files. -/
theorem C180_same_export (w w' : World) (args argv args' argv' : List Bytes) (s : List (Bytes × FlagValue)) (r r' : List Bytes) (hi : Invokes .export_ args argv)
    (hl : CommandLine (options .export_) args s r) (hr : r.headD [] ≠ []) (hi' : Invokes .export_ args' argv')
    (hl' : CommandLine (options .export_) args' s r') (hr' : r'.headD [] ≠ []) (bytes bytes' : Bytes) (hby : w.read (r.headD []) = some bytes)
    (hby' : w'.read (r'.headD []) = some bytes') (mc : MiddleC) (hmc : Naming s mc) (h : Header) (ts ts' : List TrackEntry) (hs : SameMusic mc bytes bytes' h ts ts')
    (hn : ¬ (h.format = 1 ∧ h.tracks = 0)) : ∃ text, Delivers w s text (midiasm w argv) ∧ Delivers w' s text (midiasm w' argv') := by
  have hb := same_bare _ bytes bytes' h h ts ts' hs.one hs.other hs.same hs.plain
  obtain ⟨q, a1, a2⟩ := C144_export_command w args argv s r hi hl hr bytes hby mc hmc h ts hs.one hn
  obtain ⟨q', b1, b2⟩ := C144_export_command w' args' argv' s r' hi' hl' hr' bytes' hby' mc hmc h ts' hs.other hn
  have hq : q = q' := funext fun s => C144_quoted_unique (a1 s) (b1 s)
  refine ⟨_, a2, ?_⟩
  rw [hq, ← document_bare q' h ts, hb, document_bare]
  exact b2

/-- **C180.** The command `transpose` saves the same for both files. -/
theorem C180_same_transposition (w w' : World) (args argv args' argv' : List Bytes) (s : List (Bytes × FlagValue)) (r r' : List Bytes)
    (hi : Invokes .transpose args argv) (hl : CommandLine (options .transpose) args s r) (hr : r.headD [] ≠ []) (hi' : Invokes .transpose args' argv')
    (hl' : CommandLine (options .transpose) args' s r') (hr' : r'.headD [] ≠ []) (bytes bytes' : Bytes) (hby : w.read (r.headD []) = some bytes)
    (hby' : w'.read (r'.headD []) = some bytes') (mc : MiddleC) (hmc : Naming s mc) (h : Header) (ts ts' : List TrackEntry) (hs : SameMusic mc bytes bytes' h ts ts')
    (ht : ¬ (h.format = 1 ∧ h.tracks = 0)) (n : Int) (hn : Number s "semitones" n) (hfit : Fits n) :
    ∃ b, Saves w s b (midiasm w argv) ∧ Saves w' s b (midiasm w' argv') := by
  have a := C146_transpose_command w args argv s r hi hl hr bytes hby mc hmc h ts hs.one ht n hn hfit
  have b := C146_transpose_command w' args' argv' s r' hi' hl' hr' bytes' hby' mc hmc h ts' hs.other ht n hn hfit
  refine ⟨_, a, ?_⟩
  rwa [contentsOf_map, hs.same, ← contentsOf_map]

theorem record_bare (offset n : Int) (m : TempoMap) (ppqn : Nat) (t : TrackEntry) (p : Span) : noteRecord offset n m ppqn t.bare p = noteRecord offset n m ppqn t p := by
  have h1 : t.bare.events.map (·.content) = t.events.map (·.content) := by
    show (t.events.map _).map _ = _
    rw [List.map_map]
    rfl
  have h2 : t.bare.events.map (·.tick) = t.events.map (·.tick) := by
    show (t.events.map _).map _ = _
    rw [List.map_map]
    rfl
  have h3 : timesMs m ppqn t.bare = timesMs m ppqn t := by
    unfold timesMs
    show (noteTimes m ppqn none 0 ((t.events.map _).map _)).map _ = _
    rw [List.map_map]
    rfl
  unfold noteRecord
  rw [h1, h2, h3]

theorem notes_bare (offset n : Int) (ppqn : Nat) (ts : List TrackEntry) (pss : List (List Span)) :
    fileNotes offset n ppqn (ts.map TrackEntry.bare) pss = fileNotes offset n ppqn ts pss := by
  have h1 : tempoChanges ((ts.map TrackEntry.bare).headD ⟨0, [], 0, [], []⟩) = tempoChanges (ts.headD ⟨0, [], 0, [], []⟩) := by
    cases ts with
    | nil => rfl
    | cons t ts =>
      show (t.events.map _).filterMap _ = _
      rw [List.filterMap_map]
      rfl
  unfold fileNotes
  rw [h1, ← List.map_drop, List.zip_map_left, List.flatMap_map]
  congr 1
  funext ⟨t, ps⟩
  exact List.map_congr_left fun p _ => record_bare ..

/-- **C180.** The notes of the files are the same, if no two notes of one channel end with the same event. -/
theorem C180_same_notes (mc : MiddleC) (spare spare' bytes bytes' : Bytes) (h : Header) (ts ts' : List TrackEntry) (hs : SameMusic mc bytes bytes' h ts ts')
    (hd : 0 < h.division ∧ h.division < 32768) (hne : ts ≠ []) (hb : ∀ t ∈ ts, Brief t) (ha : ∀ t ∈ ts.drop 1, EndApart (t.events.map (·.content)))
    (ord ord' : Nat → MapOrder) (n : Int) (hfit : Fits n) :
    ∃ smf smf', decode mc spare bytes = .ok smf ∧ decode mc spare' bytes' = .ok smf' ∧ extractNotes mc ord n smf = extractNotes mc ord' n smf' := by
  have hbare := same_bare _ bytes bytes' h h ts ts' hs.one hs.other hs.same hs.plain
  have hl : ts.length = ts'.length := by simpa using congrArg List.length hbare
  have hb' : ∀ t ∈ ts', Brief t := by
    intro t ht
    have : t.bare ∈ ts.map TrackEntry.bare := by
      rw [hbare]
      exact List.mem_map_of_mem ht
    obtain ⟨u, hu, he⟩ := List.mem_map.1 this
    have hd : ∀ t : TrackEntry, t.bare.events.map (·.delta) = t.events.map (·.delta) := by
      intro t
      show (t.events.map _).map _ = _
      rw [List.map_map]
      rfl
    have := hb u hu
    unfold Brief at this ⊢
    rwa [← hd, he, hd] at this
  obtain ⟨smf, pss, a1, a2, a3⟩ := C148_notes mc spare bytes h ts hs.one hd hne hb ord n hfit
  obtain ⟨smf', pss', b1, b2, b3⟩ := C148_notes mc spare' bytes' h ts' hs.other hd (fun hc => hne (List.eq_nil_of_length_eq_zero (by rw [hl, hc]; rfl))) hb' ord' n hfit
  refine ⟨smf, smf', a1, b1, ?_⟩
  have hcs : (ts.drop 1).map (fun t => t.events.map (·.content)) = (ts'.drop 1).map (fun t => t.events.map (·.content)) := by
    have hc : ∀ l : List TrackEntry, (l.map TrackEntry.bare).map (fun t => t.events.map (·.content)) = l.map fun t => t.events.map (·.content) := by
      intro l
      rw [List.map_map]
      refine List.map_congr_left fun t _ => ?_
      show (t.events.map _).map _ = _
      rw [List.map_map]
      rfl
    rw [List.map_drop, List.map_drop, ← hc ts, hbare, hc]
  have key : ∀ (l l' : List TrackEntry) (q q' : List (List Span)), l.map (fun t => t.events.map (·.content)) = l'.map (fun t => t.events.map (·.content)) →
      List.Forall₂ (fun (t : TrackEntry) ps => SpansOf (t.events.map (·.content)) ps) l q →
      List.Forall₂ (fun (t : TrackEntry) ps => SpansOf (t.events.map (·.content)) ps) l' q' → (∀ t ∈ l, EndApart (t.events.map (·.content))) → q = q' := by
    intro l
    induction l with
    | nil =>
      intro l' q q' he h1 h2 _
      cases l' with
      | nil => cases h1; cases h2; rfl
      | cons _ _ => cases he
    | cons t l ih =>
      intro l' q q' he h1 h2 hap
      cases l' with
      | nil => cases he
      | cons t' l' =>
        simp only [List.map_cons, List.cons.injEq] at he
        cases h1 with
        | cons x1 h1 =>
          cases h2 with
          | cons x2 h2 =>
            rw [← he.1] at x2
            rw [spans_equal (hap t (by simp)) x1 x2, ih l' _ _ he.2 h1 h2 fun t ht => hap t (by simp [ht])]
  rw [a3, b3, key _ _ _ _ hcs a2 b2 ha, ← notes_bare _ _ _ ts, hbare, notes_bare]

/-- C180: two files with the same notes; in the second, a delta time has a needless byte, a status is not repeated, and there is a foreign chunk. -/
theorem two_encodings : ∃ h ts ts', SameMusic .c3 (oneTrack [0, 0x91, 60, 64, 0x48, 0x91, 62, 64, 0, 0xff, 0x2f, 0])
    (fileBytes [(Header.mk 0 1 96).chunk, ⟨str "XFIH", [1, 2]⟩, ⟨tagMTrk, [0, 0x91, 60, 64, 0x80, 0x48, 62, 64, 0, 0xff, 0x2f, 0]⟩]) h ts ts' := by
  have test : ∀ bytes : Bytes, (decode .c3 [] bytes).test (fun smf => (match smf.mthd with
      | some m => decide (m.format = 0) && decide (m.tracks = 1) && decide (m.division = 96)
      | none => false) && decide (contentsOf id (smf.tracks.map MTrk.entry) = [[(0, .noteOn 1 60 64), (72, .noteOn 1 62 64), (0, .endOfTrack)]])) = true →
      ∃ ts, FileSays (octaveOffset .c3) bytes ⟨0, 1, 96⟩ ts ∧ contentsOf id ts = [[(0, .noteOn 1 60 64), (72, .noteOn 1 62 64), (0, .endOfTrack)]] := by
    intro bytes ht
    obtain ⟨smf, h1, h2⟩ := Outcome.of_test ht
    obtain ⟨h, ts, hf, ⟨m, hm, hsh, _⟩, rfl⟩ := C143_total .c3 [] _ smf h1
    rw [hm] at h2
    simp only [Bool.and_eq_true, decide_eq_true_eq] at h2
    obtain ⟨⟨⟨a1, a2⟩, a3⟩, a4⟩ := h2
    have hh : h = ⟨0, 1, 96⟩ := by
      obtain ⟨_, _, b1, b2, b3, _⟩ := hsh
      rw [a1] at b1
      rw [a2] at b2
      rw [a3] at b3
      obtain ⟨f, t, d⟩ := h
      simp only at b1 b2 b3
      rw [← b1, ← b2, ← b3]
      rfl
    subst hh
    exact ⟨_, hf, a4⟩
  obtain ⟨ts, a1, a2⟩ := test (oneTrack [0, 0x91, 60, 64, 0x48, 0x91, 62, 64, 0, 0xff, 0x2f, 0]) (by decide +kernel)
  obtain ⟨ts', b1, b2⟩ := test (fileBytes [(Header.mk 0 1 96).chunk, ⟨str "XFIH", [1, 2]⟩, ⟨tagMTrk, [0, 0x91, 60, 64, 0x80, 0x48, 62, 64, 0, 0xff, 0x2f, 0]⟩])
    (by decide +kernel)
  refine ⟨_, ts, ts', a1, b1, a2.trans b2.symm, fun t ht e he => ?_⟩
  have hmem : (e.delta, e.content) ∈ (contentsOf id ts).flatten :=
    List.mem_flatten.2 ⟨_, List.mem_map_of_mem ht, List.mem_map_of_mem (f := fun e : Entry => (e.delta, id e.content)) he⟩
  rw [a2] at hmem
  simp only [List.flatten_cons, List.flatten_nil, List.append_nil, List.mem_cons, List.not_mem_nil, or_false, Prod.mk.injEq] at hmem
  rcases hmem with ⟨_, h⟩ | ⟨_, h⟩ | ⟨_, h⟩ <;> rw [h] <;> simp [manufacturerID]

end Midiasm
