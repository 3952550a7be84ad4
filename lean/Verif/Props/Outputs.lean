import Verif.Props.Naming
import Verif.Props.Fates
import Verif.Props.CommandsExamples

/-!
C106 to C110: what the commands print and write, what becomes of bad input, and when they crash.
-/

set_option linter.unusedSimpArgs false

namespace Midiasm
open Spec

/-! ### C106: printing and writing -/

theorem middleC_same {option : String} {s s' : List (Bytes × FlagValue)} (h : SameBut option s s') (hn : "C4" ≠ option) : middleC s = middleC s' := by
  unfold middleC
  rw [boolFlag_same h "C4" hn]

theorem headD_same {r r' : List Bytes} (h : r.head? = r'.head?) : r.headD [] = r'.headD [] := by
  cases r <;> cases r' <;> simp_all

theorem emit_pair (w : World) (out : Bytes) (hne : out ≠ []) (hc : w.create out = true) (o : Outcome Bytes) :
    (emit w out o).status = (emit w [] o).status ∧ (emit w out o).stdout = [] ∧ (emit w [] o).files = [] ∧
      (emit w out o).files = [(out, (emit w [] o).stdout)] := by
  simp [emit, hne, hc]

/-- C106 for disassembling without splitting, listing notes and exporting: with an output file that can be created the program ends as
without one, prints nothing, and either the file holds exactly the text printed without it or, when the input could not be used,
nothing is written or printed.  Missing: tables of events and click tracks, for which it is false. -/
theorem C106_same_text_partial (w : World) (c : Command) (hc : c ∈ [.disassemble, .notes, .export_]) (args argv args' argv' : List Bytes)
    (s s' : List (Bytes × FlagValue)) (r r' : List Bytes) (hi : Invokes c args argv) (hl : CommandLine (options c) args s r)
    (hi' : Invokes c args' argv') (hl' : CommandLine (options c) args' s' r') (hs : SameBut "out" s s') (hr : r.head? = r'.head?)
    (hsplit : ¬ Given s "split" (.bool true)) (hno : NoText s "out") (out : Bytes) (ho : Output s' out) (hcr : w.create out = true) :
    (midiasm w argv').status = (midiasm w argv).status ∧ (midiasm w argv').stdout = [] ∧ (midiasm w argv).files = [] ∧
      ((midiasm w argv').files = [(out, (midiasm w argv).stdout)] ∨
        (midiasm w argv').files = [] ∧ (midiasm w argv).stdout = [] ∧ (midiasm w argv).status ≠ .success) := by
  rw [midiasm_runs hi hl, midiasm_runs hi' hl']
  have hf := headD_same hr
  have hmc := middleC_same hs (by decide)
  obtain ⟨ho1, ho2⟩ := out_given.mp ho
  have ho3 := out_empty.mpr hno
  have hsp : boolFlag s "split" = false := by
    rw [← Bool.not_eq_true, boolFlag_given]
    exact hsplit
  have hsp' := boolFlag_same hs "split" (by decide)
  have key : ∀ g g' : SMF → RunResult, (∀ smf, (g' smf).status = (g smf).status ∧ (g' smf).stdout = [] ∧ (g smf).files = [] ∧
      ((g' smf).files = [(out, (g smf).stdout)] ∨ (g' smf).files = [] ∧ (g smf).stdout = [] ∧ (g smf).status ≠ .success)) →
      (withFile w (middleC s') (r'.headD []) g').status = (withFile w (middleC s) (r.headD []) g).status ∧
      (withFile w (middleC s') (r'.headD []) g').stdout = [] ∧ (withFile w (middleC s) (r.headD []) g).files = [] ∧
      ((withFile w (middleC s') (r'.headD []) g').files = [(out, (withFile w (middleC s) (r.headD []) g).stdout)] ∨
        (withFile w (middleC s') (r'.headD []) g').files = [] ∧ (withFile w (middleC s) (r.headD []) g).stdout = [] ∧
          (withFile w (middleC s) (r.headD []) g).status ≠ .success) := by
    intro g g' hg
    rw [← hmc, ← hf]
    unfold withFile
    cases load w (middleC s) (r.headD []) with
    | ok smf => exact hg smf
    | err e => exact ⟨rfl, rfl, rfl, Or.inr ⟨rfl, rfl, by simp [statusOf]⟩⟩
    | panic => exact ⟨rfl, rfl, rfl, Or.inr ⟨rfl, rfl, by simp [statusOf]⟩⟩
    | diverge => exact ⟨rfl, rfl, rfl, Or.inr ⟨rfl, rfl, by simp [statusOf]⟩⟩
  have em : ∀ o : Outcome Bytes, (emit w (stringFlag s' "out") o).status = (emit w (stringFlag s "out") o).status ∧
      (emit w (stringFlag s' "out") o).stdout = [] ∧ (emit w (stringFlag s "out") o).files = [] ∧
      ((emit w (stringFlag s' "out") o).files = [(out, (emit w (stringFlag s "out") o).stdout)] ∨
        (emit w (stringFlag s' "out") o).files = [] ∧ (emit w (stringFlag s "out") o).stdout = [] ∧ (emit w (stringFlag s "out") o).status ≠ .success) := by
    intro o
    rw [ho2, ho3]
    obtain ⟨h1, h2, h3, h4⟩ := emit_pair w out ho1 hcr o
    exact ⟨h1, h2, h3, Or.inl h4⟩
  simp only [List.mem_cons, List.not_mem_nil, or_false] at hc
  rcases hc with rfl | rfl | rfl
  · simp only [execute, runDisassemble, ← middleC.eq_def]
    refine key _ _ fun smf => ?_
    rw [← hsp', hsp, ← stringFlag_same hs "templates" (by decide)]
    cases printerFor w (stringFlag s "templates") with
    | none => exact ⟨rfl, rfl, rfl, Or.inr ⟨rfl, rfl, by simp⟩⟩
    | some p =>
      simp only [Bool.false_eq_true, if_false, ho2, ho3, writeDocument, if_true, if_neg ho1, if_pos hcr]
      exact ⟨trivial, trivial, trivial, Or.inl trivial⟩
  · simp only [execute, runNotes, ← middleC.eq_def]
    refine key _ _ fun smf => ?_
    simp only [← intFlag_same hs "transpose" (by decide), ← boolFlag_same hs "json" (by decide), ← hmc]
    exact em _
  · simp only [execute, runExport, ← middleC.eq_def]
    exact key _ _ fun smf => em _

/-- C106 fails for click tracks: three line ends are printed without and with an output file, which is left empty. -/
theorem C106_click_fails (w : World) (args argv : List Bytes) (s : List (Bytes × FlagValue)) (r : List Bytes) (hi : Invokes .click args argv)
    (hl : CommandLine (options .click) args s r) (smf : SMF) (hd : Decodes w s (r.headD []) smf) (hne : smf.tracks ≠ []) :
    (NoText s "out" → midiasm w argv = ⟨[], str "\n\n\n", .success⟩) ∧
    (∀ out, Output s out → w.create out = true → midiasm w argv = ⟨[(out, [])], str "\n\n\n", .success⟩) := by
  rw [midiasm_runs hi hl]
  simp only [execute, runClick, ← middleC.eq_def]
  rw [withFile_ok hd (fun ⟨_, _, _, h⟩ => hne h)]
  obtain ⟨_, bytes, mc, _, _, hdec⟩ := id hd
  obtain ⟨m, _, hm, _⟩ := decode_ok hdec
  rw [(C77_click_silent smf m hm).1 hne]
  constructor
  · intro hno
    rw [out_empty.mpr hno]
    simp
  · intro out ho hc
    obtain ⟨h1, h2⟩ := out_given.mp ho
    rw [h2]
    simp [h1, hc]

/-! ### C107: tables of events on standard output -/

/-- The table of the events of a file that is printed. -/
theorem does_tsv_print {w : World} {s : List (Bytes × FlagValue)} {r : List Bytes} {smf : SMF} (hd : Decodes w s (r.headD []) smf) (ht : ¬ Trackless1 smf)
    (hno : NoText s "out") : execute w .tsv s r = ⟨[], writeTable (exportTsv (smf.tracks.map (·.events))), .success⟩ := by
  simp only [execute, runTsv, ← middleC.eq_def]
  rw [withFile_ok hd ht, out_empty.mpr hno]
  simp [emit, statusOf]

/-- C106 fails for tables of events: what is printed is a table with padded columns, what is written are values separated by tabulators with
the names of the columns on a line of their own. -/
theorem C106_tsv_fails (w : World) (args argv : List Bytes) (s : List (Bytes × FlagValue)) (r : List Bytes) (hi : Invokes .tsv args argv)
    (hl : CommandLine (options .tsv) args s r) (smf : SMF) (hd : Decodes w s (r.headD []) smf) (ht : ¬ Trackless1 smf)
    (htab : ¬ Given s "tabular" (.bool true)) (hdel : NoText s "delimiter") :
    (NoText s "out" → midiasm w argv = ⟨[], writeTable (exportTsv (smf.tracks.map (·.events))), .success⟩) ∧
    (∀ out, Output s out → w.create out = true → ∃ text, midiasm w argv = ⟨[(out, text)], [], .success⟩ ∧
      text = str "Tick\tDelta\tTag\tChannel\tNote\tVelocity\tDetails\n" ++ (exportTsv (smf.tracks.map (·.events))).flatMap (csvRecord 9)) := by
  rw [midiasm_runs hi hl]
  refine ⟨does_tsv_print hd ht, fun out ho hcr => ⟨_, ?_, rfl⟩⟩
  obtain ⟨ho1, ho2⟩ := out_given.mp ho
  have htab' : boolFlag s "tabular" = false := by
    rw [← Bool.not_eq_true, boolFlag_given]
    exact htab
  have hh : csvRecord 9 tsvHeader = str "Tick\tDelta\tTag\tChannel\tNote\tVelocity\tDetails\n" := by decide +kernel
  simp only [execute, runTsv, ← middleC.eq_def]
  rw [withFile_ok hd ht]
  simp only [ho2, htab', ho1, out_empty.mpr hdel, false_or, Bool.false_eq_true, if_false, if_true, true_or, writeDelimited, writeTSV]
  rw [← hh]
  simp [emit, ho1, hcr, statusOf]

/-- C107 is false: without an output file neither the delimiter nor the choice of a table makes any difference. -/
theorem C107_delimiter_fails (w : World) (args argv args' argv' : List Bytes) (s s' : List (Bytes × FlagValue)) (r r' : List Bytes)
    (hi : Invokes .tsv args argv) (hl : CommandLine (options .tsv) args s r) (hi' : Invokes .tsv args' argv')
    (hl' : CommandLine (options .tsv) args' s' r') (hs : Given s "C4" (.bool true) ↔ Given s' "C4" (.bool true)) (hr : r.head? = r'.head?)
    (hno : NoText s "out") (hno' : NoText s' "out") : midiasm w argv = midiasm w argv' := by
  rw [midiasm_runs hi hl, midiasm_runs hi' hl']
  have hmc : middleC s = middleC s' := by
    unfold middleC
    rw [← boolFlag_given, ← boolFlag_given, ← Bool.eq_iff_iff] at hs
    rw [hs]
  simp only [execute, runTsv, ← middleC.eq_def, out_empty.mpr hno, out_empty.mpr hno', headD_same hr, hmc]
  simp

/-- C107 with an output file: the first character of the delimiter given, if it is an ASCII character but not a quote, a line end or NUL, is
used; `\\t` stands for a tabulator. -/
theorem C107_delimiter_partial (w : World) (args argv : List Bytes) (s : List (Bytes × FlagValue)) (r : List Bytes) (hi : Invokes .tsv args argv)
    (hl : CommandLine (options .tsv) args s r) (smf : SMF) (hd : Decodes w s (r.headD []) smf) (ht : ¬ Trackless1 smf) (out : Bytes) (ho : Output s out)
    (hcr : w.create out = true) (htab : ¬ Given s "tabular" (.bool true)) (d : UInt8) (rest : Bytes)
    (hdel : Given s "delimiter" (.string (d :: rest))) (hd7 : d.toNat < 128) (htn : d :: rest ≠ str "\\t")
    (hgood : d ∉ [34, 13, 10, 0]) :
    ∃ text, writeTSV tsvHeader (exportTsv (smf.tracks.map (·.events))) d = .ok text ∧ midiasm w argv = ⟨[(out, text)], [], .success⟩ := by
  rw [midiasm_runs hi hl]
  obtain ⟨ho1, ho2⟩ := out_given.mp ho
  have htab' : boolFlag s "tabular" = false := by
    rw [← Bool.not_eq_true, boolFlag_given]
    exact htab
  have hs : stringFlag s "delimiter" = d :: rest := stringFlag_eq s _ _ hdel
  have hrune : (runes (d :: rest)).headD 0 = d.toNat := by
    have := runes_split [] rest d hd7
    rw [List.nil_append] at this
    rw [this]
    rfl
  have hw : ∃ text, writeTSV tsvHeader (exportTsv (smf.tracks.map (·.events))) d = .ok text := by
    unfold writeTSV
    simp only [List.mem_cons, List.not_mem_nil, or_false, not_or] at hgood
    simp [hgood]
  obtain ⟨text, hw⟩ := hw
  refine ⟨text, hw, ?_⟩
  simp only [execute, runTsv, ← middleC.eq_def]
  rw [withFile_ok hd ht]
  have hne : ¬ (d :: rest = [] ∨ d :: rest = str "\\t") := by
    rintro (h | h)
    · cases h
    · exact htn h
  simp only [ho2, htab', ho1, hs, false_or, Bool.false_eq_true, if_false, if_neg hne, hrune, writeDelimited, if_pos hd7]
  rw [show UInt8.ofNat d.toNat = d by simp, hw]
  simp [emit, ho1, hcr, statusOf]

/-! ### C108: input that cannot be read -/

/-- Reading a file: what is loaded. -/
theorem load_missing {w : World} {mc : MiddleC} {f : Bytes} (h : f = [] ∨ w.read f = none) : load w mc f = .err .other := by
  have : w.file f = none := by
    unfold World.file
    rcases h with rfl | h
    · simp
    · simp [h]
  unfold load
  rw [this]

/-- Every command that reads a MIDI file starts by loading it. -/
theorem execute_loads (w : World) (c : Command) (hc : ReadsMidi c) (s : List (Bytes × FlagValue)) (r : List Bytes) :
    ∃ g, execute w c s r = withFile w (middleC s) (r.headD []) g := by
  simp only [ReadsMidi, List.mem_cons, List.not_mem_nil, or_false] at hc
  rcases hc with rfl | rfl | rfl | rfl | rfl | rfl | rfl <;> exact ⟨_, rfl⟩

/-- **C108.** A missing or unnamed input, or one that is refused by the decoder, makes the commands that read MIDI files fail with an error; nothing is
written or printed.  The same holds for assembling a missing or unnamed input. -/
theorem C108_bad_input (w : World) (c : Command) (args argv : List Bytes) (s : List (Bytes × FlagValue)) (r : List Bytes) (hi : Invokes c args argv)
    (hl : CommandLine (options c) args s r) :
    ((ReadsMidi c ∨ c = .assemble) → (r.headD [] = [] ∨ w.read (r.headD []) = none) → midiasm w argv = ⟨[], [], .failed⟩) ∧
    (ReadsMidi c → ∀ bytes mc e, r.headD [] ≠ [] → w.read (r.headD []) = some bytes → Naming s mc → decode mc w.spare bytes = .err e →
      midiasm w argv = ⟨[], [], .failed⟩) ∧
    (c = .assemble → ∀ text, r.headD [] ≠ [] → w.read (r.headD []) = some text → (∀ bytes, assembleText Lib.manufacturers text ≠ .ok bytes) →
      (∀ bytes mc, assembleJsonText mc text ≠ .ok bytes) → (midiasm w argv).files = [] ∧ (midiasm w argv).stdout = [] ∧ (midiasm w argv).status ≠ .success) := by
  rw [midiasm_runs hi hl]
  refine ⟨?_, ?_, ?_⟩
  · rintro (hc | rfl) hm
    · obtain ⟨g, hg⟩ := execute_loads w c hc s r
      rw [hg, withFile, load_missing hm]
      rfl
    · have : w.file (r.headD []) = none := by
        revert hm
        generalize r.headD [] = f
        rintro (h | h)
        · simp [World.file, h]
        · simp [World.file, h]
      simp only [execute, runAssemble, this]
  · intro hc bytes mc e hne hr hn hd
    obtain ⟨g, hg⟩ := execute_loads w c hc s r
    rw [naming_iff] at hn
    subst hn
    rw [hg, withFile, load, file_some.mpr ⟨hne, hr⟩]
    simp only [hd, Outcome.bind_err, statusOf]
  · rintro rfl text hne hr h1 h2
    rw [does_assemble hne hr]
    have key : ∀ o : Outcome Bytes, (∀ bytes, o ≠ .ok bytes) → (save w (stringFlag s "out") o).files = [] ∧ (save w (stringFlag s "out") o).stdout = [] ∧
        (save w (stringFlag s "out") o).status ≠ .success := by
      intro o ho
      cases o with
      | ok b => exact absurd rfl (ho b)
      | err e => simp [save, statusOf]
      | panic => simp [save, statusOf]
      | diverge => simp [save, statusOf]
    split
    · exact key _ fun b => h2 b _
    · exact key _ h1

/-! ### C109: humanising -/

/-- C109 is false: humanising never succeeds, writes nothing and prints nothing, whatever it is given. -/
theorem C109_humanise_fails (w : World) (args argv : List Bytes) (hi : Invokes .humanise args argv) :
    (midiasm w argv).files = [] ∧ (midiasm w argv).stdout = [] ∧ (midiasm w argv).status ≠ .success := by
  rw [midiasm_invoked hi]
  cases parseFlags (commandFlags .humanise) args with
  | ok s r =>
    simp only [execute, runHumanise, withFile]
    cases load w _ (r.headD []) <;> simp [statusOf]
  | help => simp
  | bad => simp

/-! ### C110: crashes -/

/-- The output file, if one is named, can be created. -/
def CanCreate (w : World) (s : List (Bytes × FlagValue)) : Prop := ∀ out, Output s out → w.create out = true

theorem canCreate_iff (w : World) (s : List (Bytes × FlagValue)) : CanCreate w s ↔ stringFlag s "out" = [] ∨ w.create (stringFlag s "out") = true := by
  unfold CanCreate
  constructor
  · intro h
    by_cases he : stringFlag s "out" = []
    · exact Or.inl he
    · exact Or.inr (h _ (out_given.mpr ⟨he, rfl⟩))
  · rintro (h | h) out ho
    · obtain ⟨h1, h2⟩ := out_given.mp ho
      exact absurd (h2.symm.trans h) h1
    · obtain ⟨h1, h2⟩ := out_given.mp ho
      rwa [h2] at h

theorem emit_status (w : World) (s : List (Bytes × FlagValue)) (o : Outcome Bytes) :
    (CanCreate w s → (emit w (stringFlag s "out") o).status = statusOf o) ∧ (¬ CanCreate w s → (emit w (stringFlag s "out") o).status = .failed) := by
  rw [canCreate_iff]
  unfold emit
  by_cases h1 : stringFlag s "out" = []
  · simp [h1]
  · cases h2 : w.create (stringFlag s "out") <;> simp [h1, h2]

theorem save_status (w : World) (s : List (Bytes × FlagValue)) (b : Bytes) :
    (CanCreate w s → (save w (stringFlag s "out") (.ok b)).status = .success) ∧
    (¬ CanCreate w s → (save w (stringFlag s "out") (.ok b)).status = .failed) := by
  rw [canCreate_iff]
  unfold save
  by_cases h1 : stringFlag s "out" = []
  · simp [h1]
  · cases h2 : w.create (stringFlag s "out") <;> simp [h1, h2]

theorem splitTracks_status (w : World) (fresh : Bool) (p : Printer) (dir base : Bytes) (ts : List MTrk) :
    (splitTracks w fresh p dir base ts).2 = .success ∨ (splitTracks w fresh p dir base ts).2 = .failed := by
  induction ts with
  | nil => exact Or.inl rfl
  | cons t ts ih =>
    rw [splitTracks]
    simp only
    split
    · exact ih
    · exact Or.inr rfl

theorem separate_status (w : World) (out : Bytes) (p : Printer) (smf : SMF) (f : Bytes) :
    (separate w out p smf f).status = .success ∨ (separate w out p smf f).status = .failed := by
  unfold separate
  generalize (if out = [] then dirPath f else out) = dir
  simp only
  split
  · exact Or.inr rfl
  · split
    · exact splitTracks_status _ _ _ _ _ _
    · exact Or.inr rfl

/-- **C110.** A command that reads a MIDI file which decodes never loops, and crashes exactly for a format 1 file without tracks, for notes that
cannot be timed and for the click track of a file without tracks (in the last two cases once the output file has been created). -/
theorem C110_crashes (w : World) (c : Command) (args argv : List Bytes) (s : List (Bytes × FlagValue)) (r : List Bytes) (hi : Invokes c args argv)
    (hl : CommandLine (options c) args s r) (hc : ReadsMidi c) (smf : SMF) (hd : Decodes w s (r.headD []) smf) :
    (midiasm w argv).status ≠ .hanging ∧
    ((midiasm w argv).status = .panicked ↔
      Trackless1 smf ∨ (CanCreate w s ∧ (c = .notes ∧ Untimeable smf ∨ c = .click ∧ smf.tracks = []))) := by
  rw [midiasm_runs hi hl]
  by_cases ht : Trackless1 smf
  · obtain ⟨g, hg⟩ := execute_loads w c hc s r
    rw [hg, withFile, (load_decodes hd).2 ht]
    simp [statusOf, ht]
  · obtain ⟨_, bytes, mc, _, _, hdec⟩ := id hd
    obtain ⟨m, _, hm, _⟩ := decode_ok hdec
    have sf : ∀ {x : Status}, x = .success ∨ x = .failed → x ≠ .hanging ∧ x ≠ .panicked := by
      rintro x (rfl | rfl) <;> decide
    have no : ∀ {x : Status}, x = .success ∨ x = .failed → c ≠ .notes → c ≠ .click → x ≠ .hanging ∧ (x = .panicked ↔
        Trackless1 smf ∨ (CanCreate w s ∧ (c = .notes ∧ Untimeable smf ∨ c = .click ∧ smf.tracks = []))) := by
      intro x hx h1 h2
      obtain ⟨a, b⟩ := sf hx
      exact ⟨a, by simp [b, ht, h1, h2]⟩
    have hem : ∀ t, (emit w (stringFlag s "out") (.ok t)).status = .success ∨ (emit w (stringFlag s "out") (.ok t)).status = .failed := by
      intro t
      by_cases hcc : CanCreate w s
      · exact Or.inl ((emit_status w s _).1 hcc)
      · exact Or.inr ((emit_status w s _).2 hcc)
    simp only [ReadsMidi, List.mem_cons, List.not_mem_nil, or_false] at hc
    rcases hc with rfl | rfl | rfl | rfl | rfl | rfl | rfl
    · refine no ?_ (by decide) (by decide)
      simp only [execute, runDisassemble, ← middleC.eq_def]
      rw [withFile_ok hd ht]
      split
      · exact Or.inr rfl
      · split
        · exact separate_status _ _ _ _ _
        · unfold writeDocument
          simp only
          repeat' split
          all_goals simp
    · simp only [execute, runNotes, ← middleC.eq_def]
      rw [withFile_ok hd ht]
      obtain ⟨n1, n2⟩ := extractNotes_total (mc' := middleC s) hdec w.order (intFlag s "transpose")
      by_cases hcc : CanCreate w s
      · rw [(emit_status w s _).1 hcc]
        by_cases hu : Untimeable smf
        · rw [n1 hu]
          simp [statusOf, Outcome.bind_panic, hcc, hu]
        · obtain ⟨ns, h⟩ := n2 hu
          rw [h]
          simp [statusOf, hu, ht]
      · rw [(emit_status w s _).2 hcc]
        simp [ht, hcc]
    · simp only [execute, runClick, ← middleC.eq_def]
      rw [withFile_ok hd ht]
      obtain ⟨c1, c2⟩ := C77_click_silent smf m hm
      by_cases hcc : CanCreate w s
      · have : ¬ (stringFlag s "out" ≠ [] ∧ w.create (stringFlag s "out") = false) := by
          rcases (canCreate_iff w s).mp hcc with h | h <;> simp [h]
        rw [if_neg this]
        by_cases hu : smf.tracks = []
        · rw [c2 hu]
          simp [statusOf, hcc, hu]
        · rw [c1 hu]
          simp [hu, ht]
      · have : stringFlag s "out" ≠ [] ∧ w.create (stringFlag s "out") = false := by
          rw [canCreate_iff, not_or, Bool.not_eq_true] at hcc
          exact hcc
        rw [if_pos this]
        simp [ht, hcc]
    · refine no ?_ (by decide) (by decide)
      rw [does_export hd ht]
      exact hem _
    · refine no ?_ (by decide) (by decide)
      simp only [execute, runTranspose, ← middleC.eq_def]
      rw [withFile_ok hd ht]
      obtain ⟨bs, hb⟩ := transposeExecute_total (mc' := middleC s) hdec (intFlag s "semitones")
      rw [hb]
      by_cases hcc : CanCreate w s
      · exact Or.inl ((save_status w s _).1 hcc)
      · exact Or.inr ((save_status w s _).2 hcc)
    · refine no ?_ (by decide) (by decide)
      simp only [execute, runTsv, ← middleC.eq_def]
      rw [withFile_ok hd ht]
      have hq : ∀ recs k, (emit w (stringFlag s "out") (writeDelimited tsvHeader recs k)).status = .success ∨
          (emit w (stringFlag s "out") (writeDelimited tsvHeader recs k)).status = .failed := by
        intro recs k
        by_cases hcc : CanCreate w s
        · rw [(emit_status w s _).1 hcc]
          unfold writeDelimited writeTSV
          repeat' split
          all_goals simp [statusOf]
        · exact Or.inr ((emit_status w s _).2 hcc)
      split
      · exact hem _
      · split
        · exact hq _ _
        · exact hq _ _
    · refine no ?_ (by decide) (by decide)
      simp only [execute, runHumanise, ← middleC.eq_def]
      rw [withFile_ok hd ht]
      exact Or.inr rfl

/-! ### Runs that meet the hypotheses -/

/-- Exporting a file, printed and written. -/
example : ∃ text, midiasm demo [str "export", str "in.mid"] = ⟨[], text, .success⟩ ∧ text ≠ [] ∧
    midiasm demo [str "export", str "--out", str "notes.json", str "in.mid"] = ⟨[(str "notes.json", text)], [], .success⟩ :=
  ⟨(midiasm demo [str "export", str "in.mid"]).stdout, by decide +kernel, by decide +kernel, by decide +kernel⟩

/-- Tables of events: `--delimiter` on standard output and in a file. -/
example : (midiasm demo [str "tsv", str "--delimiter", str ";", str "in.mid"]).stdout = (midiasm demo [str "tsv", str "in.mid"]).stdout ∧
    (midiasm demo [str "tsv", str "in.mid"]).stdout ≠ [] ∧
    (midiasm demo [str "tsv", str "--out", str "x.tsv", str "in.mid"]).files.map (·.2) ≠ [(midiasm demo [str "tsv", str "in.mid"]).stdout] ∧
    ((midiasm demo [str "tsv", str "--delimiter", str ";", str "--out", str "x.tsv", str "in.mid"]).files.map (fun f => f.2.take 11)) = [str "Tick;Delta;"] := by
  decide +kernel

/-- The click track of a file with tracks, a missing file, humanising, and notes and click track of a file of format 0 without tracks. -/
example : midiasm demo [str "click", str "--out", str "x", str "in.mid"] = ⟨[(str "x", [])], str "\n\n\n", .success⟩ ∧
    midiasm demo [str "export", str "--out", str "x", str "no.mid"] = ⟨[], [], .failed⟩ ∧
    midiasm demo [str "humanise", str "--out", str "x", str "in.mid"] = ⟨[], [], .failed⟩ ∧
    (midiasm demo [str "notes", str "empty.mid"]).status = .panicked ∧ (midiasm demo [str "click", str "empty.mid"]).status = .panicked ∧
    (midiasm demo [str "transpose", str "--semitones", str "1", str "empty.mid"]).status = .success := by
  decide +kernel

end Midiasm
