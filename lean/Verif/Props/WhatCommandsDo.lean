import Verif.Props.Outputs

/-!
Property C116: what each command does with a MIDI file that can be read.
-/

set_option linter.unusedSimpArgs false

namespace Midiasm
open Spec

theorem number_flag {s : List (Bytes × FlagValue)} {name : String} {n : Int} (h : Number s name n) : intFlag s name = n := by
  rcases h with h | ⟨h, rfl⟩
  · exact intFlag_eq s name n h
  · exact intFlag_none s name h

theorem naming_unique {s : List (Bytes × FlagValue)} {mc : MiddleC} (h : Naming s mc) : middleC s = mc := ((naming_iff s mc).mp h).symm

theorem emit_delivers (w : World) (s : List (Bytes × FlagValue)) (text : Bytes) : Delivers w s text (emit w (stringFlag s "out") (.ok text)) := by
  refine ⟨fun h => ?_, fun out ho hc => emit_ok_out ho hc, fun out ho hc => ?_⟩
  · rw [out_empty.mpr h]
    simp [emit, statusOf]
  · obtain ⟨h1, h2⟩ := out_given.mp ho
    simp [emit, h2, h1, hc]

theorem save_saves (w : World) (s : List (Bytes × FlagValue)) (content : Bytes) : Saves w s content (save w (stringFlag s "out") (.ok content)) := by
  refine ⟨fun h => ?_, fun out ho hc => save_ok_out ho hc, fun out ho hc => ?_⟩
  · rw [out_empty.mpr h]
    simp [save]
  · obtain ⟨h1, h2⟩ := out_given.mp ho
    simp [save, h2, h1, hc]

theorem not_flag {s : List (Bytes × FlagValue)} {name : String} (h : ¬ Given s name (.bool true)) : boolFlag s name = false := by
  rw [← Bool.not_eq_true, boolFlag_given]
  exact h

/-- **C116.** The command `notes`: the notes of the file, transposed by the number given, as JSON or as text. -/
theorem C116_notes (w : World) (args argv : List Bytes) (s : List (Bytes × FlagValue)) (r : List Bytes) (hi : Invokes .notes args argv)
    (hl : CommandLine (options .notes) args s r) (smf : SMF) (hd : Decodes w s (r.headD []) smf) (ht : ¬ Trackless1 smf) (hu : ¬ Untimeable smf)
    (mc : MiddleC) (hmc : Naming s mc) (n : Int) (hn : Number s "transpose" n) :
    ∃ notes, extractNotes mc w.order n smf = .ok notes ∧
      (Given s "json" (.bool true) → Delivers w s (notesJsonText notes) (midiasm w argv)) ∧
      (¬ Given s "json" (.bool true) → Delivers w s (printNotes notes) (midiasm w argv)) := by
  obtain ⟨_, bytes, mc', _, _, hdec⟩ := id hd
  obtain ⟨notes, hnotes⟩ := (extractNotes_total (mc' := mc) hdec w.order n).2 hu
  have e : midiasm w argv = emit w (stringFlag s "out") (.ok (if boolFlag s "json" then notesJsonText notes else printNotes notes)) := by
    rw [midiasm_runs hi hl]
    simp only [execute, runNotes, ← middleC.eq_def]
    rw [withFile_ok hd ht, naming_unique hmc, number_flag hn, hnotes]
    rfl
  refine ⟨notes, hnotes, fun h => ?_, fun h => ?_⟩
  · rw [e, (boolFlag_given s "json").mpr h]
    exact emit_delivers w s _
  · rw [e, not_flag h]
    exact emit_delivers w s _

/-- **C116.** The command `transpose`: the bytes of the file, transposed by the number given, are written. -/
theorem C116_transpose (w : World) (args argv : List Bytes) (s : List (Bytes × FlagValue)) (r : List Bytes) (hi : Invokes .transpose args argv)
    (hl : CommandLine (options .transpose) args s r) (smf : SMF) (hd : Decodes w s (r.headD []) smf) (ht : ¬ Trackless1 smf)
    (mc : MiddleC) (hmc : Naming s mc) (n : Int) (hn : Number s "semitones" n) :
    ∃ bytes, transposeExecute mc n false smf = .ok bytes ∧ Saves w s bytes (midiasm w argv) := by
  obtain ⟨_, file, mc', _, _, hdec⟩ := id hd
  obtain ⟨bytes, hb⟩ := transposeExecute_total (mc' := mc) hdec n
  refine ⟨bytes, hb, ?_⟩
  rw [midiasm_runs hi hl]
  simp only [execute, runTranspose, ← middleC.eq_def]
  rw [withFile_ok hd ht, naming_unique hmc, number_flag hn, hb]
  exact save_saves w s bytes

/-- **C116.** The command `export`. -/
theorem C116_export (w : World) (args argv : List Bytes) (s : List (Bytes × FlagValue)) (r : List Bytes) (hi : Invokes .export_ args argv)
    (hl : CommandLine (options .export_) args s r) (smf : SMF) (hd : Decodes w s (r.headD []) smf) (ht : ¬ Trackless1 smf) :
    Delivers w s (exportText smf) (midiasm w argv) := by
  rw [midiasm_runs hi hl, does_export hd ht]
  exact emit_delivers w s _

/-- **C116.** Disassembling without splitting, with the built in templates: the disassembly. -/
theorem C116_disassemble (w : World) (args argv : List Bytes) (s : List (Bytes × FlagValue)) (r : List Bytes) (hi : Invokes .disassemble args argv)
    (hl : CommandLine (options .disassemble) args s r) (smf : SMF) (hd : Decodes w s (r.headD []) smf) (ht : ¬ Trackless1 smf)
    (hp : NoText s "templates") (hs : ¬ Given s "split" (.bool true)) : ∃ text, printSMF smf = .ok text ∧ Delivers w s text (midiasm w argv) := by
  rw [midiasm_runs hi hl]
  obtain ⟨text, h1, h2, h3, h4⟩ := does_disassemble hd ht hp hs
  exact ⟨text, h1, ⟨h2, h3, h4⟩⟩

/-- **C116.** Disassembling with templates from a file, split or not: without such a file, and if it holds no templates, the command fails
and does nothing. -/
theorem C116_no_templates (w : World) (args argv : List Bytes) (s : List (Bytes × FlagValue)) (r : List Bytes) (hi : Invokes .disassemble args argv)
    (hl : CommandLine (options .disassemble) args s r) (smf : SMF) (hd : Decodes w s (r.headD []) smf) (ht : ¬ Trackless1 smf)
    (t : Bytes) (hne : t ≠ []) (hp : Given s "templates" (.string t)) (hbad : ∀ c, w.read t = some c → w.templates c = none) :
    midiasm w argv = ⟨[], [], .failed⟩ := by
  rw [midiasm_runs hi hl]
  simp only [execute, runDisassemble, ← middleC.eq_def]
  rw [withFile_ok hd ht]
  have : printerFor w (stringFlag s "templates") = none := by
    rw [stringFlag_eq s _ _ hp, printerFor, if_neg hne]
    cases hf : w.file t with
    | none => rfl
    | some c => exact hbad c (file_some.mp hf).2
  rw [this]

/-- **C116.** Disassembling with templates from a file, not split: what the templates give, also if they fail half way. -/
theorem C116_templates (w : World) (args argv : List Bytes) (s : List (Bytes × FlagValue)) (r : List Bytes) (hi : Invokes .disassemble args argv)
    (hl : CommandLine (options .disassemble) args s r) (smf : SMF) (hd : Decodes w s (r.headD []) smf) (ht : ¬ Trackless1 smf)
    (hs : ¬ Given s "split" (.bool true)) (t : Bytes) (hne : t ≠ []) (hp : Given s "templates" (.string t)) (c : Bytes) (hc : w.read t = some c)
    (p : Printer) (htm : w.templates c = some p) :
    ((p.document smf).2 = true → Delivers w s (p.document smf).1 (midiasm w argv)) ∧
    ((p.document smf).2 = false → (midiasm w argv).status = .failed) := by
  have hpr : printerFor w (stringFlag s "templates") = some p := by
    rw [stringFlag_eq s _ _ hp, printerFor, if_neg hne, file_some.mpr ⟨hne, hc⟩]
    exact htm
  have e : midiasm w argv = writeDocument w (stringFlag s "out") p smf := by
    rw [midiasm_runs hi hl]
    simp only [execute, runDisassemble, ← middleC.eq_def]
    rw [withFile_ok hd ht, hpr]
    simp only [not_flag hs, Bool.false_eq_true, if_false]
  rw [e]
  unfold writeDocument
  generalize p.document smf = d
  obtain ⟨text, ok⟩ := d
  constructor
  · intro hok
    simp only at hok
    subst hok
    refine ⟨fun h => ?_, fun out ho hc => ?_, fun out ho hc => ?_⟩
    · rw [out_empty.mpr h]
      simp
    · obtain ⟨h1, h2⟩ := out_given.mp ho
      simp [h2, h1, hc]
    · obtain ⟨h1, h2⟩ := out_given.mp ho
      simp [h2, h1, hc]
  · intro hok
    simp only at hok
    subst hok
    simp only
    repeat' split
    all_goals simp_all

/-- **C116.** The command `tsv`, printing or with `--tabular`: a table with padded columns. -/
theorem C116_table (w : World) (args argv : List Bytes) (s : List (Bytes × FlagValue)) (r : List Bytes) (hi : Invokes .tsv args argv)
    (hl : CommandLine (options .tsv) args s r) (smf : SMF) (hd : Decodes w s (r.headD []) smf) (ht : ¬ Trackless1 smf)
    (htab : NoText s "out" ∨ Given s "tabular" (.bool true)) :
    Delivers w s (writeTable (exportTsv (smf.tracks.map (·.events)))) (midiasm w argv) := by
  rw [midiasm_runs hi hl]
  simp only [execute, runTsv, ← middleC.eq_def]
  rw [withFile_ok hd ht]
  have : stringFlag s "out" = [] ∨ boolFlag s "tabular" = true := by
    rcases htab with h | h
    · exact Or.inl (out_empty.mpr h)
    · exact Or.inr ((boolFlag_given s _).mpr h)
  rw [if_pos this]
  exact emit_delivers w s _

/-- The character that separates values: the first of the delimiter, a tabulator if none is given or it is `\\t`. -/
def Separator (s : List (Bytes × FlagValue)) (c : Nat) : Prop :=
  (NoText s "delimiter" ∧ c = 9) ∨ (Given s "delimiter" (.string [92, 116]) ∧ c = 9) ∨
  (∃ d, Given s "delimiter" (.string d) ∧ d ≠ [] ∧ d ≠ [92, 116] ∧ (runes d).head? = some c)

/-- **C116.** The command `tsv` with an output file and without `--tabular`: values separated by the delimiter.  A quote, a line end, NUL and
the replacement character (also in place of a delimiter that is not UTF-8) are refused, after the output file has been emptied. -/
theorem C116_delimited (w : World) (args argv : List Bytes) (s : List (Bytes × FlagValue)) (r : List Bytes) (hi : Invokes .tsv args argv)
    (hl : CommandLine (options .tsv) args s r) (smf : SMF) (hd : Decodes w s (r.headD []) smf) (ht : ¬ Trackless1 smf)
    (htab : ¬ Given s "tabular" (.bool true)) (out : Bytes) (ho : Output s out) (c : Nat) (hsep : Separator s c) :
    (c ∈ [0, 10, 13, 34, 0xfffd] → midiasm w argv = if w.create out then ⟨[(out, [])], [], .failed⟩ else ⟨[], [], .failed⟩) ∧
    (c ∉ [0, 10, 13, 34, 0xfffd] → ∃ text, writeDelimited tsvHeader (exportTsv (smf.tracks.map (·.events))) c = .ok text ∧
      Delivers w s text (midiasm w argv)) := by
  obtain ⟨ho1, ho2⟩ := out_given.mp ho
  have hbs : str "\\t" = [92, 116] := by decide +kernel
  have e : midiasm w argv = emit w (stringFlag s "out") (writeDelimited tsvHeader (exportTsv (smf.tracks.map (·.events))) c) := by
    rw [midiasm_runs hi hl]
    simp only [execute, runTsv, ← middleC.eq_def]
    rw [withFile_ok hd ht, if_neg (by simp [ho2, ho1, not_flag htab]), hbs]
    rcases hsep with ⟨h, rfl⟩ | ⟨h, rfl⟩ | ⟨d, h, hd0, hd1, hd2⟩
    · rw [if_pos (Or.inl (out_empty.mpr h))]
    · rw [if_pos (Or.inr (stringFlag_eq s _ _ h))]
    · rw [stringFlag_eq s _ _ h, if_neg (by simp [hd0, hd1])]
      cases hr : runes d with
      | nil => rw [hr] at hd2; cases hd2
      | cons a l =>
        rw [hr] at hd2
        simp only [List.head?_cons, Option.some.injEq] at hd2
        subst hd2
        rfl
  rw [e]
  constructor
  · intro hc
    have herr : writeDelimited tsvHeader (exportTsv (smf.tracks.map (·.events))) c = .err .other := by
      generalize exportTsv (smf.tracks.map (·.events)) = recs
      simp only [List.mem_cons, List.not_mem_nil, or_false] at hc
      rcases hc with rfl | rfl | rfl | rfl | rfl <;> rfl
    rw [herr, ho2]
    simp only [emit, if_neg ho1]
    split <;> rfl
  · intro hc
    have hok : ∃ text, writeDelimited tsvHeader (exportTsv (smf.tracks.map (·.events))) c = .ok text := by
      simp only [List.mem_cons, List.not_mem_nil, or_false, not_or] at hc
      unfold writeDelimited
      split
      · rename_i hlt
        unfold writeTSV
        have hn : ∀ k, k < 128 → c ≠ k → UInt8.ofNat c ≠ UInt8.ofNat k := by
          intro k hk hne h
          have := congrArg UInt8.toNat h
          simp only [UInt8.toNat_ofNat'] at this
          omega
        rw [if_neg]
        · exact ⟨_, rfl⟩
        · have h0 := hn 0 (by omega) hc.1
          have h1 := hn 10 (by omega) hc.2.1
          have h2 := hn 13 (by omega) hc.2.2.1
          have h3 := hn 34 (by omega) hc.2.2.2.1
          have e0 : UInt8.ofNat 0 = 0 := rfl
          have e1 : UInt8.ofNat 10 = 10 := rfl
          have e2 : UInt8.ofNat 13 = 13 := rfl
          have e3 : UInt8.ofNat 34 = 34 := rfl
          rw [e0] at h0; rw [e1] at h1; rw [e2] at h2; rw [e3] at h3
          simp [h0, h1, h2, h3]
      · rw [if_neg (show ¬ c = runeError from hc.2.2.2.2)]
        exact ⟨_, rfl⟩
    obtain ⟨text, hok⟩ := hok
    refine ⟨text, hok, ?_⟩
    rw [hok]
    exact emit_delivers w s text

/-- **C116.** The commands `version` and `help` print and do nothing else. -/
theorem C116_version (w : World) (args argv : List Bytes) (s : List (Bytes × FlagValue)) (r : List Bytes) (hi : Invokes .version args argv)
    (hl : CommandLine (options .version) args s r) : midiasm w argv = ⟨[], str "midiasm v0.3.x" ++ [10], .success⟩ := by
  rw [midiasm_runs hi hl]
  have : str "midiasm v0.3.x\n" = str "midiasm v0.3.x" ++ [10] := by decide +kernel
  rw [← this]
  rfl

theorem C116_help (w : World) (args argv : List Bytes) (s : List (Bytes × FlagValue)) (r : List Bytes) (hi : Invokes .help args argv)
    (hl : CommandLine (options .help) args s r) : midiasm w argv = ⟨[], helpText (r.headD []), .success⟩ := by
  rw [midiasm_runs hi hl]
  rfl

/-- **C116.** The command `assemble`: files with the extension `.json` are read as JSON, all others as text. -/
theorem C116_assemble (w : World) (args argv : List Bytes) (s : List (Bytes × FlagValue)) (r : List Bytes) (hi : Invokes .assemble args argv)
    (hl : CommandLine (options .assemble) args s r) (mc : MiddleC) (hmc : Naming s mc) (hf : r.headD [] ≠ []) (text : Bytes)
    (hr : w.read (r.headD []) = some text) (bytes : Bytes)
    (hb : (extPath (r.headD []) = str ".json" ∧ assembleJsonText mc text = .ok bytes) ∨
      (extPath (r.headD []) ≠ str ".json" ∧ assembleText Lib.manufacturers text = .ok bytes)) : Saves w s bytes (midiasm w argv) := by
  rw [midiasm_runs hi hl, does_assemble hf hr, naming_unique hmc]
  rcases hb with ⟨h1, h2⟩ | ⟨h1, h2⟩
  · rw [if_pos h1, h2]
    exact save_saves w s bytes
  · rw [if_neg h1, h2]
    exact save_saves w s bytes

/-! ### Runs that meet the hypotheses -/

/-- `midiasm notes --transpose 2 in.mid`. -/
example : ∃ notes, (midiasm demo [str "notes", str "--transpose", str "2", str "in.mid"]) = ⟨[], printNotes notes, .success⟩ := by
  obtain ⟨smf, h1, h2⟩ := Outcome.of_test (o := decode .c3 [] plainFile) (p := fun smf => decide (smf.tracks.length = 1)) (by decide +kernel)
  simp only [decide_eq_true_eq] at h2
  have hne : smf.tracks ≠ [] := by
    intro h
    rw [h] at h2
    simp at h2
  have hl : CommandLine (options .notes) [str "--transpose", str "2", str "in.mid"] [(str "transpose", .int 2)] [str "in.mid"] := by_parse (by decide +kernel)
  have hD : Decodes demo [(str "transpose", .int 2)] (str "in.mid") smf := demo_decodes (not_given (by decide +kernel)) h1
  have hN : Number [(str "transpose", .int 2)] "transpose" 2 := Or.inl ((flagValue_given _ _ _).mp (by decide +kernel))
  have hu : ¬ Untimeable smf := by
    rintro (h | ⟨m, t0, ts, t, _, _, h, ht, _⟩)
    · exact hne h
    · rw [h] at h2
      have h0 : ts = [] := List.length_eq_zero_iff.mp (by simp only [List.length_cons] at h2; omega)
      rw [h0] at ht
      cases ht
  obtain ⟨notes, hn, _, h⟩ := C116_notes demo _ _ _ _ (Or.inl rfl) hl smf hD (fun ⟨_, _, _, h⟩ => hne h) hu .c3 (Or.inr ⟨rfl, not_given (by decide +kernel)⟩) 2 hN
  exact ⟨notes, (h (not_given (by decide +kernel))).printed (out_empty.mp (by decide +kernel))⟩

/-- `midiasm tsv --delimiter € --out x in.mid` and the same with a quote. -/
example : ∃ text, midiasm demo [str "tsv", str "--delimiter", str "€", str "--out", str "x", str "in.mid"] = ⟨[(str "x", text)], [], .success⟩ ∧
    midiasm demo [str "tsv", str "--delimiter", str "\"", str "--out", str "x", str "in.mid"] = ⟨[(str "x", [])], [], .failed⟩ := by
  obtain ⟨smf, _, h1, _, _, hne, _⟩ := plain_decoded
  have hl : ∀ d : Bytes, d = str "€" ∨ d = str "\"" → CommandLine (options .tsv) [str "--delimiter", d, str "--out", str "x", str "in.mid"]
      [(str "delimiter", .string d), (str "out", .string (str "x"))] [str "in.mid"] := by
    rintro d (rfl | rfl) <;> exact by_parse (by decide +kernel)
  have hD : ∀ d : Bytes, d = str "€" ∨ d = str "\"" → Decodes demo [(str "delimiter", .string d), (str "out", .string (str "x"))] (str "in.mid") smf := by
    rintro d (rfl | rfl) <;> exact demo_decodes (not_given (by decide +kernel)) h1
  have hS : ∀ d : Bytes, (d = str "€" ∨ d = str "\"") → ∀ c, (runes d).head? = some c →
      Separator [(str "delimiter", .string d), (str "out", .string (str "x"))] c := by
    intro d hd c hc
    refine Or.inr (Or.inr ⟨d, ?_, ?_, ?_, hc⟩)
    · rcases hd with rfl | rfl <;> exact (flagValue_given _ _ _).mp (by decide +kernel)
    · rcases hd with rfl | rfl <;> decide +kernel
    · rcases hd with rfl | rfl <;> decide +kernel
  have hx : ∀ d : Bytes, Output [(str "delimiter", .string d), (str "out", .string (str "x"))] (str "x") := by
    intro d
    refine out_given.mpr ⟨by decide +kernel, ?_⟩
    exact stringFlag_eq _ _ _ ((flagValue_given _ _ _).mp (by
      simp only [flagValue, List.reverse_cons, List.reverse_nil, List.nil_append, List.cons_append]
      rw [List.lookup_cons]
      simp))
  obtain ⟨text, _, h⟩ := (C116_delimited demo _ _ _ _ (Or.inl rfl) (hl _ (Or.inl rfl)) smf (hD _ (Or.inl rfl)) (fun ⟨_, _, _, h⟩ => hne h)
    (not_given (by decide +kernel)) (str "x") (hx _) 0x20ac (hS _ (Or.inl rfl) _ (by decide +kernel))).2 (by decide)
  refine ⟨text, h.written (str "x") (hx _) rfl, ?_⟩
  exact (C116_delimited demo _ _ _ _ (Or.inl rfl) (hl _ (Or.inr rfl)) smf (hD _ (Or.inr rfl)) (fun ⟨_, _, _, h⟩ => hne h)
    (not_given (by decide +kernel)) (str "x") (hx _) 34 (hS _ (Or.inr rfl) _ (by decide +kernel))).1 (by decide)

/-- `midiasm transpose --semitones -3 --out y in.mid`. -/
example : ∃ bytes, midiasm demo [str "transpose", str "--semitones", str "-3", str "--out", str "y", str "in.mid"] = ⟨[(str "y", bytes)], [], .success⟩ := by
  obtain ⟨smf, _, h1, _, _, hne, _⟩ := plain_decoded
  obtain ⟨bytes, _, h⟩ := C116_transpose demo [str "--semitones", str "-3", str "--out", str "y", str "in.mid"] _
    [(str "semitones", .int (-3)), (str "out", .string (str "y"))] [str "in.mid"] (Or.inl rfl) (by_parse (by decide +kernel)) smf
    (demo_decodes (not_given (by decide +kernel)) h1) (fun ⟨_, _, _, h⟩ => hne h) .c3 (Or.inr ⟨rfl, not_given (by decide +kernel)⟩) (-3)
    (Or.inl ((flagValue_given _ _ _).mp (by decide +kernel)))
  exact ⟨bytes, h.written (str "y") (out_given.mpr ⟨by decide +kernel, by decide +kernel⟩) rfl⟩

/-- `midiasm --templates no.txt in.mid`, `midiasm version` and `midiasm tsv in.mid`. -/
example : midiasm demo [str "--templates", str "no.txt", str "in.mid"] = ⟨[], [], .failed⟩ ∧
    midiasm demo [str "version"] = ⟨[], str "midiasm v0.3.x\n", .success⟩ ∧
    ∃ text, midiasm demo [str "tsv", str "--delimiter", str ";", str "in.mid"] = ⟨[], text, .success⟩ := by
  obtain ⟨smf, _, h1, _, _, hne, _⟩ := plain_decoded
  refine ⟨?_, ?_, ?_⟩
  · refine C116_no_templates demo [str "--templates", str "no.txt", str "in.mid"] _ [(str "templates", .string (str "no.txt"))] [str "in.mid"] ?_
      (by_parse (by decide +kernel)) smf (demo_decodes (not_given (by decide +kernel)) h1) (fun ⟨_, _, _, h⟩ => hne h) (str "no.txt") (by decide +kernel)
      ((flagValue_given _ _ _).mp (by decide +kernel)) (fun _ _ => rfl)
    refine Or.inr ⟨rfl, rfl, ?_⟩
    intro a ha c
    simp only [List.head?_cons, Option.some.injEq] at ha
    subst ha
    cases c <;> decide +kernel
  · exact (C116_version demo [] [str "version"] [] [] (Or.inl rfl) (by_parse (by decide +kernel))).trans (by decide +kernel)
  · exact ⟨_, (C116_table demo [str "--delimiter", str ";", str "in.mid"] _ [(str "delimiter", .string (str ";"))] [str "in.mid"] (Or.inl rfl)
      (by_parse (by decide +kernel)) smf (demo_decodes (not_given (by decide +kernel)) h1) (fun ⟨_, _, _, h⟩ => hne h)
      (Or.inl (out_empty.mp (by decide +kernel)))).printed (out_empty.mp (by decide +kernel))⟩

end Midiasm
