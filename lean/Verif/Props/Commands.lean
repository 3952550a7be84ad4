import Verif.Props.CommandLine
import Verif.Spec.Commands
import Verif.Props.Printed
import Verif.Props.JsonText
import Verif.Props.Validate
import Verif.Props.Click
import Verif.Props.Notes

/-!
What the commands do (commands/*.go).
-/

set_option linter.unusedSimpArgs false

namespace Midiasm
open Spec

/-! ### The options of a command -/

/-- The naming of notes used by `execute`. -/
def middleC (s : List (Bytes × FlagValue)) : MiddleC := if boolFlag s "C4" then .c4 else .c3

theorem naming_iff (s : List (Bytes × FlagValue)) (mc : MiddleC) : Naming s mc ↔ mc = middleC s := by
  unfold Naming middleC
  rw [← boolFlag_given]
  cases boolFlag s "C4" <;> simp

theorem out_empty {s : List (Bytes × FlagValue)} {name : String} : stringFlag s name = [] ↔ NoText s name := by
  constructor
  · intro h v hv
    rw [← stringFlag_eq s name v hv, h]
  · exact stringFlag_none s name

theorem out_given {s : List (Bytes × FlagValue)} {out : Bytes} : Output s out ↔ out ≠ [] ∧ stringFlag s "out" = out := by
  constructor
  · rintro ⟨h1, h2⟩
    exact ⟨h1, stringFlag_eq s _ _ h2⟩
  · rintro ⟨h1, rfl⟩
    exact ⟨h1, stringFlag_given s _ h1⟩

/-! ### Reading the input -/

theorem file_some {w : World} {f bytes : Bytes} : w.file f = some bytes ↔ f ≠ [] ∧ w.read f = some bytes := by
  unfold World.file
  split
  · simp [*]
  · simp [*]

theorem validate_decoded {mc : MiddleC} {spare bytes : Bytes} {smf : SMF} (hd : decode mc spare bytes = .ok smf) :
    (Trackless1 smf → validate smf = .panic) ∧ (¬ Trackless1 smf → ∃ fs, validate smf = .ok fs) := by
  obtain ⟨m, hm, h1, h2⟩ := C39_validate_never_panics_partial mc spare bytes smf hd
  refine ⟨?_, fun h => h2 fun hh => h ⟨m, hm, hh⟩⟩
  rintro ⟨m', hm', hh⟩
  rw [hm] at hm'
  injection hm' with hm'
  subst hm'
  exact h1 hh

theorem load_decodes {w : World} {s : List (Bytes × FlagValue)} {f : Bytes} {smf : SMF} (h : Decodes w s f smf) :
    (¬ Trackless1 smf → load w (middleC s) f = .ok smf) ∧ (Trackless1 smf → load w (middleC s) f = .panic) := by
  obtain ⟨hf, bytes, mc, hr, hn, hd⟩ := h
  rw [naming_iff] at hn
  subst hn
  have hv := validate_decoded hd
  unfold load
  rw [file_some.mpr ⟨hf, hr⟩]
  constructor
  · intro ht
    obtain ⟨fs, hfs⟩ := hv.2 ht
    simp only [hd, hfs, Outcome.bind_ok]
  · intro ht
    simp only [hd, hv.1 ht, Outcome.bind_ok, Outcome.bind_panic]

theorem load_ok {w : World} {s : List (Bytes × FlagValue)} {f : Bytes} {smf : SMF} (h : load w (middleC s) f = .ok smf) :
    Decodes w s f smf ∧ ¬ Trackless1 smf := by
  have h0 := h
  unfold load at h
  split at h
  · cases h
  · rename_i bytes hb
    cases hd : decode (middleC s) w.spare bytes with
    | ok smf' =>
      have hdec : Decodes w s f smf' :=
        ⟨(file_some.mp hb).1, bytes, _, (file_some.mp hb).2, (naming_iff s _).mpr rfl, hd⟩
      by_cases ht : Trackless1 smf'
      · rw [(load_decodes hdec).2 ht] at h0
        cases h0
      · have := (load_decodes hdec).1 ht
        rw [h0] at this
        injection this with this
        subst this
        exact ⟨hdec, ht⟩
    | err e => simp only [hd, Outcome.bind_err] at h; cases h
    | panic => simp only [hd, Outcome.bind_panic] at h; cases h
    | diverge => simp only [hd, Outcome.bind_diverge] at h; cases h

theorem withFile_cases (w : World) (s : List (Bytes × FlagValue)) (f : Bytes) (g : SMF → RunResult) :
    (∃ smf, Decodes w s f smf ∧ ¬ Trackless1 smf ∧ withFile w (middleC s) f g = g smf) ∨
    ((withFile w (middleC s) f g).files = [] ∧ (withFile w (middleC s) f g).stdout = [] ∧ (withFile w (middleC s) f g).status ≠ .success) := by
  unfold withFile
  cases h : load w (middleC s) f with
  | ok smf => exact Or.inl ⟨smf, (load_ok h).1, (load_ok h).2, rfl⟩
  | err e => exact Or.inr ⟨rfl, rfl, by simp [statusOf]⟩
  | panic => exact Or.inr ⟨rfl, rfl, by simp [statusOf]⟩
  | diverge => exact Or.inr ⟨rfl, rfl, by simp [statusOf]⟩

theorem withFile_ok {w : World} {s : List (Bytes × FlagValue)} {f : Bytes} {smf : SMF} (h : Decodes w s f smf) (ht : ¬ Trackless1 smf)
    (g : SMF → RunResult) : withFile w (middleC s) f g = g smf := by
  unfold withFile
  rw [(load_decodes h).1 ht]

/-! ### Writing -/

theorem emit_stdout (w : World) (o : Outcome Bytes) :
    (emit w [] o).files = [] ∧ (emit w [] o).status = statusOf o ∧ ∀ t, o = .ok t → (emit w [] o).stdout = t := by
  refine ⟨rfl, rfl, ?_⟩
  rintro t rfl
  rfl

theorem emit_files (w : World) (out : Bytes) (o : Outcome Bytes) (name : Bytes) (h : name ∈ (emit w out o).files.map (·.1)) :
    out ≠ [] ∧ name = out ∧ w.create out = true := by
  by_cases hne : out = []
  · simp [emit, hne] at h
  · by_cases hc : w.create out = true
    · simp only [emit, if_neg hne, if_pos hc, List.map_cons, List.map_nil, List.mem_singleton] at h
      exact ⟨hne, h, hc⟩
    · simp [emit, hne, hc] at h

theorem save_files (w : World) (out : Bytes) (o : Outcome Bytes) (name : Bytes) (h : name ∈ (save w out o).files.map (·.1)) :
    out ≠ [] ∧ name = out ∧ w.create out = true := by
  unfold save at h
  split at h
  · split at h
    · simp at h
    · rename_i hne
      split at h
      · rename_i hc
        simp only [List.map_cons, List.map_nil, List.mem_singleton] at h
        exact ⟨hne, h, hc⟩
      · simp at h
  · simp at h

theorem save_fails (w : World) (out : Bytes) (o : Outcome Bytes) (h : (save w out o).status ≠ .success) : (save w out o).files = [] := by
  unfold save at h ⊢
  split
  · split
    · rfl
    · rename_i hne
      simp only [if_neg hne] at h
      split
      · rename_i hc
        simp [if_pos hc] at h
      · rfl
  · rfl

theorem splitTracks_files (w : World) (fresh : Bool) (p : Printer) (dir base : Bytes) (ts : List MTrk) (name : Bytes)
    (h : name ∈ (splitTracks w fresh p dir base ts).1.map (·.1)) :
    ∃ k : Nat, name = joinPath dir (base ++ str "-" ++ dec k ++ str ".MTrk") := by
  induction ts with
  | nil => simp [splitTracks] at h
  | cons t ts ih =>
    rw [splitTracks] at h
    simp only at h
    split at h
    · simp only [List.map_cons, List.mem_cons] at h
      rcases h with rfl | h
      · exact ⟨_, rfl⟩
      · exact ih h
    · simp at h

theorem separate_files (w : World) (out : Bytes) (p : Printer) (smf : SMF) (f : Bytes) (name : Bytes)
    (h : name ∈ (separate w out p smf f).files.map (·.1)) :
    ∃ e, (str ".MThd" <:+ e ∨ str ".MTrk" <:+ e) ∧ name = joinPath (if out = [] then dirPath f else out) e := by
  generalize hdir : (if out = [] then dirPath f else out) = dir at h ⊢
  unfold separate at h
  simp only [hdir] at h
  by_cases h1 : out ≠ [] ∧ w.mkdirAll dir = false
  · rw [if_pos h1] at h
    simp at h
  · rw [if_neg h1] at h
    generalize hb : trimSuffix (basePath f) (extPath f) = base at h
    generalize hf : (decide (out ≠ []) && !w.isDir dir) = fresh at h
    by_cases h2 : mayCreate w fresh (joinPath dir (base ++ str ".MThd")) = true
    · rw [if_pos h2] at h
      simp only [List.map_cons, List.mem_cons] at h
      rcases h with rfl | h
      · exact ⟨_, Or.inl ⟨_, rfl⟩, rfl⟩
      · obtain ⟨k, rfl⟩ := splitTracks_files _ _ _ _ _ _ _ h
        exact ⟨_, Or.inr ⟨_, rfl⟩, rfl⟩
    · rw [if_neg h2] at h
      simp at h

/-! ### C95: only the output is written -/

theorem execute_files (w : World) (c : Command) (s : List (Bytes × FlagValue)) (args : List Bytes) (name : Bytes)
    (h : name ∈ (execute w c s args).files.map (·.1)) : MayWrite c s (args.headD []) name := by
  have plain : ∀ {out : Bytes}, c ∈ [.disassemble, .assemble, .notes, .click, .export_, .transpose, .tsv] → c ≠ .disassemble →
      out = stringFlag s "out" → out ≠ [] ∧ name = out ∧ w.create out = true → MayWrite c s (args.headD []) name := by
    rintro out hc hd rfl ⟨h1, rfl, _⟩
    exact Or.inl ⟨hc, fun hh => hd hh.1, out_given.mpr ⟨h1, rfl⟩⟩
  cases c with
  | disassemble =>
    simp only [execute, runDisassemble, withFile] at h
    split at h
    · split at h
      · simp at h
      · rename_i p hp
        split at h
        · rename_i hs
          obtain ⟨x, hx, hn⟩ := separate_files _ _ _ _ _ _ h
          refine Or.inr ⟨rfl, (boolFlag_given s "split").mp hs, _, x, ?_, hx, hn⟩
          split
          · rename_i ho
            exact Or.inr ⟨out_empty.mp ho, rfl⟩
          · rename_i ho
            exact Or.inl (out_given.mpr ⟨ho, rfl⟩)
        · rename_i hs
          simp only [writeDocument] at h
          split at h
          · simp at h
          · rename_i ho
            split at h
            · simp only [List.map_cons, List.map_nil, List.mem_singleton] at h
              subst h
              exact Or.inl ⟨by simp, fun hh => hs ((boolFlag_given s "split").mpr hh.2), out_given.mpr ⟨ho, rfl⟩⟩
            · simp at h
    · simp at h
  | assemble =>
    simp only [execute, runAssemble] at h
    split at h
    · simp at h
    · exact plain (by simp) (by simp) rfl (save_files _ _ _ _ h)
  | notes =>
    simp only [execute, runNotes, withFile] at h
    split at h
    · exact plain (by simp) (by simp) rfl (emit_files _ _ _ _ h)
    · simp at h
  | click =>
    simp only [execute, runClick, withFile] at h
    have aux : ∀ fs : List (Bytes × Bytes), fs = (if stringFlag s "out" = [] then [] else [(stringFlag s "out", [])]) →
        ¬ (stringFlag s "out" ≠ [] ∧ w.create (stringFlag s "out") = false) →
        name ∈ fs.map (·.1) → stringFlag s "out" ≠ [] ∧ name = stringFlag s "out" ∧ w.create (stringFlag s "out") = true := by
      rintro fs rfl hc hn
      split at hn
      · simp at hn
      · rename_i hne
        simp only [List.map_cons, List.map_nil, List.mem_singleton] at hn
        refine ⟨hne, hn, ?_⟩
        cases hcr : w.create (stringFlag s "out") with
        | true => rfl
        | false => exact absurd ⟨hne, hcr⟩ hc
    split at h
    · split at h
      · simp at h
      · rename_i hc
        split at h
        · exact plain (by simp) (by simp) rfl (aux _ rfl hc h)
        · exact plain (by simp) (by simp) rfl (aux _ rfl hc h)
    · simp at h
  | export_ =>
    simp only [execute, runExport, withFile] at h
    split at h
    · exact plain (by simp) (by simp) rfl (emit_files _ _ _ _ h)
    · simp at h
  | transpose =>
    simp only [execute, runTranspose, withFile] at h
    split at h
    · exact plain (by simp) (by simp) rfl (save_files _ _ _ _ h)
    · simp at h
  | tsv =>
    simp only [execute, runTsv, withFile] at h
    split at h
    · exact plain (by simp) (by simp) rfl (emit_files _ _ _ _ h)
    · simp at h
  | humanise =>
    simp only [execute, runHumanise, withFile] at h
    split at h <;> simp at h
  | help => simp [execute] at h
  | version => simp [execute] at h

/-- C95: a command writes the output file named with `--out` and nothing else, or the files of a split disassembly. -/
theorem C95_only_output (w : World) (argv : List Bytes) (name : Bytes) (h : name ∈ (midiasm w argv).files.map (·.1)) :
    ∃ c args s r, Invokes c args argv ∧ CommandLine (options c) args s r ∧ MayWrite c s (r.headD []) name := by
  obtain ⟨c, args, hi⟩ := invokes_exists argv
  rw [midiasm_invoked hi] at h
  cases hp : parseFlags (commandFlags c) args with
  | ok s r =>
    rw [hp] at h
    exact ⟨c, args, s, r, hi, (parse_iff c args s r).mp hp, execute_files w c s r name h⟩
  | help => rw [hp] at h; simp at h
  | bad => rw [hp] at h; simp at h

/-- C95: every other file is the same after the run. -/
theorem C95_others_unchanged (w : World) (c : Command) (args argv : List Bytes) (hi : Invokes c args argv) (s : List (Bytes × FlagValue))
    (r : List Bytes) (hl : CommandLine (options c) args s r) (name : Bytes) (hn : ¬ MayWrite c s (r.headD []) name) :
    (w.after (midiasm w argv)).read name = w.read name := by
  rw [midiasm_runs hi hl]
  have : (execute w c s r).files.reverse.lookup name = none := by
    rw [List.lookup_eq_none_iff]
    intro p hp
    have : p.1 ≠ name := by
      rintro rfl
      exact hn (execute_files w c s r _ (List.mem_map.mpr ⟨p, by simpa using hp, rfl⟩))
    simpa using fun h => this h.symm
  simp [World.after, this]

/-! ### What a command does with a MIDI file it can read -/

theorem does_disassemble {w : World} {s : List (Bytes × FlagValue)} {r : List Bytes} {smf : SMF} (hd : Decodes w s (r.headD []) smf)
    (ht : ¬ Trackless1 smf) (hp : NoText s "templates") (hs : ¬ Given s "split" (.bool true)) :
    ∃ text, printSMF smf = .ok text ∧ (NoText s "out" → execute w .disassemble s r = ⟨[], text, .success⟩) ∧
      (∀ out, Output s out → w.create out = true → execute w .disassemble s r = ⟨[(out, text)], [], .success⟩) ∧
      (∀ out, Output s out → w.create out = false → execute w .disassemble s r = ⟨[], [], .failed⟩) := by
  obtain ⟨_, bytes, mc, _, _, hdec⟩ := id hd
  obtain ⟨text, htext⟩ := C84_decoded_prints mc w.spare bytes smf hdec
  have hs' : boolFlag s "split" = false := by
    rw [← Bool.not_eq_true, boolFlag_given]
    exact hs
  have e : execute w .disassemble s r = writeDocument w (stringFlag s "out") builtin smf := by
    simp only [execute, runDisassemble, ← middleC.eq_def]
    rw [withFile_ok hd ht]
    simp only [printerFor, out_empty.mpr hp, if_true, hs', Bool.false_eq_true, if_false]
  refine ⟨text, htext, ?_, ?_, ?_⟩
  · intro ho
    rw [e, out_empty.mpr ho]
    simp [writeDocument, builtin, htext]
  · intro out ho hc
    obtain ⟨h1, h2⟩ := out_given.mp ho
    rw [e, h2]
    simp [writeDocument, builtin, htext, h1, hc]
  · intro out ho hc
    obtain ⟨h1, h2⟩ := out_given.mp ho
    rw [e, h2]
    simp [writeDocument, builtin, htext, h1, hc]

theorem does_export {w : World} {s : List (Bytes × FlagValue)} {r : List Bytes} {smf : SMF} (hd : Decodes w s (r.headD []) smf)
    (ht : ¬ Trackless1 smf) : execute w .export_ s r = emit w (stringFlag s "out") (.ok (exportText smf)) := by
  simp only [execute, runExport, ← middleC.eq_def]
  rw [withFile_ok hd ht]

theorem emit_ok_out {w : World} {s : List (Bytes × FlagValue)} {out t : Bytes} (ho : Output s out) (hc : w.create out = true) :
    emit w (stringFlag s "out") (.ok t) = ⟨[(out, t)], [], .success⟩ := by
  obtain ⟨h1, h2⟩ := out_given.mp ho
  simp [emit, h2, h1, hc, statusOf]

theorem save_ok_out {w : World} {s : List (Bytes × FlagValue)} {out t : Bytes} (ho : Output s out) (hc : w.create out = true) :
    save w (stringFlag s "out") (.ok t) = ⟨[(out, t)], [], .success⟩ := by
  obtain ⟨h1, h2⟩ := out_given.mp ho
  simp [save, h2, h1, hc]

theorem after_read (w : World) (name t out : Bytes) (st : Status) : (w.after ⟨[(name, t)], out, st⟩).read name = some t := by
  simp [World.after]

theorem does_assemble {w : World} {s : List (Bytes × FlagValue)} {r : List Bytes} {text : Bytes} (hf : r.headD [] ≠ [])
    (hr : w.read (r.headD []) = some text) :
    execute w .assemble s r = save w (stringFlag s "out")
      (if extPath (r.headD []) = str ".json" then assembleJsonText (middleC s) text else assembleText Lib.manufacturers text) := by
  simp only [execute, runAssemble, file_some.mpr ⟨hf, hr⟩, ← middleC.eq_def]

/-- A decoded file can always be encoded. -/
theorem decoded_encodes {mc : MiddleC} {spare file : Bytes} {smf : SMF} (hd : decode mc spare file = .ok smf) :
    (∀ t ∈ smf.tracks, ∀ e ∈ t.events, e.body.Writable) ∧ ∃ bytes, encode smf = .ok bytes := by
  have hw : ∀ t ∈ smf.tracks, ∀ e ∈ t.events, e.body.Writable := by
    intro t ht e he
    obtain ⟨p, r, c, hm, hv⟩ := decode_view hd ht he
    cases hb : e.body with
    | timeSignature n d k q =>
      rw [hb] at hv
      simp only [Body.view] at hv
      cases c with
      | timeSignature n' d' k' q' =>
        obtain ⟨ty, dd, rfl⟩ := (meaning_kind hm).2.2 rfl rfl
        obtain ⟨_, a, x, y, z, _, _, h, _⟩ := metaMeaning_inv hm
        simp only [asShown, Content.timeSignature.injEq] at hv
        show d.toNat ≤ 128
        rw [hv.2.1, h]
        by_cases h0 : 2 ^ x.toNat % 256 = 0
        · omega
        · obtain ⟨k, hk, e⟩ := pow2_mod x h0
          rw [e]
          exact Nat.le_trans (Nat.pow_le_pow_right (by decide) hk) (by decide)
      | _ => simp [asShown] at hv
    | _ => trivial
  obtain ⟨m, h, hm, hsh, hv, hnt, _⟩ := decode_ok hd
  exact ⟨hw, ((C26_encode_errors smf).2.2 m hm (by rw [hsh.2.2.2.1, hnt])).1.2 hw⟩

/-! ### C96, C97: disassembling or exporting to a file and assembling that file -/

/-- C96: the disassembly of a file, saved and assembled again, gives the MIDI file the encoder writes for it, for the files of C83. -/
theorem C96_disassemble_assemble (w : World) (args argv args' argv' : List Bytes) (s s' : List (Bytes × FlagValue)) (r r' : List Bytes)
    (hi : Invokes .disassemble args argv) (hl : CommandLine (options .disassemble) args s r)
    (hi' : Invokes .assemble args' argv') (hl' : CommandLine (options .assemble) args' s' r')
    (smf : SMF) (hd : Decodes w s (r.headD []) smf) (hp : NoText s "templates") (hs : ¬ Given s "split" (.bool true))
    (hC4 : ¬ Given s "C4" (.bool true)) (text : Bytes) (ho : Output s text) (hc : w.create text = true)
    (hr : r'.headD [] = text) (hext : extPath text ≠ str ".json") (mid : Bytes) (ho' : Output s' mid) (hc' : w.create mid = true)
    (m : MThd) (hm : smf.mthd = some m) (hmetrical : m.division.toNat < 32768) (hne : smf.tracks ≠ [])
    (ht : ∀ t ∈ smf.tracks, (∃ last, t.events.getLast? = some last ∧ ¬ last.body.IsMessage) ∧ ∀ e ∈ t.events, e.body.Plain)
    (hshort : ∀ t, (midiasm w argv).files = [(text, t)] → ShortLines t) :
    ∃ bytes, encode smf = .ok bytes ∧ midiasm (w.after (midiasm w argv)) argv' = ⟨[(mid, bytes)], [], .success⟩ := by
  have ht1 : ¬ Trackless1 smf := fun ⟨_, _, _, h⟩ => hne h
  obtain ⟨t, hprint, _, h2, _⟩ := does_disassemble hd ht1 hp hs
  have e1 : midiasm w argv = ⟨[(text, t)], [], .success⟩ := by rw [midiasm_runs hi hl, h2 text ho hc]
  obtain ⟨_, bs, mc, hrd, hn, hdec⟩ := id hd
  have hmc : mc = .c3 := by
    rcases hn with ⟨_, h⟩ | ⟨h, _⟩
    · exact absurd h hC4
    · exact h
  subst hmc
  obtain ⟨t', ht', has⟩ := C83_disassembly_assembles Lib.manufacturers (fun _ => Iff.rfl) w.spare bs smf hdec m hm hmetrical ht
  rw [hprint] at ht'
  injection ht' with ht'
  subst ht'
  have has := has (hshort t (by rw [e1]))
  obtain ⟨bytes, hb⟩ := (decoded_encodes hdec).2
  refine ⟨bytes, hb, ?_⟩
  have hrd' : (w.after (midiasm w argv)).read (r'.headD []) = some t := by rw [hr, e1, after_read]
  rw [midiasm_runs hi' hl', does_assemble (by rw [hr]; exact (out_given.mp ho).1) hrd', hr, if_neg hext, has, hb]
  exact save_ok_out ho' (by exact hc')

/-- C96: and that MIDI file has the events of the original one, if they are among those that survive being written. -/
theorem C96_same_music (w : World) (s : List (Bytes × FlagValue)) (file : Bytes) (smf : SMF) (hd : Decodes w s file smf)
    (hlen : ∀ b, w.read file = some b → b.length < 2 ^ 28)
    (he : ∀ t ∈ smf.tracks, ∀ e ∈ t.events, Rewritable e.body.view ∧ e.delta.toNat < 2 ^ 28) (bytes : Bytes) (hb : encode smf = .ok bytes)
    (hbl : bytes.length < 2 ^ 32) :
    ∀ mc spare, ∃ smf' m m', decode mc spare bytes = .ok smf' ∧ smf.mthd = some m ∧ smf'.mthd = some m' ∧ m'.SameAs m ∧
      smf'.events = smf.events := by
  obtain ⟨_, bs, mc, hrd, _, hdec⟩ := hd
  obtain ⟨bytes', hb', h⟩ := C28_decode_encode_partial mc w.spare bs smf hdec (hlen bs hrd) he
  rw [hb] at hb'
  injection hb' with hb'
  subst hb'
  exact h hbl

/-- C97: the same for a JSON export saved under a name ending in `.json`, for the files of C58; the naming of notes does not matter. -/
theorem C97_export_assemble (w : World) (args argv args' argv' : List Bytes) (s s' : List (Bytes × FlagValue)) (r r' : List Bytes)
    (hi : Invokes .export_ args argv) (hl : CommandLine (options .export_) args s r)
    (hi' : Invokes .assemble args' argv') (hl' : CommandLine (options .assemble) args' s' r')
    (smf : SMF) (hd : Decodes w s (r.headD []) smf) (text : Bytes) (ho : Output s text) (hc : w.create text = true)
    (hr : r'.headD [] = text) (hext : extPath text = str ".json") (mid : Bytes) (ho' : Output s' mid) (hc' : w.create mid = true)
    (m : MThd) (hm : smf.mthd = some m) (hmetrical : m.division.toNat < 32768) (hne : ¬ Trackless1 smf)
    (ht : ∀ t ∈ smf.tracks, t.events ≠ [] ∧
      (∀ e ∈ t.events, ∀ k s, e.body = .text k s → ∃ cs, IsText s cs) ∧
      ∀ (i : Nat) (e n : Event), t.events[i]? = some e → t.events[i + 1]? = some n → ¬ n.body.IsPacket →
        (e.body.IsMessage → e.body.Terminated) ∧ ¬ e.body.IsPacket) :
    ∃ bytes, encode smf = .ok bytes ∧ midiasm (w.after (midiasm w argv)) argv' = ⟨[(mid, bytes)], [], .success⟩ := by
  have e1 : midiasm w argv = ⟨[(text, exportText smf)], [], .success⟩ := by
    rw [midiasm_runs hi hl, does_export hd hne, emit_ok_out ho hc]
  obtain ⟨_, bs, mc, hrd, hn, hdec⟩ := id hd
  obtain ⟨bytes, hb⟩ := (decoded_encodes hdec).2
  refine ⟨bytes, hb, ?_⟩
  have hrd' : (w.after (midiasm w argv)).read (r'.headD []) = some (exportText smf) := by rw [hr, e1, after_read]
  rw [midiasm_runs hi' hl', does_assemble (by rw [hr]; exact (out_given.mp ho).1) hrd', hr, if_pos hext, C89_assembles_export,
    C58_json_roundtrip_partial mc _ w.spare bs smf hdec m hm hmetrical ht, hb]
  exact save_ok_out ho' hc'

/-! ### C98: no output named -/

/-- C98 is false: without `--out`, assembling and transposing succeed without writing anything. -/
theorem C98_default_output_fails (w : World) (c : Command) (hc : c = .assemble ∨ c = .transpose) (args argv : List Bytes)
    (s : List (Bytes × FlagValue)) (r : List Bytes) (hi : Invokes c args argv) (hl : CommandLine (options c) args s r) (hno : NoText s "out") :
    (midiasm w argv).files = [] ∧ (midiasm w argv).stdout = [] := by
  rw [midiasm_runs hi hl]
  rcases hc with rfl | rfl
  · simp only [execute, runAssemble, out_empty.mpr hno]
    split
    · exact ⟨rfl, rfl⟩
    · rw [save_nil]
      exact ⟨rfl, rfl⟩
  · simp only [execute, runTranspose, withFile, out_empty.mpr hno]
    split
    · rw [save_nil]
      exact ⟨rfl, rfl⟩
    · exact ⟨rfl, rfl⟩

/-- C98 is false: `--out` is required for transposing, but without it the command succeeds and the result is lost. -/
theorem C98_unsaved_fails (w : World) (args argv : List Bytes) (s : List (Bytes × FlagValue)) (r : List Bytes) (hi : Invokes .transpose args argv)
    (hl : CommandLine (options .transpose) args s r) (hno : NoText s "out") (smf : SMF) (hd : Decodes w s (r.headD []) smf) (ht : ¬ Trackless1 smf)
    (bytes : Bytes) (hx : ∃ mc n, Naming s mc ∧ (Given s "semitones" (.int n) ∨ (n = 0 ∧ ∀ n, ¬ Given s "semitones" (.int n))) ∧
      transposeExecute mc n false smf = .ok bytes) : midiasm w argv = ⟨[], [], .success⟩ := by
  obtain ⟨mc, n, hmc, hn, hx⟩ := hx
  rw [naming_iff] at hmc
  subst hmc
  have hn' : intFlag s "semitones" = n := by
    rcases hn with h | ⟨rfl, h⟩
    · exact intFlag_eq s _ _ h
    · exact intFlag_none s _ h
  rw [midiasm_runs hi hl]
  simp only [execute, runTranspose, ← middleC.eq_def]
  rw [withFile_ok hd ht]
  simp only [out_empty.mpr hno, hn', hx, save, if_true]

/-! ### C99: failures and existing files -/

/-- C99, partial: assembling, transposing and exporting, and disassembling with the built in templates into one file, write nothing unless
they succeed. -/
theorem C99_failure_partial (w : World) (c : Command) (args argv : List Bytes) (s : List (Bytes × FlagValue)) (r : List Bytes)
    (hi : Invokes c args argv) (hl : CommandLine (options c) args s r)
    (hc : c ∈ [.assemble, .transpose, .export_, .humanise, .help, .version] ∨
      (c = .disassemble ∧ NoText s "templates" ∧ ¬ Given s "split" (.bool true)))
    (hf : (midiasm w argv).status ≠ .success) : (midiasm w argv).files = [] := by
  rw [midiasm_runs hi hl] at hf ⊢
  have hcf : ∀ (o : Bytes) (t : Bytes), (emit w o (.ok t)).status ≠ .success → (emit w o (.ok t)).files = [] := by
    intro o t h
    unfold emit at h ⊢
    by_cases h1 : o = []
    · simp [h1]
    · by_cases h2 : w.create o = true
      · simp [h1, h2, statusOf] at h
      · simp [h1, h2]
  rcases hc with hc | ⟨rfl, hp, hs⟩
  · simp only [List.mem_cons, List.not_mem_nil, or_false] at hc
    rcases hc with rfl | rfl | rfl | rfl | rfl | rfl
    · simp only [execute, runAssemble] at hf ⊢
      split
      · rfl
      · rename_i h
        simp only [h] at hf
        exact save_fails _ _ _ hf
    · simp only [execute, runTranspose, withFile] at hf ⊢
      split
      · rename_i h
        simp only [h] at hf
        exact save_fails _ _ _ hf
      · rfl
    · simp only [execute, runExport, withFile] at hf ⊢
      split
      · rename_i h
        simp only [h] at hf
        exact hcf _ _ hf
      · rfl
    · simp only [execute, runHumanise, withFile]
      split <;> rfl
    · rfl
    · rfl
  · rcases withFile_cases w s (r.headD []) (fun smf => ⟨[], [], .success⟩) with ⟨smf, hd, ht, _⟩ | ⟨h1, h2, h3⟩
    · obtain ⟨text, _, g1, g2, g3⟩ := does_disassemble hd ht hp hs
      by_cases ho : stringFlag s "out" = []
      · rw [g1 (out_empty.mp ho)]
      · have ho' : Output s (stringFlag s "out") := out_given.mpr ⟨ho, rfl⟩
        cases hcr : w.create (stringFlag s "out") with
        | true =>
          rw [g2 _ ho' hcr] at hf
          exact absurd rfl hf
        | false => rw [g3 _ ho' hcr]
    · cases hload : load w (middleC s) (r.headD []) with
      | ok smf =>
        simp only [withFile, hload] at h3
        exact absurd rfl h3
      | err e => simp only [execute, runDisassemble, ← middleC.eq_def, withFile, hload]
      | panic => simp only [execute, runDisassemble, ← middleC.eq_def, withFile, hload]
      | diverge => simp only [execute, runDisassemble, ← middleC.eq_def, withFile, hload]

/-- C99 is false: the notes or the click track of a file without tracks (not of format 1) empty the output file, then crash; writing a
table with a quote, line end or NUL as delimiter empties it, then fails. -/
theorem C99_failure_fails (w : World) (c : Command) (args argv : List Bytes) (s : List (Bytes × FlagValue)) (r : List Bytes)
    (hi : Invokes c args argv) (hl : CommandLine (options c) args s r) (smf : SMF) (hd : Decodes w s (r.headD []) smf) (ht1 : ¬ Trackless1 smf)
    (out : Bytes) (ho : Output s out) (hcr : w.create out = true)
    (hc : ((c = .notes ∨ c = .click) ∧ smf.tracks = []) ∨
      (c = .tsv ∧ ¬ Given s "tabular" (.bool true) ∧ ∃ d rest, d ∈ [34, 13, 10, 0] ∧ Given s "delimiter" (.string (d :: rest)))) :
    (midiasm w argv).files = [(out, [])] ∧ (midiasm w argv).status ≠ .success := by
  rw [midiasm_runs hi hl]
  obtain ⟨ho1, ho2⟩ := out_given.mp ho
  rcases hc with ⟨hc, ht⟩ | ⟨rfl, htab, d, rest, hdm, hdel⟩
  · rcases hc with rfl | rfl
    · simp only [execute, runNotes, ← middleC.eq_def]
      rw [withFile_ok hd ht1]
      have := C49_every_track_fails.2.1 (middleC s) w.order (intFlag s "transpose") smf ht
      simp only [this, Outcome.bind_panic, ho2]
      simp [emit, ho1, hcr, statusOf]
    · simp only [execute, runClick, ← middleC.eq_def]
      rw [withFile_ok hd ht1]
      obtain ⟨_, bytes, mc, _, _, hdec⟩ := id hd
      obtain ⟨m, _, hm, _⟩ := decode_ok hdec
      rw [(C77_click_silent smf m hm).2 ht]
      simp [ho2, ho1, hcr, statusOf]
  · have htab' : boolFlag s "tabular" = false := by
      rw [← Bool.not_eq_true, boolFlag_given]
      exact htab
    simp only [execute, runTsv, ← middleC.eq_def]
    rw [withFile_ok hd ht1]
    have hs : stringFlag s "delimiter" = d :: rest := stringFlag_eq s _ _ hdel
    simp only [ho2, htab', ho1, hs, false_or, Bool.false_eq_true, if_false]
    have hne : ¬ (d :: rest = [] ∨ d :: rest = str "\\t") := by
      rintro (h | h)
      · cases h
      · rw [show str "\\t" = [92, 116] by decide +kernel] at h
        injection h with h _
        subst h
        revert hdm
        decide
    rw [if_neg hne]
    have hr : (runes (d :: rest)).headD 0 = d.toNat := by
      simp only [List.mem_cons, List.not_mem_nil, or_false] at hdm
      rcases hdm with rfl | rfl | rfl | rfl <;> simp [runes, runesAux, decodeRune]
    rw [hr]
    have hw : ∀ recs, writeDelimited tsvHeader recs d.toNat = .err .other := by
      intro recs
      simp only [List.mem_cons, List.not_mem_nil, or_false] at hdm
      rcases hdm with rfl | rfl | rfl | rfl <;> simp [writeDelimited, writeTSV]
    rw [hw]
    simp [emit, ho1, hcr, statusOf]

end Midiasm
