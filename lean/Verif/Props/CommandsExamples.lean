import Verif.Props.Commands
import Verif.Props.Split
import Verif.Props.Places

/-!
Runs of the program that meet the hypotheses of the theorems about commands.
-/

set_option linter.unusedSimpArgs false

namespace Midiasm
open Spec

/-- A directory with one MIDI file, everything permitted. -/
def demo : World where
  read name := if name = str "in.mid" then some plainFile else if name = str "empty.mid" then some ([0x4d, 0x54, 0x68, 0x64, 0, 0, 0, 6, 0, 0, 0, 0, 1, 0xe0]) else none
  create _ := true
  mkdirAll _ := true
  isDir name := name = str "parts"
  superuser := false
  spare := []
  order _ := ⟨fun _ _ l => l, fun _ _ _ => List.Perm.refl _⟩
  templates _ := none

/-- Everything the theorems ask of a file. -/
theorem plain_decoded : ∃ smf m, decode .c3 [] plainFile = .ok smf ∧ smf.mthd = some m ∧ m.division.toNat < 32768 ∧ smf.tracks ≠ [] ∧
    encode smf = .ok plainFile ∧
    (∀ t ∈ smf.tracks, (∃ last, t.events.getLast? = some last ∧ ¬ last.body.IsMessage) ∧ ∀ e ∈ t.events, e.body.Plain) ∧
    (∀ t ∈ smf.tracks, t.events ≠ [] ∧
      (∀ e ∈ t.events, ∀ k s, e.body = .text k s → ∃ cs, IsText s cs) ∧
      ∀ (i : Nat) (e n : Event), t.events[i]? = some e → t.events[i + 1]? = some n → ¬ n.body.IsPacket →
        (e.body.IsMessage → e.body.Terminated) ∧ ¬ e.body.IsPacket) ∧
    (∀ text, printSMF smf = .ok text → ShortLines text) := by
  obtain ⟨smf, h1, h2⟩ := Outcome.of_test (o := decode .c3 [] plainFile)
    (p := fun smf => (match smf.mthd with | some m => decide (m.division.toNat < 32768) | none => false) &&
      (smf.tracks.all fun t => (match t.events.getLast? with | some ⟨_, _, _, .endOfTrack⟩ => true | _ => false) && t.events.all fun e => plainTest e.body) &&
      (match encode smf with | .ok bs => bs == plainFile | _ => false) &&
      (match printSMF smf with | .ok text => decide (text.length < 65536) | _ => false) && !smf.tracks.isEmpty && smf.tracks.all quietTrack)
    (by decide +kernel)
  simp only [Bool.and_eq_true, List.all_eq_true] at h2
  obtain ⟨⟨⟨⟨⟨q1, q2⟩, q3⟩, q4⟩, q5⟩, q6⟩ := h2
  split at q1
  · rename_i m hm
    refine ⟨smf, m, h1, hm, by simpa using q1, by simpa using q5, ?_, ?_, ?_, ?_⟩
    · split at q3
      · rename_i bs hbs
        rw [hbs]
        simp only [beq_iff_eq] at q3
        rw [q3]
      · cases q3
    · intro t htm
      obtain ⟨a, b⟩ := q2 t htm
      refine ⟨?_, fun e he => plain_of_test _ (b e he)⟩
      split at a
      · rename_i hl
        exact ⟨_, hl, by rintro ⟨_, _, _, h⟩; cases h⟩
      · cases a
    · intro t ht
      have := q6 t ht
      simp only [quietTrack, Bool.and_eq_true, List.all_eq_true] at this
      refine ⟨fun he => by rw [he] at this; simp at this, fun e he k s hb => ?_, fun i e n he hn hnp => ⟨?_, ?_⟩⟩
      · have := this.2 e he
        rw [hb] at this
        simp only [List.all_eq_true, decide_eq_true_eq] at this
        exact ascii_text s this
      · rintro ⟨mm, d, x, hb⟩
        have := this.2 e (List.mem_of_getElem? he)
        rw [hb] at this ⊢
        exact this
      · rintro ⟨d, x, hb⟩
        have := this.2 e (List.mem_of_getElem? he)
        rw [hb] at this
        cases this
    · intro text ht
      rw [ht] at q4
      exact short_text text (by simpa using q4)
  · cases q1

theorem demo_decodes {s : List (Bytes × FlagValue)} (h : ¬ Given s "C4" (.bool true)) {smf : SMF} (hd : decode .c3 [] plainFile = .ok smf) :
    Decodes demo s (str "in.mid") smf :=
  ⟨by decide +kernel, plainFile, .c3, by simp [demo], Or.inr ⟨rfl, h⟩, hd⟩

theorem not_given {s : List (Bytes × FlagValue)} {name : String} (h : boolFlag s name = false) : ¬ Given s name (.bool true) := by
  rw [← boolFlag_given, h]
  simp

theorem by_parse {c : Command} {args : List Bytes} {s : List (Bytes × FlagValue)} {r : List Bytes}
    (h : parseFlags (commandFlags c) args = .ok s r) : CommandLine (options c) args s r := (C92_options c args s r).mp h

/-- `midiasm --out in.txt in.mid` and then `midiasm assemble --out out.mid in.txt`. -/
example : midiasm (demo.after (midiasm demo [str "--out", str "in.txt", str "in.mid"])) [str "assemble", str "--out", str "out.mid", str "in.txt"] =
    ⟨[(str "out.mid", plainFile)], [], .success⟩ := by
  obtain ⟨smf, m, h1, hm, hd, hne, he, ht, _, hsh⟩ := plain_decoded
  have hi : Invokes .disassemble [str "--out", str "in.txt", str "in.mid"] [str "--out", str "in.txt", str "in.mid"] := by
    refine Or.inr ⟨rfl, rfl, ?_⟩
    intro a ha c
    simp only [List.head?_cons, Option.some.injEq] at ha
    subst ha
    cases c <;> decide +kernel
  have hl : CommandLine (options .disassemble) [str "--out", str "in.txt", str "in.mid"] [(str "out", .string (str "in.txt"))] [str "in.mid"] :=
    by_parse (by decide +kernel)
  have hD : Decodes demo [(str "out", .string (str "in.txt"))] (str "in.mid") smf := demo_decodes (not_given (by decide +kernel)) h1
  have ho : Output [(str "out", .string (str "in.txt"))] (str "in.txt") := out_given.mpr ⟨by decide +kernel, by decide +kernel⟩
  have hT : NoText [(str "out", .string (str "in.txt"))] "templates" := out_empty.mp (by decide +kernel)
  have hS : ¬ Given [(str "out", .string (str "in.txt"))] "split" (.bool true) := not_given (by decide +kernel)
  obtain ⟨bytes, hb, h⟩ := C96_disassemble_assemble demo _ _ [str "--out", str "out.mid", str "in.txt"]
    [str "assemble", str "--out", str "out.mid", str "in.txt"] _ [(str "out", .string (str "out.mid"))] _ [str "in.txt"] hi hl (Or.inl rfl)
    (by_parse (by decide +kernel)) smf hD hT hS (not_given (by decide +kernel)) (str "in.txt") ho rfl rfl (by decide +kernel) (str "out.mid")
    (out_given.mpr ⟨by decide +kernel, by decide +kernel⟩) rfl m hm hd hne ht (by
      intro t hf
      obtain ⟨text, h2, _, h3, _⟩ := does_disassemble (r := [str "in.mid"]) hD (fun ⟨_, _, _, h⟩ => hne h) hT hS
      rw [midiasm_runs hi hl, h3 _ ho rfl] at hf
      simp only [List.cons.injEq, Prod.mk.injEq, true_and, and_true] at hf
      exact hsh t (hf ▸ h2))
  rw [h]
  rw [he] at hb
  injection hb with hb
  rw [hb]

/-- What C96 adds about the music holds for this file as well: it is rewritten byte for byte. -/
example : ∃ smf, decode .c3 [] plainFile = .ok smf ∧ encode smf = .ok plainFile := by
  obtain ⟨smf, _, h, _, _, _, he, _⟩ := plain_decoded
  exact ⟨smf, h, he⟩

/-- `midiasm export --C4 --out in.json in.mid` and then `midiasm assemble --out out.mid in.json`. -/
example : midiasm (demo.after (midiasm demo [str "export", str "--out", str "in.json", str "in.mid"]))
      [str "assemble", str "--out", str "out.mid", str "in.json"] = ⟨[(str "out.mid", plainFile)], [], .success⟩ := by
  obtain ⟨smf, m, h1, hm, hd, hne, he, _, ht, _⟩ := plain_decoded
  obtain ⟨bytes, hb, h⟩ := C97_export_assemble demo [str "--out", str "in.json", str "in.mid"] [str "export", str "--out", str "in.json", str "in.mid"]
    [str "--out", str "out.mid", str "in.json"] [str "assemble", str "--out", str "out.mid", str "in.json"]
    [(str "out", .string (str "in.json"))] [(str "out", .string (str "out.mid"))] [str "in.mid"] [str "in.json"] (Or.inl rfl)
    (by_parse (by decide +kernel)) (Or.inl rfl)
    (by_parse (by decide +kernel)) smf (demo_decodes (not_given (by decide +kernel)) h1) (str "in.json")
    (out_given.mpr ⟨by decide +kernel, by decide +kernel⟩) rfl rfl (by decide +kernel) (str "out.mid")
    (out_given.mpr ⟨by decide +kernel, by decide +kernel⟩) rfl m hm hd (fun ⟨_, _, _, h⟩ => hne h) ht
  rw [h]
  rw [he] at hb
  injection hb with hb
  rw [hb]

/-- C95 is not about runs that write nothing. -/
example : (midiasm demo [str "export", str "--out", str "in.json", str "in.mid"]).files.map (·.1) = [str "in.json"] ∧
    (midiasm demo [str "transpose", str "--semitones", str "2", str "--out=up.mid", str "in.mid"]).files.map (·.1) = [str "up.mid"] := by
  decide +kernel

/-- C98: a successful assembly that leaves nothing behind. -/
example : NoText [] "out" ∧ midiasm demo [str "transpose", str "--semitones", str "2", str "in.mid"] = ⟨[], [], .success⟩ := by
  exact ⟨out_empty.mp (by decide +kernel), by decide +kernel⟩

/-- C99: a failure without a file, and one that destroys the output: a MIDI file without tracks. -/
example : (midiasm demo [str "assemble", str "--out", str "out.mid", str "in.mid"]).status = .failed ∧
    (midiasm demo [str "notes", str "--out", str "in.mid", str "empty.mid"]) = ⟨[(str "in.mid", [])], [], .panicked⟩ := by
  decide +kernel

example : ∃ smf, Decodes demo [(str "out", .string (str "in.mid"))] (str "empty.mid") smf ∧ ¬ Trackless1 smf ∧ smf.tracks = [] := by
  obtain ⟨smf, h1, h2⟩ := Outcome.of_test (o := decode .c3 [] [0x4d, 0x54, 0x68, 0x64, 0, 0, 0, 6, 0, 0, 0, 0, 1, 0xe0])
    (p := fun smf => smf.tracks.isEmpty && (match smf.mthd with | some m => m.format == 0 | none => true)) (by decide +kernel)
  simp only [Bool.and_eq_true] at h2
  refine ⟨smf, ⟨by decide +kernel, _, .c3, by decide +kernel, Or.inr ⟨rfl, not_given (by decide +kernel)⟩, h1⟩, ?_, by simpa using h2.1⟩
  rintro ⟨m, hm, hf, _⟩
  have := h2.2
  rw [hm] at this
  simp only [beq_iff_eq] at this
  rw [this] at hf
  cases hf

/-- C100: `midiasm --split --out parts in.mid` with an existing directory `parts`. -/
example : (midiasm demo [str "--split", str "--out", str "parts", str "in.mid"]).files.map (·.1) = [str "parts/parts.MThd", str "parts/parts-0.MTrk"] := by
  obtain ⟨smf, m, h1, hm, hd, hne, he, _, ht, _⟩ := plain_decoded
  have hl : smf.tracks.length = 1 := by
    obtain ⟨smf', h1', h2'⟩ := Outcome.of_test (o := decode .c3 [] plainFile) (p := fun smf => smf.tracks.length == 1) (by decide +kernel)
    rw [h1] at h1'
    injection h1' with h1'
    subst h1'
    simpa using h2'
  obtain ⟨text, header, tracks, _, _, h2, _, _, h3, _⟩ := C100_split demo [str "--split", str "--out", str "parts", str "in.mid"]
    [str "--split", str "--out", str "parts", str "in.mid"] [(str "split", .bool true), (str "out", .string (str "parts"))] [str "in.mid"]
    (by
      refine Or.inr ⟨rfl, rfl, ?_⟩
      intro a ha c
      simp only [List.head?_cons, Option.some.injEq] at ha
      subst ha
      cases c <;> decide +kernel)
    (by_parse (by decide +kernel)) smf (demo_decodes (not_given (by decide +kernel)) h1) (fun ⟨_, _, _, h⟩ => hne h)
    (out_empty.mp (by decide +kernel)) ((boolFlag_given _ _).mp (by decide +kernel)) (str "parts") (str "parts") (str "parts")
    (Or.inl (out_given.mpr ⟨by decide +kernel, by decide +kernel⟩)) (Or.inl (out_given.mpr ⟨by decide +kernel, by decide +kernel⟩))
    ⟨[], [], by simp, Or.inl rfl, by decide +kernel, by decide +kernel, Or.inl ⟨rfl, by decide +kernel⟩⟩ (fun _ => rfl) rfl
    (Or.inr (Or.inl (by decide +kernel)))
  rw [h3]
  match tracks, h2 with
  | [t], _ =>
    simp only [List.map_cons, List.mapIdx_cons, List.mapIdx_nil, List.map_nil]
    decide +kernel
  | [], h2 => simp [hl] at h2
  | _ :: _ :: _, h2 => simp [hl] at h2

/-- C119: `midiasm --split in.mid` in the directory `/home/me`. -/
example : (midiasm demo [str "--split", str "in.mid"]).files.map (fun f => place [str "me", str "home"] f.1) =
    [[str "in.MThd", str "me", str "home"], [str "in-0.MTrk", str "me", str "home"]] := by
  obtain ⟨smf, m, h1, hm, hd, hne, he, _, ht, _⟩ := plain_decoded
  have hl : smf.tracks.length = 1 := by
    obtain ⟨smf', h1', h2'⟩ := Outcome.of_test (o := decode .c3 [] plainFile) (p := fun smf => smf.tracks.length == 1) (by decide +kernel)
    rw [h1] at h1'
    injection h1' with h1'
    subst h1'
    simpa using h2'
  have hno : NoText [(str "split", .bool true)] "out" := out_empty.mp (by decide +kernel)
  have := C119_split demo [str "--split", str "in.mid"] [str "--split", str "in.mid"] [(str "split", .bool true)] [str "in.mid"]
    (by
      refine Or.inr ⟨rfl, rfl, ?_⟩
      intro a ha c
      simp only [List.head?_cons, Option.some.injEq] at ha
      subst ha
      cases c <;> decide +kernel)
    (by_parse (by decide +kernel)) smf (demo_decodes (not_given (by decide +kernel)) h1) (fun ⟨_, _, _, h⟩ => hne h)
    (out_empty.mp (by decide +kernel)) ((boolFlag_given _ _).mp (by decide +kernel)) (str "in.mid") (str "in") (Or.inr ⟨hno, rfl⟩)
    ⟨[], str ".mid", by decide +kernel, Or.inl rfl, by decide +kernel, by decide +kernel,
      Or.inr ⟨str "mid", by decide +kernel, by decide +kernel, by decide +kernel⟩⟩ (fun _ => rfl) (fun _ => rfl)
    (fun dir h => by
      obtain ⟨g1, g2⟩ := out_given.mp h
      rw [out_empty.mpr hno] at g2
      exact absurd g2.symm g1)
    [str "me", str "home"] [str "me", str "home"]
    (Or.inr ⟨hno, by
      intro d hmem
      have hr := fun y (h : str "in.mid" = y) => congrArg List.getLast? h
      simp only [List.headD_cons, List.mem_cons, List.not_mem_nil, or_false] at hmem
      rcases hmem with h | h | h | h
      · exact absurd h (by decide +kernel)
      · exact absurd h (by decide +kernel)
      · have := hr _ h
        rw [show str "in.mid" = [105, 110, 46, 109, 105, 100] by decide +kernel, show str "/." = [47, 46] by decide +kernel] at this
        simp at this
      · have := hr _ h
        rw [show str "in.mid" = [105, 110, 46, 109, 105, 100] by decide +kernel, show str "/.." = [47, 46, 46] by decide +kernel] at this
        simp at this, str "in.mid", by decide +kernel⟩)
  rw [this, hl]
  decide +kernel

/-- A directory that does not exist. -/
example : demo.isDir (str "new") = false ∧ demo.superuser = false ∧
    midiasm demo [str "--split", str "--out", str "new", str "in.mid"] = ⟨[], [], .failed⟩ := by
  decide +kernel

end Midiasm
