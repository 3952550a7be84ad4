import Verif.Spec.Help
import Verif.Props.WhatCommandsDo
import Verif.Props.ExportTells

/-!
C155, C156: the help.
-/

set_option linter.unusedSimpArgs false

namespace Midiasm
open Spec

/-! ### Characters -/

/-- The characters of texts.  Unlike `String.toList` on literals this is quick to check. -/
inductive Spelt : List String → List (List Char) → Prop
  | nil : Spelt [] []
  | cons {c l cs} : Spelt l cs → Spelt (String.ofList c :: l) (c :: cs)

theorem spelt_eq {l : List String} {cs : List (List Char)} (h : Spelt l cs) : l.map String.toList = cs := by
  induction h with
  | nil => rfl
  | cons _ ih => rw [List.map_cons, ih, String.toList_ofList]

/-- ASCII characters as bytes. -/
def asByte (c : Char) : UInt8 := UInt8.ofNat c.val.toNat

/-- ASCII characters only. -/
def asciiChars (cs : List Char) : Bool := cs.all fun c => c.val.toNat < 128

theorem asByte_encode (c : Char) (h : c.val.toNat < 128) : String.utf8EncodeChar c = [asByte c] := by
  rw [← encodeRune_char]
  unfold encodeRune asByte
  rw [if_pos (by omega)]

theorem asByte_chars {cs : List Char} (h : asciiChars cs = true) : cs.flatMap String.utf8EncodeChar = cs.map asByte := by
  induction cs with
  | nil => rfl
  | cons c cs ih =>
    simp only [asciiChars, List.all_cons, Bool.and_eq_true, decide_eq_true_eq] at h
    rw [List.flatMap_cons, asByte_encode c h.1, ih h.2]
    rfl

theorem splitOnP_map {α β : Type} (f : α → β) (p : β → Bool) (l : List α) : (l.map f).splitOnP p = (l.splitOnP fun a => p (f a)).map (List.map f) := by
  induction l with
  | nil => rfl
  | cons a l ih =>
    rw [List.map_cons, List.splitOnP_cons_eq_if_modifyHead, List.splitOnP_cons_eq_if_modifyHead, ih]
    split
    · rfl
    · cases h : l.splitOnP fun a => p (f a) with
      | nil => exact absurd h (List.splitOnP_ne_nil _ _)
      | cons x xs => rfl

/-- The characters of lines. -/
def lineChars (cs : List (List Char)) : List Char := cs.flatMap fun l => l ++ ['\n']

theorem lineChars_text (ls : List String) (h : asciiChars (lineChars (ls.map String.toList)) = true) :
    (ls.map str).flatMap (fun l => l ++ [10]) = (lineChars (ls.map String.toList)).map asByte := by
  rw [← asByte_chars h, lineChars, List.flatMap_map, List.flatMap_map, List.flatMap_assoc]
  congr 1
  funext l
  rw [List.flatMap_append]
  rfl

/-- Ends a line. -/
def endsLine (c : Char) : Bool := asByte c = 10

/-- Ends a word. -/
def endsWord (c : Char) : Bool := asByte c = 10 || asByte c = 32 || asByte c = 91 || asByte c = 93

theorem asByte_str {s : String} {cs : List Char} (hs : s.toList = cs) (h : asciiChars cs = true) : str s = cs.map asByte := by
  rw [str, hs, asByte_chars h]

theorem asByte_inj {a b : List Char} (ha : asciiChars a = true) (hb : asciiChars b = true) (h : a.map asByte = b.map asByte) : a = b := by
  rw [← asByte_chars ha, ← asByte_chars hb] at h
  have := congrArg runes h
  rw [runes_chars, runes_chars] at this
  exact chars_inj this

theorem ascii_piece {p : Char → Bool} {l w : List Char} (h : asciiChars l = true) (hw : w ∈ l.splitOnP p) : asciiChars w = true := by
  unfold asciiChars at h ⊢
  rw [List.all_eq_true] at h ⊢
  intro c hc
  refine h c ?_
  have : ∀ (l : List Char) (w : List Char), w ∈ l.splitOnP p → ∀ c ∈ w, c ∈ l := by
    intro l
    induction l with
    | nil => intro w hw c hc; rw [List.splitOnP_nil, List.mem_singleton] at hw; subst hw; cases hc
    | cons a l ih =>
      intro w hw c hc
      rw [List.splitOnP_cons_eq_if_modifyHead] at hw
      split at hw
      · rcases List.mem_cons.1 hw with rfl | hw
        · cases hc
        · exact List.mem_cons_of_mem _ (ih w hw c hc)
      · cases hx : l.splitOnP p with
        | nil => exact absurd hx (List.splitOnP_ne_nil _ _)
        | cons x xs =>
          rw [hx] at hw
          rcases List.mem_cons.1 hw with rfl | hw
          · rcases List.mem_cons.1 hc with rfl | hc
            · exact List.mem_cons_self
            · exact List.mem_cons_of_mem _ (ih x (hx ▸ List.mem_cons_self) c hc)
          · exact List.mem_cons_of_mem _ (ih w (hx ▸ List.mem_cons_of_mem _ hw) c hc)
  exact this l w hw c hc

/-! ### The list of commands -/

/-- Ten commands. -/
def everyCommand : List Command := [.disassemble, .assemble, .notes, .click, .export_, .transpose, .tsv, .humanise, .help, .version]

theorem mem_everyCommand (c : Command) : c ∈ everyCommand := by cases c <;> decide

/-- What `help` prints without the name of a command. -/
theorem helpText_other (name : Bytes) (h : ∀ c, name ≠ str (commandName c)) : helpText name = generalHelp.flatMap fun l => l ++ [10] := by
  unfold helpText
  rw [commandTable_other name h]

theorem helpText_command (c : Command) : helpText (str (commandName c)) = ((commandHelp c).map str).flatMap fun l => l ++ [10] := by
  unfold helpText
  rw [commandTable_lookup]

/-- **C155.** Without the name of a command, or with any other name, `help` lists the commands: the indented lines are the names of the commands,
each command has one. -/
theorem C155_lists_commands (w : World) (args argv : List Bytes) (s : List (Bytes × FlagValue)) (r : List Bytes) (hi : Invokes .help args argv)
    (hl : CommandLine (options .help) args s r) (hn : ∀ c, r.headD [] ≠ str (commandName c)) :
    ∃ text, midiasm w argv = ⟨[], text, .success⟩ ∧ (∀ l, l ∈ linesIn text ∧ str "    " <+: l ↔ ∃ c, l = str "    " ++ str (commandName c)) ∧
      ∀ c, (linesIn text).count (str "    " ++ str (commandName c)) = 1 := by
  refine ⟨_, C116_help w args argv s r hi hl, ?_⟩
  rw [helpText_other _ hn]
  have key : (linesIn (generalHelp.flatMap fun l => l ++ [10])).filter (fun l => (str "    ").isPrefixOf l) =
      everyCommand.map fun c => str "    " ++ str (commandName c) := by decide +kernel
  constructor
  · intro l
    have : l ∈ linesIn (generalHelp.flatMap fun l => l ++ [10]) ∧ str "    " <+: l ↔
        l ∈ (linesIn (generalHelp.flatMap fun l => l ++ [10])).filter (fun l => (str "    ").isPrefixOf l) := by
      rw [List.mem_filter, List.isPrefixOf_iff_prefix]
    rw [this, key, List.mem_map]
    exact ⟨fun ⟨c, _, h⟩ => ⟨c, h.symm⟩, fun ⟨c, h⟩ => ⟨c, mem_everyCommand c, h.symm⟩⟩
  · intro c
    have e : (str "    ").isPrefixOf (str "    " ++ str (commandName c)) = true := List.isPrefixOf_iff_prefix.2 (List.prefix_append _ _)
    rw [← List.count_filter (p := fun l => (str "    ").isPrefixOf l) e, key]
    cases c <;> decide +kernel

/-! ### Options -/

/-- The options that the help does not tell about. -/
def untold : Command → List String
  | .disassemble => ["templates"]
  | .notes => ["transpose", "json"]
  | _ => []

/-- What is to be checked of a help text: it is ASCII, the words with two dashes are names of options, and these options are all but the ones given. -/
def helpCheck (text : List Char) (names ex : List (List Char)) : Bool :=
  asciiChars text && ((text.splitOnP endsWord).all fun w => w.take 2 != ['-', '-'] || names.contains (w.drop 2)) &&
    names.all fun n => asciiChars n && (text.splitOnP endsWord).contains ('-' :: '-' :: n) == !ex.contains n

theorem helpCheck_command (c : Command) (hc : WithFiles c) :
    helpCheck (lineChars ((commandHelp c).map String.toList)) (((options c).map Prod.fst).map String.toList) ((untold c).map String.toList) = true := by
  obtain ⟨h1, h2⟩ := hc
  have key : ∀ c, ∀ cs ns es, Spelt (commandHelp c) cs → Spelt ((options c).map Prod.fst) ns → Spelt (untold c) es → helpCheck (lineChars cs) ns es = true →
      helpCheck (lineChars ((commandHelp c).map String.toList)) (((options c).map Prod.fst).map String.toList) ((untold c).map String.toList) = true := by
    intro c cs ns es a1 a2 a3 h
    rw [spelt_eq a1, spelt_eq a2, spelt_eq a3]
    exact h
  cases c
  all_goals first
    | exact absurd rfl h1
    | exact absurd rfl h2
    | (refine key _ _ _ _ (by repeat' (first | exact Spelt.nil | apply Spelt.cons)) (by repeat' (first | exact Spelt.nil | apply Spelt.cons))
        (by repeat' (first | exact Spelt.nil | apply Spelt.cons)) ?_
       decide +kernel)

/-- The words of the help of a command. -/
theorem help_words (c : Command) (hc : WithFiles c) : asciiChars (lineChars ((commandHelp c).map String.toList)) = true ∧
    helpText (str (commandName c)) = (lineChars ((commandHelp c).map String.toList)).map asByte ∧
    wordsIn (helpText (str (commandName c))) = ((lineChars ((commandHelp c).map String.toList)).splitOnP endsWord).map (List.map asByte) := by
  have h := helpCheck_command c hc
  simp only [helpCheck, Bool.and_eq_true] at h
  have e : helpText (str (commandName c)) = (lineChars ((commandHelp c).map String.toList)).map asByte := by
    rw [helpText_command, lineChars_text _ h.1.1]
  refine ⟨h.1.1, e, ?_⟩
  rw [e]
  exact splitOnP_map asByte _ _

theorem dashed_str (name : String) (h : asciiChars name.toList = true) : str ("--" ++ name) = ('-' :: '-' :: name.toList).map asByte := by
  rw [str_append, asByte_str rfl h]
  rfl

theorem help_names (c : Command) (hc : WithFiles c) : (∀ word ∈ wordsIn (helpText (str (commandName c))), str "--" <+: word →
      ∃ p ∈ options c, word = str ("--" ++ p.1)) ∧
    ∀ p ∈ options c, NamesOption (helpText (str (commandName c))) p.1 ↔ p.1 ∉ untold c := by
  have h := helpCheck_command c hc
  obtain ⟨ha, _, hw⟩ := help_words c hc
  simp only [helpCheck, Bool.and_eq_true] at h
  obtain ⟨⟨_, h2⟩, h3⟩ := h
  rw [List.all_eq_true] at h2 h3
  constructor
  · intro word hmem hp
    rw [hw, List.mem_map] at hmem
    obtain ⟨w, hm, rfl⟩ := hmem
    have hasc := ascii_piece ha hm
    have ht : w.take 2 = ['-', '-'] := by
      obtain ⟨t, ht⟩ := hp
      have e : (w.take 2).map asByte = ['-', '-'].map asByte := by
        rw [List.map_take, ← ht]
        rfl
      refine asByte_inj ?_ (by decide) e
      unfold asciiChars at hasc ⊢
      rw [List.all_eq_true] at hasc ⊢
      exact fun c hc => hasc c (List.mem_of_mem_take hc)
    have := h2 w hm
    rw [ht] at this
    simp only [bne_self_eq_false, Bool.false_or, List.contains_iff_mem, List.mem_map] at this
    obtain ⟨_, ⟨p, hp, rfl⟩, e⟩ := this
    refine ⟨p, hp, ?_⟩
    have hn := h3 _ (List.mem_map.2 ⟨_, List.mem_map.2 ⟨p, hp, rfl⟩, rfl⟩)
    simp only [Bool.and_eq_true] at hn
    rw [dashed_str _ hn.1, e]
    congr 1
    have := List.take_append_drop 2 w
    rw [ht] at this
    exact this.symm
  · intro p hp
    have hn := h3 _ (List.mem_map.2 ⟨_, List.mem_map.2 ⟨p, hp, rfl⟩, rfl⟩)
    simp only [Bool.and_eq_true, beq_iff_eq] at hn
    obtain ⟨hn1, hn2⟩ := hn
    unfold NamesOption
    rw [hw, dashed_str _ hn1]
    have e1 : ('-' :: '-' :: p.1.toList).map asByte ∈ ((lineChars ((commandHelp c).map String.toList)).splitOnP endsWord).map (List.map asByte) ↔
        '-' :: '-' :: p.1.toList ∈ (lineChars ((commandHelp c).map String.toList)).splitOnP endsWord := by
      rw [List.mem_map]
      constructor
      · rintro ⟨w, hm, e⟩
        rw [← asByte_inj (ascii_piece ha hm) (by simpa [asciiChars] using hn1) e]
        exact hm
      · exact fun hm => ⟨_, hm, rfl⟩
    have e2 : p.1.toList ∈ (untold c).map String.toList ↔ p.1 ∈ untold c := by
      rw [List.mem_map]
      constructor
      · rintro ⟨q, hq, e⟩
        rw [← String.toList_inj.1 e]
        exact hq
      · exact fun h => ⟨_, h, rfl⟩
    rw [e1, ← e2, ← List.contains_iff_mem, ← List.contains_iff_mem, hn2]
    simp

/-- C155: every option that the help of a command names is one that the command accepts, and it names all but three of them.  Missing: `--templates`
of `disassemble`, `--transpose` and `--json` of `notes`, which the help does not tell about (`C155_options_fails`). -/
theorem C155_options_partial (w : World) (args argv : List Bytes) (s : List (Bytes × FlagValue)) (r : List Bytes) (hi : Invokes .help args argv)
    (hl : CommandLine (options .help) args s r) (c : Command) (hc : WithFiles c) (hn : r.headD [] = str (commandName c)) :
    ∃ text, midiasm w argv = ⟨[], text, .success⟩ ∧ (∀ word ∈ wordsIn text, str "--" <+: word → ∃ p ∈ options c, word = str ("--" ++ p.1)) ∧
      ∀ p ∈ options c, (c = .disassemble → p.1 ≠ "templates") → (c = .notes → p.1 ≠ "transpose" ∧ p.1 ≠ "json") → NamesOption text p.1 := by
  refine ⟨_, C116_help w args argv s r hi hl, ?_⟩
  rw [hn]
  refine ⟨(help_names c hc).1, fun p hp e1 e2 => ((help_names c hc).2 p hp).2 ?_⟩
  unfold untold
  split
  · simpa using e1 rfl
  · simpa using e2 rfl
  · simp

/-- C155 is false for `disassemble` and `notes`: the help does not tell about options that the commands accept. -/
theorem C155_options_fails (w : World) (args argv : List Bytes) (s : List (Bytes × FlagValue)) (r : List Bytes) (hi : Invokes .help args argv)
    (hl : CommandLine (options .help) args s r) :
    (r.headD [] = str "disassemble" → ∃ text, midiasm w argv = ⟨[], text, .success⟩ ∧ ¬ NamesOption text "templates" ∧
      ("templates", .string) ∈ options .disassemble) ∧
    (r.headD [] = str "notes" → ∃ text, midiasm w argv = ⟨[], text, .success⟩ ∧ ¬ NamesOption text "transpose" ∧ ¬ NamesOption text "json" ∧
      ("transpose", .int) ∈ options .notes ∧ ("json", .bool) ∈ options .notes) := by
  refine ⟨fun hn => ⟨_, C116_help w args argv s r hi hl, ?_, by simp [options]⟩,
    fun hn => ⟨_, C116_help w args argv s r hi hl, ?_, ?_, by simp [options], by simp [options]⟩⟩
  · rw [hn]
    exact fun h => ((help_names .disassemble (by simp [WithFiles])).2 ("templates", .string) (by simp [options])).1 h (by simp [untold])
  · rw [hn]
    exact fun h => ((help_names .notes (by simp [WithFiles])).2 ("transpose", .int) (by simp [options])).1 h (by simp [untold])
  · rw [hn]
    exact fun h => ((help_names .notes (by simp [WithFiles])).2 ("json", .bool) (by simp [options])).1 h (by simp [untold])

/-- **C155.** There is no help for `help` and `version`: nothing is printed. -/
theorem C155_no_help (w : World) (args argv : List Bytes) (s : List (Bytes × FlagValue)) (r : List Bytes) (hi : Invokes .help args argv)
    (hl : CommandLine (options .help) args s r) (hn : r.headD [] = str "help" ∨ r.headD [] = str "version") : midiasm w argv = ⟨[], [], .success⟩ := by
  rw [C116_help w args argv s r hi hl]
  rcases hn with hn | hn
  · rw [hn, show str "help" = str (commandName .help) from rfl, helpText_command]; rfl
  · rw [hn, show str "version" = str (commandName .version) from rfl, helpText_command]; rfl

/-- The help for a command, after an option, and for something else. -/
example : Invokes .help [str "--C4", str "tsv"] [str "help", str "--C4", str "tsv"] ∧
    CommandLine (options .help) [str "--C4", str "tsv"] [(str "C4", .bool true)] [str "tsv"] ∧ WithFiles .tsv ∧
    CommandLine (options .help) [str "me"] [] [str "me"] ∧ (∀ c, str "me" ≠ str (commandName c)) ∧ CommandLine (options .help) [] [] [] := by
  refine ⟨Or.inl rfl, ?_, by simp [WithFiles], ?_, ?_, .nothing⟩
  · rw [← C92_options]; decide +kernel
  · rw [← C92_options]; decide +kernel
  · intro c; cases c <;> decide +kernel

/-! ### Examples -/

/-- The arguments in the example of each command. -/
def exampleWords : Command → List String
  | .disassemble => ["--debug", "--verbose", "--out", "one-time.txt", "one-time.mid"]
  | .assemble => ["assemble", "--debug", "--verbose", "--out", "one-time.midi", "one-time.txt"]
  | .notes => ["notes", "--debug", "--verbose", "--out", "one-time.notes", "one-time.mid"]
  | .click => ["click", "--debug", "--verbose", "--out", "one-time.click", "one-time.mid"]
  | .export_ => ["export", "--debug", "--verbose", "--out", "one-time.json", "one-time.mid"]
  | .transpose => ["transpose", "--debug", "--verbose", "--semitones", "+5", "--out", "one-time+5.mid", "one-time.mid"]
  | .tsv => ["tsv", "--debug", "--verbose", "--out", "one-time.tsv", "one-time.mid"]
  | .humanise => ["humanise", "--debug", "--verbose", "--out", "gnossienes.mid"]
  | .help => []
  | .version => []

/-- Starts an example. -/
def exampleStart : List Char := [' ', ' ', ' ', ' ', ' ', ' ', 'm', 'i', 'd', 'i', 'a', 's', 'm', ' ']

/-- What is to be checked of the example in a help text. -/
def exampleCheck (text : List Char) (ws : List (List Char)) : Bool :=
  (text.splitOnP endsLine).filter (fun l => l.take 14 == exampleStart) == [exampleStart ++ List.intercalate [' '] ws] &&
    (List.intercalate [' '] ws).splitOnP (fun c => asByte c = 32) == ws && ws.all asciiChars

theorem exampleCheck_command (c : Command) (hc : WithFiles c) :
    exampleCheck (lineChars ((commandHelp c).map String.toList)) ((exampleWords c).map String.toList) = true := by
  obtain ⟨h1, h2⟩ := hc
  have key : ∀ c, ∀ cs ws, Spelt (commandHelp c) cs → Spelt (exampleWords c) ws → exampleCheck (lineChars cs) ws = true →
      exampleCheck (lineChars ((commandHelp c).map String.toList)) ((exampleWords c).map String.toList) = true := by
    intro c cs ws a1 a2 h
    rw [spelt_eq a1, spelt_eq a2]
    exact h
  cases c
  all_goals first
    | exact absurd rfl h1
    | exact absurd rfl h2
    | (refine key _ _ _ (by repeat' (first | exact Spelt.nil | apply Spelt.cons)) (by repeat' (first | exact Spelt.nil | apply Spelt.cons)) ?_
       decide +kernel)

theorem exampleStart_str : str "      midiasm " = exampleStart.map asByte := asByte_str String.toList_ofList (by decide)

theorem example_args (c : Command) (hc : WithFiles c) (argv : List Bytes) :
    Example (helpText (str (commandName c))) argv ↔ argv = (exampleWords c).map str := by
  have h := exampleCheck_command c hc
  obtain ⟨ha, ht, _⟩ := help_words c hc
  simp only [exampleCheck, Bool.and_eq_true, beq_iff_eq] at h
  obtain ⟨⟨h1, h2⟩, h3⟩ := h
  have hl : linesIn (helpText (str (commandName c))) = ((lineChars ((commandHelp c).map String.toList)).splitOnP endsLine).map (List.map asByte) := by
    rw [ht]
    exact splitOnP_map asByte _ _
  have hws : ((exampleWords c).map String.toList).map (List.map asByte) = (exampleWords c).map str := by
    rw [List.map_map]
    refine List.map_congr_left fun s hs => ?_
    exact (asByte_str rfl (List.all_eq_true.1 h3 _ (List.mem_map.2 ⟨s, hs, rfl⟩))).symm
  have hsplit : ((List.intercalate [' '] ((exampleWords c).map String.toList)).map asByte).splitOnP (fun b => b = 32) = (exampleWords c).map str := by
    rw [splitOnP_map, h2, hws]
  constructor
  · rintro ⟨l, hm, rest, rfl, rfl⟩
    rw [hl, List.mem_map] at hm
    obtain ⟨w, hw, e⟩ := hm
    have hasc := ascii_piece ha hw
    have e2 : w.take 14 = exampleStart := by
      refine asByte_inj ?_ (by decide) ?_
      · unfold asciiChars at hasc ⊢
        rw [List.all_eq_true] at hasc ⊢
        exact fun c hc => hasc c (List.mem_of_mem_take hc)
      · rw [List.map_take, e, exampleStart_str]
        rfl
    have hmem : w ∈ ((lineChars ((commandHelp c).map String.toList)).splitOnP endsLine).filter (fun l => l.take 14 == exampleStart) :=
      List.mem_filter.2 ⟨hw, by rw [e2]; exact beq_self_eq_true _⟩
    rw [h1, List.mem_singleton] at hmem
    rw [hmem, List.map_append, ← exampleStart_str] at e
    rw [← List.append_cancel_left e, hsplit]
  · rintro rfl
    have hmem : exampleStart ++ List.intercalate [' '] ((exampleWords c).map String.toList) ∈ (lineChars ((commandHelp c).map String.toList)).splitOnP endsLine := by
      have : exampleStart ++ List.intercalate [' '] ((exampleWords c).map String.toList) ∈
          ((lineChars ((commandHelp c).map String.toList)).splitOnP endsLine).filter (fun l => l.take 14 == exampleStart) := by rw [h1]; simp
      exact (List.mem_filter.1 this).1
    refine ⟨_, by rw [hl]; exact List.mem_map.2 ⟨_, hmem, rfl⟩, _, by rw [List.map_append, ← exampleStart_str], hsplit.symm⟩

/-- C156: the example in the help of a command, other than `humanise`, is an invocation of that command with an input file and an output file.
Missing: the example of `humanise`, which names no input file (`C156_examples_fails`). -/
theorem C156_examples_partial (w : World) (args argv : List Bytes) (s : List (Bytes × FlagValue)) (r : List Bytes) (hi : Invokes .help args argv)
    (hl : CommandLine (options .help) args s r) (c : Command) (hc : WithFiles c) (hh : c ≠ .humanise) (hn : r.headD [] = str (commandName c)) :
    ∃ text argv', midiasm w argv = ⟨[], text, .success⟩ ∧ (∀ a, Example text a ↔ a = argv') ∧
      ∃ args' s' file out, Invokes c args' argv' ∧ CommandLine (options c) args' s' [file] ∧ file ≠ [] ∧ Output s' out ∧ out ≠ file := by
  refine ⟨_, (exampleWords c).map str, C116_help w args argv s r hi hl, ?_, ?_⟩
  · rw [hn]
    exact example_args c hc
  · obtain ⟨h1, h2⟩ := hc
    have given : ∀ (before : List (Bytes × FlagValue)) (out : Bytes), out ≠ [] → Output (before ++ [(str "out", .string out)]) out :=
      fun before out h => ⟨h, before, [], rfl, by simp⟩
    have common : ∀ (c : Command) (args : List Bytes) (out file : String), (Invokes c args ((exampleWords c).map str)) →
        parseFlags (commandFlags c) args = .ok [(str "debug", .bool true), (str "verbose", .bool true), (str "out", .string (str out))] [str file] →
        str file ≠ [] → str out ≠ [] → str out ≠ str file →
        ∃ args' s' file out, Invokes c args' ((exampleWords c).map str) ∧ CommandLine (options c) args' s' [file] ∧ file ≠ [] ∧ Output s' out ∧ out ≠ file := by
      intro c args out file hi hp hf ho hne
      exact ⟨args, _, _, _, hi, (C92_options _ _ _ _).1 hp, hf, given [(str "debug", .bool true), (str "verbose", .bool true)] _ ho, hne⟩
    cases c with
    | help => exact absurd rfl h1
    | version => exact absurd rfl h2
    | humanise => exact absurd rfl hh
    | transpose =>
      refine ⟨_, [(str "debug", .bool true), (str "verbose", .bool true), (str "semitones", .int 5), (str "out", .string (str "one-time+5.mid"))],
        str "one-time.mid", str "one-time+5.mid", Or.inl rfl, ?_, by decide +kernel,
        given [(str "debug", .bool true), (str "verbose", .bool true), (str "semitones", .int 5)] _ (by decide +kernel), by decide +kernel⟩
      rw [← C92_options]; decide +kernel
    | disassemble =>
      refine common _ _ "one-time.txt" "one-time.mid" (Or.inr ⟨rfl, rfl, ?_⟩) (by decide +kernel) (by decide +kernel) (by decide +kernel) (by decide +kernel)
      intro a ha c
      obtain rfl : str "--debug" = a := Option.some.inj ha
      cases c <;> decide +kernel
    | assemble => exact common _ _ "one-time.midi" "one-time.txt" (Or.inl rfl) (by decide +kernel) (by decide +kernel) (by decide +kernel) (by decide +kernel)
    | notes => exact common _ _ "one-time.notes" "one-time.mid" (Or.inl rfl) (by decide +kernel) (by decide +kernel) (by decide +kernel) (by decide +kernel)
    | click => exact common _ _ "one-time.click" "one-time.mid" (Or.inl rfl) (by decide +kernel) (by decide +kernel) (by decide +kernel) (by decide +kernel)
    | export_ => exact common _ _ "one-time.json" "one-time.mid" (Or.inl rfl) (by decide +kernel) (by decide +kernel) (by decide +kernel) (by decide +kernel)
    | tsv => exact common _ _ "one-time.tsv" "one-time.mid" (Or.inl rfl) (by decide +kernel) (by decide +kernel) (by decide +kernel) (by decide +kernel)

/-- C156 is false for `humanise`: the file in its example is the output; run in whatever environment, the example fails. -/
theorem C156_examples_fails (w w' : World) (args argv : List Bytes) (s : List (Bytes × FlagValue)) (r : List Bytes) (hi : Invokes .help args argv)
    (hl : CommandLine (options .help) args s r) (hn : r.headD [] = str "humanise") :
    ∃ text argv', midiasm w argv = ⟨[], text, .success⟩ ∧ (∀ a, Example text a ↔ a = argv') ∧
      (∃ s, CommandLine (options .humanise) (argv'.drop 1) s []) ∧ midiasm w' argv' = ⟨[], [], .failed⟩ := by
  have h : CommandLine (options .humanise) (((exampleWords .humanise).map str).drop 1)
      [(str "debug", .bool true), (str "verbose", .bool true), (str "out", .string (str "gnossienes.mid"))] [] := by
    rw [← C92_options]; decide +kernel
  refine ⟨_, (exampleWords .humanise).map str, C116_help w args argv s r hi hl, ?_, ⟨_, h⟩, ?_⟩
  · rw [hn]
    exact example_args .humanise (by simp [WithFiles])
  · exact (midiasm_runs (c := .humanise) (Or.inl rfl) h w').trans rfl

end Midiasm
