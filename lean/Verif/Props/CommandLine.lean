import Verif.Lemmas.CommandLine

/-!
Reading the command line (cmd/midiasm/main.go:90-119 and the `Flagset` functions of commands/*.go).
-/

set_option linter.unusedSimpArgs false

namespace Midiasm
open Spec

theorem commandTable_lookup (c : Command) : commandTable.lookup (str (commandName c)) = some c := by
  cases c <;> decide +kernel

theorem commandTable_other (a : Bytes) (h : ∀ c, a ≠ str (commandName c)) : commandTable.lookup a = none := by
  rw [List.lookup_eq_none_iff]
  intro p hp
  simp only [commandTable, List.mem_cons, List.not_mem_nil, or_false] at hp
  rcases hp with rfl | rfl | rfl | rfl | rfl | rfl | rfl | rfl | rfl | rfl
  · simpa [commandName] using h .disassemble
  · simpa [commandName] using h .assemble
  · simpa [commandName] using h .notes
  · simpa [commandName] using h .click
  · simpa [commandName] using h .export_
  · simpa [commandName] using h .transpose
  · simpa [commandName] using h .tsv
  · simpa [commandName] using h .humanise
  · simpa [commandName] using h .help
  · simpa [commandName] using h .version

/-- The command line given after a command name, or for `disassemble` without it. -/
def Invokes (c : Command) (args argv : List Bytes) : Prop :=
  argv = str (commandName c) :: args ∨ (c = .disassemble ∧ argv = args ∧ ∀ a, args.head? = some a → ∀ c, a ≠ str (commandName c))

theorem select_invoked {c : Command} {args argv : List Bytes} (h : Invokes c args argv) : selectCommand argv = (c, args) := by
  rcases h with rfl | ⟨rfl, rfl, hn⟩
  · simp [selectCommand, commandTable_lookup]
  · cases argv with
    | nil => rfl
    | cons a rest => simp [selectCommand, commandTable_other a (hn a rfl)]

theorem invokes_exists (argv : List Bytes) : ∃ c args, Invokes c args argv := by
  cases argv with
  | nil => exact ⟨.disassemble, [], Or.inr ⟨rfl, rfl, by simp⟩⟩
  | cons a rest =>
    by_cases h : ∃ c, a = str (commandName c)
    · obtain ⟨c, rfl⟩ := h
      exact ⟨c, rest, Or.inl rfl⟩
    · refine ⟨.disassemble, a :: rest, Or.inr ⟨rfl, rfl, ?_⟩⟩
      intro b hb c hc
      simp only [List.head?_cons, Option.some.injEq] at hb
      exact h ⟨c, by rw [hb, hc]⟩

theorem midiasm_invoked {c : Command} {args argv : List Bytes} (h : Invokes c args argv) (w : World) :
    midiasm w argv = match parseFlags (commandFlags c) args with
      | .ok settings rest => execute w c settings rest
      | .help => ⟨[], [], .helped⟩
      | .bad => ⟨[], [], .usage⟩ := by
  simp only [midiasm, select_invoked h]
  cases parseFlags (commandFlags c) args <;> rfl

theorem midiasm_runs {c : Command} {args argv : List Bytes} (h : Invokes c args argv) {s : List (Bytes × FlagValue)} {r : List Bytes}
    (hl : CommandLine (options c) args s r) (w : World) : midiasm w argv = execute w c s r := by
  rw [midiasm_invoked h, (parse_iff c args s r).mpr hl]

/-! ### C92: the grammar of the command line -/

/-- C92: every command line invokes exactly one command, the one named by its first argument or else `disassemble`. -/
theorem C92_one_command (argv : List Bytes) : ∃ c args, Invokes c args argv ∧ ∀ c' args', Invokes c' args' argv → c' = c ∧ args' = args := by
  obtain ⟨c, args, h⟩ := invokes_exists argv
  refine ⟨c, args, h, fun c' args' h' => ?_⟩
  have h1 := select_invoked h
  rw [select_invoked h'] at h1
  injection h1 with h1 h2
  exact ⟨h1, h2⟩

/-- C92: an option takes effect exactly where the grammar of command lines puts it. -/
theorem C92_options (c : Command) (args : List Bytes) (s : List (Bytes × FlagValue)) (r : List Bytes) :
    parseFlags (commandFlags c) args = .ok s r ↔ CommandLine (options c) args s r := parse_iff c args s r

/-- C92: a command line outside the grammar does nothing: it exits with status 0 if it asks for help and with status 2 otherwise. -/
theorem C92_rejected (w : World) (c : Command) (args argv : List Bytes) (h : Invokes c args argv)
    (hno : ¬ ∃ s r, CommandLine (options c) args s r) :
    (midiasm w argv).files = [] ∧ (midiasm w argv).stdout = [] ∧
      (AsksHelp (options c) args → (midiasm w argv).status = .helped) ∧
      (¬ AsksHelp (options c) args → (midiasm w argv).status = .usage) := by
  rw [midiasm_invoked h]
  cases hp : parseFlags (commandFlags c) args with
  | ok s r => exact absurd ⟨s, r, (parse_iff c args s r).mp hp⟩ hno
  | help =>
    exact ⟨rfl, rfl, fun _ => rfl, fun hn => absurd ((parse_help_iff c args).mp hp) hn⟩
  | bad =>
    refine ⟨rfl, rfl, fun hy => ?_, fun _ => rfl⟩
    rw [(parse_help_iff c args).mpr hy] at hp
    cases hp

/-- A command line is read in at most one way, and not both read and asking for help. -/
theorem C92_unambiguous (c : Command) (args : List Bytes) (s s' : List (Bytes × FlagValue)) (r r' : List Bytes)
    (h : CommandLine (options c) args s r) (h' : CommandLine (options c) args s' r') :
    s = s' ∧ r = r' ∧ ¬ AsksHelp (options c) args := by
  have h1 := (parse_iff c args s r).mpr h
  have h2 := (parse_iff c args s' r').mpr h'
  rw [h1] at h2
  injection h2 with h3 h4
  refine ⟨h3, h4, fun hy => ?_⟩
  rw [(parse_help_iff c args).mpr hy] at h1
  cases h1

/-- The value of an option is the one given last. -/
theorem flagValue_given (s : List (Bytes × FlagValue)) (name : String) (x : FlagValue) :
    flagValue s (str name) = some x ↔ Given s name x := by
  unfold flagValue Given
  induction s with
  | nil => simp
  | cons p s ih =>
    rw [List.reverse_cons, List.lookup_append]
    cases hl : s.reverse.lookup (str name) with
    | some y =>
      rw [hl] at ih
      simp only [Option.some_or]
      constructor
      · intro h
        obtain ⟨b, a, rfl, ha⟩ := ih.mp h
        exact ⟨p :: b, a, rfl, ha⟩
      · rintro ⟨b, a, hs, ha⟩
        cases b with
        | nil =>
          simp only [List.nil_append, List.cons.injEq] at hs
          obtain ⟨rfl, rfl⟩ := hs
          have : s.reverse.lookup (str name) = none := by
            rw [List.lookup_eq_none_iff]
            intro q hq
            simpa using fun h => ha q (by simpa using hq) h.symm
          rw [this] at hl
          cases hl
        | cons q b =>
          simp only [List.cons_append, List.cons.injEq] at hs
          exact ih.mpr ⟨b, a, hs.2, ha⟩
    | none =>
      rw [hl] at ih
      have hnone : ∀ q ∈ s, q.1 ≠ str name := by
        rw [List.lookup_eq_none_iff] at hl
        intro q hq h
        have := hl q (by simpa using hq)
        rw [h] at this
        simp at this
      simp only [Option.none_or]
      constructor
      · intro h
        obtain ⟨n, y⟩ := p
        by_cases hn : str name = n
        · subst hn
          simp at h
          subst h
          exact ⟨[], s, rfl, hnone⟩
        · have : (str name == n) = false := by simpa using hn
          simp [List.lookup, this] at h
      · rintro ⟨b, a, hs, ha⟩
        cases b with
        | nil =>
          simp only [List.nil_append, List.cons.injEq] at hs
          rw [hs.1]
          simp
        | cons q b =>
          simp only [List.cons_append, List.cons.injEq] at hs
          exact absurd rfl (hnone (str name, x) (by rw [hs.2]; simp))

theorem stringFlag_eq (s : List (Bytes × FlagValue)) (name : String) (v : Bytes) (h : Given s name (.string v)) : stringFlag s name = v := by
  rw [stringFlag, (flagValue_given s name _).mpr h]

theorem stringFlag_none (s : List (Bytes × FlagValue)) (name : String) (h : ∀ v, Given s name (.string v) → v = []) :
    stringFlag s name = [] := by
  rw [stringFlag]
  split
  · rename_i v hv
    exact h v ((flagValue_given s name _).mp hv)
  · rfl

theorem stringFlag_given (s : List (Bytes × FlagValue)) (name : String) (h : stringFlag s name ≠ []) :
    Given s name (.string (stringFlag s name)) := by
  rw [stringFlag] at h ⊢
  split
  · rename_i v hv
    exact (flagValue_given s name _).mp hv
  · rename_i hv
    split at h
    · rename_i v hv'
      exact absurd hv' (hv v)
    · cases h rfl

theorem boolFlag_given (s : List (Bytes × FlagValue)) (name : String) : boolFlag s name = true ↔ Given s name (.bool true) := by
  rw [boolFlag, ← flagValue_given]
  split
  · rename_i b hb
    rw [hb]
    simp
  · rename_i hb
    simp only [Bool.false_eq_true, false_iff]
    exact hb true

theorem intFlag_eq (s : List (Bytes × FlagValue)) (name : String) (n : Int) (h : Given s name (.int n)) : intFlag s name = n := by
  rw [intFlag, (flagValue_given s name _).mpr h]

theorem intFlag_none (s : List (Bytes × FlagValue)) (name : String) (h : ∀ n, ¬ Given s name (.int n)) : intFlag s name = 0 := by
  rw [intFlag]
  split
  · rename_i n hn
    exact absurd ((flagValue_given s name _).mp hn) (h n)
  · rfl

/-! ### C93: options after the file name -/

theorem commandLine_operand {opts : List (String × FlagKind)} {pre : List Bytes} {s : List (Bytes × FlagValue)}
    (h : CommandLine opts pre s []) (f : Bytes) (x : List Bytes) (hf : Operand f) : CommandLine opts (pre ++ f :: x) s (f :: x) := by
  generalize hr : ([] : List Bytes) = r at h
  induction h with
  | nothing => exact .operand f x hf
  | operand a rest _ => cases hr
  | dashes rest => subst hr; exact .dashes _
  | switch name a rest s r hm hd _ ih => exact .switch name a _ s _ hm hd (ih hr)
  | joined name kind a v y rest s r hm hd hv _ ih => exact .joined name kind a v y _ s _ hm hd hv (ih hr)
  | separate name kind a v y rest s r hm hk hd hv _ ih => exact .separate name kind a v y _ s _ hm hk hd hv (ih hr)

theorem execute_head (w : World) (c : Command) (s : List (Bytes × FlagValue)) (f : Bytes) (x y : List Bytes) :
    execute w c s (f :: x) = execute w c s (f :: y) := rfl

/-- C93, partial: whatever follows the file name has no effect. -/
theorem C93_trailing_partial (w : World) (c : Command) (pre : List Bytes) (s : List (Bytes × FlagValue)) (h : CommandLine (options c) pre s [])
    (f : Bytes) (hf : Operand f) (x y : List Bytes) :
    midiasm w (str (commandName c) :: (pre ++ f :: x)) = midiasm w (str (commandName c) :: (pre ++ f :: y)) := by
  rw [midiasm_runs (Or.inl rfl) (commandLine_operand h f x hf), midiasm_runs (Or.inl rfl) (commandLine_operand h f y hf),
    execute_head w c s f x y]

theorem save_nil (w : World) (o : Outcome Bytes) : save w [] o = ⟨[], [], statusOf o⟩ := by cases o <;> rfl

/-- C93 is false: an output file named after the input is never written. -/
theorem C93_out_after_fails (w : World) (c : Command) (f : Bytes) (hf : Operand f) (x : List Bytes) :
    (midiasm w (str (commandName c) :: f :: x)).files = [] := by
  rw [midiasm_runs (Or.inl rfl) (.operand f x hf)]
  have e : stringFlag [] "out" = [] := rfl
  cases c with
  | disassemble =>
    simp only [execute, runDisassemble, withFile, e]
    split
    · simp only [printerFor, show stringFlag [] "templates" = [] from rfl, show boolFlag [] "split" = false from rfl, if_true,
        Bool.false_eq_true, if_false, writeDocument]
    · rfl
  | assemble =>
    simp only [execute, runAssemble, e]
    split
    · rfl
    · rw [save_nil]
  | notes =>
    simp only [execute, runNotes, withFile, e, emit]
    split <;> rfl
  | click =>
    simp only [execute, runClick, withFile, e]
    split
    · simp only [ne_eq, not_true_eq_false, false_and, if_false]
      split <;> rfl
    · rfl
  | export_ =>
    simp only [execute, runExport, withFile, e, emit]
    split <;> rfl
  | transpose =>
    simp only [execute, runTranspose, withFile, e]
    split
    · rw [save_nil]
    · rfl
  | tsv =>
    simp only [execute, runTsv, withFile, e, emit]
    split <;> rfl
  | humanise =>
    simp only [execute, runHumanise, withFile]
    split <;> rfl
  | help => rfl
  | version => rfl

/-! ### C94: numbers on the command line -/

/-- C94, partial: a decimal number without leading zeros, with or without sign, stands for itself. -/
theorem C94_decimal_partial (s : Bytes) (ds : List Nat) (hd : DigitText 10 s ds) (h0 : s.head? ≠ some 48)
    (hv : Spec.digitsValue 10 ds < 9223372036854775808) :
    OptionText .int s (.int (Spec.digitsValue 10 ds)) ∧ OptionText .int (43 :: s) (.int (Spec.digitsValue 10 ds)) ∧
    OptionText .int (45 :: s) (.int (-(Spec.digitsValue 10 ds : Int))) := by
  have hu := UnsignedText.decimal s ds h0 hd
  exact ⟨.int _ _ (.plain _ _ hu) (by omega) (by omega), .int _ _ (.plus _ _ hu) (by omega) (by omega),
    .int _ _ (.minus _ _ hu) (by omega) (by omega)⟩

/-- C94 is false: digits after a leading zero are octal, and a digit 8 or 9 among them is refused. -/
theorem C94_octal_fails (s : Bytes) (ds : List Nat) (hd : DigitText 10 s ds) (h0 : s.head? = some 48) (x : FlagValue)
    (hx : OptionText .int s x) : (∀ d ∈ ds, d < 8) ∧ x = .int (Spec.digitsValue 8 ds) := by
  have uniq : ∀ (c : UInt8) (d d' : Nat), DigitChar c d → DigitChar c d' → d = d' := by
    intro c d d' h h'
    have h1 := digitOf_char.mpr h
    rw [digitOf_char.mpr h'] at h1
    injection h1 with h1
    exact h1.symm
  have und : ∀ d, ¬ DigitChar 95 d := by
    intro d h
    have := digitOf_char.mpr h
    rw [digitOf_underscore] at this
    cases this
  have same : ∀ (s : Bytes) (ds ds' : List Nat), DigitText 10 s ds → DigitText 8 s ds' → ds = ds' ∧ ∀ d ∈ ds, d < 8 := by
    intro s ds ds' h
    induction h generalizing ds' with
    | one c d hc hd =>
      intro h'
      cases h' with
      | one _ d' hc' hd' => cases uniq c d d' hc hc'; exact ⟨rfl, by simpa using hd'⟩
      | more _ _ _ _ _ _ h => cases h
    | more c d s ds hc hd hs ih =>
      intro h'
      generalize hu : c :: s = u at h'
      cases h' with
      | one _ _ _ _ => cases hu; cases hs
      | more c' d' s' ds' hc' hd' hs' =>
        cases hu
        cases uniq c d d' hc hc'
        obtain ⟨rfl, h2⟩ := ih _ hs'
        exact ⟨rfl, by simpa using ⟨hd', h2⟩⟩
      | group c' d' s' ds' hc' hd' hs' =>
        cases hu
        cases hs with
        | one _ e he _ => exact absurd he (und e)
        | more _ e _ _ he _ _ => exact absurd he (und e)
        | group _ e _ _ he _ _ => exact absurd he (und e)
    | group c d s ds hc hd hs ih =>
      intro h'
      generalize hu : c :: 95 :: s = u at h'
      cases h' with
      | one _ _ _ _ => cases hu
      | more c' d' s' ds' hc' hd' hs' =>
        cases hu
        cases hs' with
        | one _ e he _ => exact absurd he (und e)
        | more _ e _ _ he _ _ => exact absurd he (und e)
        | group _ e _ _ he _ _ => exact absurd he (und e)
      | group c' d' s' ds' hc' hd' hs' =>
        cases hu
        cases uniq c d d' hc hc'
        obtain ⟨rfl, h2⟩ := ih _ hs'
        exact ⟨rfl, by simpa using ⟨hd', h2⟩⟩
  have letter : ∀ (c : UInt8) (base : Nat) (t : Bytes) , BaseLetter c base → s = 48 :: c :: t → False := by
    intro c base t hl hs
    subst hs
    have hc : ¬ ((48 ≤ c ∧ c ≤ 57) ∨ c = 95) := by cases hl <;> decide
    cases hd with
    | more _ d _ ds' _ _ h =>
      obtain ⟨c', t', e, hcc⟩ := digitText_head (by decide) h
      cases e
      exact hc (Or.inl hcc)
    | group _ _ _ _ _ _ _ => exact hc (Or.inr rfl)
  have unsigned : ∀ n, UnsignedText s n → (∀ d ∈ ds, d < 8) ∧ n = Spec.digitsValue 8 ds := by
    intro n hn
    cases hn with
    | decimal _ ds' hh _ => exact absurd h0 hh
    | octal _ ds' _ h8 =>
      obtain ⟨rfl, h2⟩ := same s ds ds' hd h8
      exact ⟨h2, rfl⟩
    | based c base t ds' hl _ => exact (letter c base t hl rfl).elim
    | basedGroup c base t ds' hl _ => exact (letter c base (95 :: t) hl rfl).elim
  cases hx with
  | int _ n hi _ _ =>
    cases hi with
    | plain _ n hu =>
      obtain ⟨h1, rfl⟩ := unsigned n hu
      exact ⟨h1, rfl⟩
    | plus _ _ _ => simp at h0
    | minus _ _ _ => simp at h0

/-! ### Examples -/

/-- `midiasm transpose --semitones -5 -out=x.mid --C4 in.mid ignored`. -/
example : CommandLine (options .transpose)
    [str "--semitones", str "-5", str "-out=x.mid", str "--C4", str "in.mid", str "ignored"]
    [(str "semitones", .int (-5)), (str "out", .string (str "x.mid")), (str "C4", .bool true)] [str "in.mid", str "ignored"] := by
  rw [← C92_options]
  decide +kernel

/-- A command line outside the grammar, and one asking for help. -/
example : (¬ ∃ s r, CommandLine (options .assemble) [str "--conf", str "x", str "y"] s r) ∧
    ¬ AsksHelp (options .assemble) [str "--conf", str "x", str "y"] ∧ AsksHelp (options .assemble) [str "--C4", str "-h"] := by
  have h : parseFlags (commandFlags .assemble) [str "--conf", str "x", str "y"] = .bad := by decide +kernel
  refine ⟨?_, ?_, ?_⟩
  · rintro ⟨s, r, hl⟩
    rw [← C92_options, h] at hl
    cases hl
  · intro hh
    rw [← parse_help_iff, h] at hh
    cases hh
  · rw [← parse_help_iff]
    decide +kernel

/-- The last value counts. -/
example : Given [(str "out", .string (str "a")), (str "C4", .bool true), (str "out", .string (str "b"))] "out" (.string (str "b")) :=
  ⟨[(str "out", .string (str "a")), (str "C4", .bool true)], [], rfl, by simp⟩

/-- `010` is eight and `12` is twelve. -/
example : OptionText .int (str "010") (.int 8) ∧ OptionText .int (str "12") (.int 12) ∧ ¬ ∃ x, OptionText .int (str "08") x := by
  refine ⟨(setFlag_iff _ _ _).mp (by decide +kernel), (setFlag_iff _ _ _).mp (by decide +kernel), ?_⟩
  rintro ⟨x, hx⟩
  have := (setFlag_iff _ _ _).mpr hx
  have hn : setFlag .int (str "08") = none := by decide +kernel
  rw [hn] at this
  cases this

end Midiasm
