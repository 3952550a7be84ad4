import Verif.Spec.Documented
import Verif.Props.CommandLine

/-!
C152: the options that README.md lists.
-/

set_option linter.unusedSimpArgs false

namespace Midiasm
open Spec

theorem documented_options (c : Command) (p : String × FlagKind) (h : p ∈ documented c) : p ∈ options c ∨ (c = .export_ ∧ (p.1 = "json" ∨ p.1 = "transpose")) := by
  cases c <;> simp only [documented, List.mem_cons, List.not_mem_nil, or_false] at h <;>
    rcases h with rfl | rfl | rfl | rfl | rfl | rfl <;> simp [options]

theorem commandLine_documented {c : Command} {args : List Bytes} {s : List (Bytes × FlagValue)} {r : List Bytes} (h : CommandLine (documented c) args s r)
    (hx : c = .export_ → ∀ p ∈ s, p.1 ≠ str "json" ∧ p.1 ≠ str "transpose") : CommandLine (options c) args s r := by
  have known : ∀ (name : String) (kind : FlagKind) (x : FlagValue) (s : List (Bytes × FlagValue)), (name, kind) ∈ documented c →
      (c = .export_ → ∀ p ∈ (str name, x) :: s, p.1 ≠ str "json" ∧ p.1 ≠ str "transpose") → (name, kind) ∈ options c := by
    intro name kind x s hn hx
    rcases documented_options c _ hn with h | ⟨hc, h⟩
    · exact h
    · obtain ⟨h1, h2⟩ := hx hc _ (List.mem_cons_self ..)
      simp only at h h1 h2
      rcases h with rfl | rfl
      · exact absurd rfl h1
      · exact absurd rfl h2
  induction h with
  | nothing => exact .nothing
  | operand a rest h => exact .operand a rest h
  | dashes rest => exact .dashes rest
  | switch name a rest s r hn hd _ ih => exact .switch name a rest s r (known _ _ _ _ hn hx) hd (ih fun hc p hp => hx hc p (List.mem_cons_of_mem _ hp))
  | joined name kind a v x rest s r hn hd ho _ ih =>
    exact .joined name kind a v x rest s r (known _ _ _ _ hn hx) hd ho (ih fun hc p hp => hx hc p (List.mem_cons_of_mem _ hp))
  | separate name kind a v x rest s r hn hk hd ho _ ih =>
    exact .separate name kind a v x rest s r (known _ _ _ _ hn hx) hk hd ho (ih fun hc p hp => hx hc p (List.mem_cons_of_mem _ hp))

theorem runs_used (w : World) (c : Command) (s : List (Bytes × FlagValue)) (r : List Bytes) : (execute w c s r).status ≠ .usage := by
  have hs : ∀ {α : Type} (o : Outcome α), statusOf o ≠ .usage := by intro α o; cases o <;> simp [statusOf]
  have he : ∀ out o, (emit w out o).status ≠ .usage := by
    intro out o
    unfold emit
    simp only
    repeat' split
    all_goals first | exact hs _ | simp [statusOf]
  have hv : ∀ out o, (save w out o).status ≠ .usage := by
    intro out o
    unfold save
    repeat' split
    all_goals first | exact hs _ | simp [statusOf]
  have hw : ∀ mc file f, (∀ smf, (f smf : RunResult).status ≠ .usage) → (withFile w mc file f).status ≠ .usage := by
    intro mc file f hf
    unfold withFile
    split
    · exact hf _
    · exact hs _
  have ht : ∀ fresh p dir base ts, (splitTracks w fresh p dir base ts).2 ≠ .usage := by
    intro fresh p dir base ts
    induction ts with
    | nil => simp [splitTracks]
    | cons t ts ih =>
      unfold splitTracks
      simp only
      split
      · exact ih
      · simp
  cases c <;> simp only [execute]
  case disassemble =>
    refine hw _ _ _ fun smf => ?_
    split
    · simp
    · simp only
      split
      · unfold separate
        simp only
        repeat' split
        all_goals first | apply ht | (show Status.failed ≠ _; exact fun h => nomatch h)
      · unfold writeDocument
        simp only
        repeat' split
        all_goals simp
  case assemble =>
    unfold runAssemble
    split
    · simp
    · exact hv _ _
  case notes => exact hw _ _ _ fun smf => he _ _
  case click =>
    refine hw _ _ _ fun smf => ?_
    simp only
    repeat' split
    all_goals first | exact hs _ | simp [statusOf]
  case export_ => exact hw _ _ _ fun smf => he _ _
  case transpose => exact hw _ _ _ fun smf => hv _ _
  case tsv => exact hw _ _ _ fun smf => he _ _
  case humanise => exact hw _ _ _ fun smf => by simp
  case help => simp
  case version => simp

/-- C152 for all commands, less `--json` and `--transpose` of `export`: a command line made of options that README.md lists is accepted, and the
options have the values given.  Missing: these two options (`C152_documented_fails`). -/
theorem C152_documented_partial (w : World) (c : Command) (args argv : List Bytes) (s : List (Bytes × FlagValue)) (r : List Bytes) (hi : Invokes c args argv)
    (h : CommandLine (documented c) args s r) (hx : c = .export_ → ∀ p ∈ s, p.1 ≠ str "json" ∧ p.1 ≠ str "transpose") :
    CommandLine (options c) args s r ∧ (midiasm w argv).status ≠ .usage := by
  have hl := commandLine_documented h hx
  exact ⟨hl, by rw [midiasm_runs hi hl]; exact runs_used w c s r⟩

/-- C152 is false: `export` refuses the options `--json` and `--transpose`, whatever follows. -/
theorem C152_documented_fails (w : World) (rest : List Bytes) :
    midiasm w (str "export" :: str "--json" :: rest) = ⟨[], [], .usage⟩ ∧ midiasm w (str "export" :: str "--transpose" :: rest) = ⟨[], [], .usage⟩ ∧
      CommandLine (documented .export_) [str "--json", str "a.mid"] [(str "json", .bool true)] [str "a.mid"] := by
  have unknown : ∀ (arg name : Bytes), arg = 45 :: 45 :: name → name ≠ [] → name.head? ≠ some 45 ∧ name.head? ≠ some 61 →
      splitFlag name = (name, none) → (commandFlags .export_).lookup name = none → name ≠ str "help" ∧ name ≠ str "h" →
      midiasm w (str "export" :: arg :: rest) = ⟨[], [], .usage⟩ := by
    intro arg name ha h0 h1 h2 h3 h4
    have e : parseFlags (commandFlags .export_) (arg :: rest) = .bad := by
      rw [ha]
      unfold parseFlags
      simp only [h0, h1, h2, h3, h4, and_false, if_false, if_true, or_self]
    have i : Invokes .export_ (arg :: rest) (str "export" :: arg :: rest) := Or.inl rfl
    rw [midiasm_invoked i, e]
  refine ⟨?_, ?_, ?_⟩
  · exact unknown (str "--json") (str "json") (by decide +kernel) (by decide +kernel) (by decide +kernel) (by decide +kernel) (by decide +kernel) (by decide +kernel)
  · exact unknown (str "--transpose") (str "transpose") (by decide +kernel) (by decide +kernel) (by decide +kernel) (by decide +kernel) (by decide +kernel)
      (by decide +kernel)
  · exact .switch "json" _ _ _ _ (by simp [documented]) (Or.inr (by decide +kernel)) (.operand _ _ (Or.inl (by decide +kernel)))

theorem commandLine_mono {opts opts' : List (String × FlagKind)} (ho : ∀ p ∈ opts, p ∈ opts') {args : List Bytes} {s : List (Bytes × FlagValue)} {r : List Bytes}
    (h : CommandLine opts args s r) : CommandLine opts' args s r := by
  induction h with
  | nothing => exact .nothing
  | operand a rest h => exact .operand a rest h
  | dashes rest => exact .dashes rest
  | switch name a rest s r hn hd _ ih => exact .switch name a rest s r (ho _ hn) hd ih
  | joined name kind a v x rest s r hn hd hv _ ih => exact .joined name kind a v x rest s r (ho _ hn) hd hv ih
  | separate name kind a v x rest s r hn hk hd hv _ ih => exact .separate name kind a v x rest s r (ho _ hn) hk hd hv ih

/-- A documented command line that is accepted: the example of README.md:198. -/
example : CommandLine (documented .transpose) [str "--debug", str "--verbose", str "--semitones", str "+5", str "--out", str "one-time+5.mid", str "one-time.mid"]
    [(str "debug", .bool true), (str "verbose", .bool true), (str "semitones", .int 5), (str "out", .string (str "one-time+5.mid"))] [str "one-time.mid"] := by
  apply commandLine_mono (opts := options .transpose)
  · simp [options, documented]
  · rw [← C92_options]
    decide +kernel

end Midiasm
