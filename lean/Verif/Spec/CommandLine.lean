import Verif.Model.Flags
import Verif.Model.Commands

/-!
The command line, specified independently of the code that reads it: the grammar of options and the meaning of their values.
-/

namespace Spec
open Midiasm

/-- A character and the number it stands for as a digit. -/
inductive DigitChar : UInt8 → Nat → Prop
  | digit (d : Nat) : d < 10 → DigitChar (UInt8.ofNat (48 + d)) d
  | lower (d : Nat) : 10 ≤ d → d < 36 → DigitChar (UInt8.ofNat (87 + d)) d
  | upper (d : Nat) : 10 ≤ d → d < 36 → DigitChar (UInt8.ofNat (55 + d)) d

/-- Digits of a base, with single underscores between some of them. -/
inductive DigitText (base : Nat) : Bytes → List Nat → Prop
  | one (c d) : DigitChar c d → d < base → DigitText base [c] [d]
  | more (c d s ds) : DigitChar c d → d < base → DigitText base s ds → DigitText base (c :: s) (d :: ds)
  | group (c d s ds) : DigitChar c d → d < base → DigitText base s ds → DigitText base (c :: 95 :: s) (d :: ds)

/-- The number with these digits. -/
def digitsValue (base : Nat) (ds : List Nat) : Nat := ds.foldl (fun n d => n * base + d) 0

/-- The prefixes of the bases: `0b`, `0o` and `0x`, in either case. -/
inductive BaseLetter : UInt8 → Nat → Prop
  | b : BaseLetter 98 2
  | B : BaseLetter 66 2
  | o : BaseLetter 111 8
  | O : BaseLetter 79 8
  | x : BaseLetter 120 16
  | X : BaseLetter 88 16

/-- An unsigned integer as in Go source text: decimal unless it starts with a zero, then octal or in the base of its prefix. -/
inductive UnsignedText : Bytes → Nat → Prop
  | decimal (s ds) : s.head? ≠ some 48 → DigitText 10 s ds → UnsignedText s (digitsValue 10 ds)
  | octal (s ds) : s.head? = some 48 → DigitText 8 s ds → UnsignedText s (digitsValue 8 ds)
  | based (c base s ds) : BaseLetter c base → DigitText base s ds → UnsignedText (48 :: c :: s) (digitsValue base ds)
  | basedGroup (c base s ds) : BaseLetter c base → DigitText base s ds → UnsignedText (48 :: c :: 95 :: s) (digitsValue base ds)

/-- An integer, with or without sign. -/
inductive IntegerText : Bytes → Int → Prop
  | plain (s n) : UnsignedText s n → IntegerText s n
  | plus (s n) : UnsignedText s n → IntegerText (43 :: s) n
  | minus (s n) : UnsignedText s n → IntegerText (45 :: s) (-(n : Int))

/-- The text gives the value to an option of the kind; integers are those of 64 bits. -/
inductive OptionText : FlagKind → Bytes → FlagValue → Prop
  | string (s) : OptionText .string s (.string s)
  | yes (s : String) : s ∈ ["1", "t", "T", "TRUE", "true", "True"] → OptionText .bool (str s) (.bool true)
  | no (s : String) : s ∈ ["0", "f", "F", "FALSE", "false", "False"] → OptionText .bool (str s) (.bool false)
  | int (s n) : IntegerText s n → -9223372036854775808 ≤ n → n < 9223372036854775808 → OptionText .int s (.int n)

/-- The options of a command: the three common ones and its own. -/
def options (c : Command) : List (String × FlagKind) :=
  [("C4", .bool), ("verbose", .bool), ("debug", .bool)] ++
    match c with
    | .disassemble => [("out", .string), ("split", .bool), ("templates", .string)]
    | .assemble => [("out", .string)]
    | .notes => [("out", .string), ("transpose", .int), ("json", .bool)]
    | .click => [("out", .string)]
    | .export_ => [("out", .string)]
    | .transpose => [("out", .string), ("semitones", .int)]
    | .tsv => [("out", .string), ("delimiter", .string), ("tabular", .bool)]
    | .humanise => [("out", .string)]
    | .help => []
    | .version => []

/-- The option is written with one or two dashes. -/
def Dashed (name : String) (arg : Bytes) : Prop := arg = str "-" ++ str name ∨ arg = str "--" ++ str name

/-- An argument that is not an option: it does not start with a dash, or is just a dash. -/
def Operand (arg : Bytes) : Prop := arg.head? ≠ some 45 ∨ arg = [45]

/-- The arguments of a command consist of options, giving values in this order, followed by operands.  Options end at the first operand
or after `--`. -/
inductive CommandLine (opts : List (String × FlagKind)) : List Bytes → List (Bytes × FlagValue) → List Bytes → Prop
  | nothing : CommandLine opts [] [] []
  | operand (a rest) : Operand a → CommandLine opts (a :: rest) [] (a :: rest)
  | dashes (rest) : CommandLine opts (str "--" :: rest) [] rest
  | switch (name a rest s r) : (name, FlagKind.bool) ∈ opts → Dashed name a → CommandLine opts rest s r →
      CommandLine opts (a :: rest) ((str name, .bool true) :: s) r
  | joined (name kind a v x rest s r) : (name, kind) ∈ opts → Dashed name a → OptionText kind v x → CommandLine opts rest s r →
      CommandLine opts ((a ++ str "=" ++ v) :: rest) ((str name, x) :: s) r
  | separate (name kind a v x rest s r) : (name, kind) ∈ opts → kind ≠ .bool → Dashed name a → OptionText kind v x →
      CommandLine opts rest s r → CommandLine opts (a :: v :: rest) ((str name, x) :: s) r

/-- The arguments ask for help: after options there is a flag `h` or `help`, which is no option of any command. -/
inductive AsksHelp (opts : List (String × FlagKind)) : List Bytes → Prop
  | here (name a rest) : name ∈ ["h", "help"] → Dashed name a → AsksHelp opts (a :: rest)
  | hereJoined (name a v rest) : name ∈ ["h", "help"] → Dashed name a → AsksHelp opts ((a ++ str "=" ++ v) :: rest)
  | switch (name a rest) : (name, FlagKind.bool) ∈ opts → Dashed name a → AsksHelp opts rest → AsksHelp opts (a :: rest)
  | joined (name kind a v x rest) : (name, kind) ∈ opts → Dashed name a → OptionText kind v x → AsksHelp opts rest →
      AsksHelp opts ((a ++ str "=" ++ v) :: rest)
  | separate (name kind a v x rest) : (name, kind) ∈ opts → kind ≠ .bool → Dashed name a → OptionText kind v x → AsksHelp opts rest →
      AsksHelp opts (a :: v :: rest)

/-- The names of the commands. -/
def commandName : Command → String
  | .disassemble => "disassemble"
  | .assemble => "assemble"
  | .notes => "notes"
  | .click => "click"
  | .export_ => "export"
  | .transpose => "transpose"
  | .tsv => "tsv"
  | .humanise => "humanise"
  | .help => "help"
  | .version => "version"

/-- The value given last to an option. -/
def Given (settings : List (Bytes × FlagValue)) (name : String) (x : FlagValue) : Prop :=
  ∃ before after, settings = before ++ (str name, x) :: after ∧ ∀ p ∈ after, p.1 ≠ str name

end Spec
