import Verif.Model.Text

/-!
The package `flag` (Go standard library) as used by cmd/midiasm/main.go:90-119 and the `Flagset` functions in commands/*.go:
one `FlagSet` with `ExitOnError`, filled with boolean, string and integer flags.
-/

namespace Midiasm

/-- The types of flag used: `BoolVar`, `StringVar` and `IntVar`. -/
inductive FlagKind where
  | bool
  | string
  | int
  deriving DecidableEq, Repr

/-- The value of a flag. -/
inductive FlagValue where
  | bool (b : Bool)
  | string (s : Bytes)
  | int (n : Int)
  deriving DecidableEq, Repr

/-- The flags registered in a `FlagSet`: names and types.  Simplification: default values are those of the getters below (all flags
of /repo default to false, the empty string or zero). -/
abbrev FlagTable := List (Bytes × FlagKind)

/-- `strconv.ParseBool` (Go standard library). -/
def parseBool (s : Bytes) : Option Bool :=
  if s ∈ [str "1", str "t", str "T", str "TRUE", str "true", str "True"] then some true
  else if s ∈ [str "0", str "f", str "F", str "FALSE", str "false", str "False"] then some false
  else none

/-- `lower` of package strconv (Go standard library): sets the bit that distinguishes lower case letters. -/
def lowerBit (c : UInt8) : UInt8 := c ||| 0x20

/-- The value of a digit as in `strconv.ParseUint` (Go standard library): digits and letters. -/
def digitOf (c : UInt8) : Option Nat :=
  if 48 ≤ c ∧ c ≤ 57 then some (c.toNat - 48)
  else if 97 ≤ lowerBit c ∧ lowerBit c ≤ 122 then some ((lowerBit c).toNat - 97 + 10)
  else none

/-- The loop of `strconv.ParseUint` with base prefix 0 and 64 bits (Go standard library): underscores are skipped, a digit outside the
base or a value of 2^64 or more is an error.  Simplification: the order in which syntax and range errors are found does not
matter since both are errors. -/
def digitsLoop (base : Nat) : Nat → Bytes → Option Nat
  | n, [] => some n
  | n, c :: rest =>
      if c = 95 then digitsLoop base n rest
      else match digitOf c with
        | none => none
        | some d =>
            if base ≤ d then none
            else if 2 ^ 64 ≤ n * base + d then none
            else digitsLoop base (n * base + d) rest

/-- The loop of `underscoreOK` of package strconv (Go standard library); `prev` is the kind of the previous character: `48` a digit or
the base prefix, `95` an underscore, `94` the beginning, `33` anything else. -/
def underscoreLoop (hex : Bool) : UInt8 → Bytes → Bool
  | prev, [] => prev != 95
  | prev, c :: rest =>
      if (48 ≤ c && c ≤ 57) || (hex && 97 ≤ lowerBit c && lowerBit c ≤ 102) then underscoreLoop hex 48 rest
      else if c = 95 then
        if prev != 48 then false else underscoreLoop hex 95 rest
      else if prev = 95 then false
      else underscoreLoop hex 33 rest

/-- `underscoreOK` of package strconv (Go standard library) after the sign: underscores only between digits, or between the base
prefix and a digit. -/
def underscoreOK (s : Bytes) : Bool :=
  match s with
  | 48 :: c :: rest =>
      if lowerBit c = 98 || lowerBit c = 111 || lowerBit c = 120 then underscoreLoop (lowerBit c = 120) 48 rest
      else underscoreLoop false 94 s
  | _ => underscoreLoop false 94 s

/-- `strconv.ParseUint(s, 0, 64)` (Go standard library): the base is given by a prefix. -/
def parseUintPrefixed (s : Bytes) : Option Nat :=
  let n : Option Nat :=
    match s with
    | [] => none
    | 48 :: rest =>
        match rest with
        | c :: d :: ds =>
            if lowerBit c = 98 then digitsLoop 2 0 (d :: ds)
            else if lowerBit c = 111 then digitsLoop 8 0 (d :: ds)
            else if lowerBit c = 120 then digitsLoop 16 0 (d :: ds)
            else digitsLoop 8 0 rest
        | _ => digitsLoop 8 0 rest
    | _ => digitsLoop 10 0 s
  if s.contains 95 && !underscoreOK s then none else n

/-- The end of `strconv.ParseInt(s, 0, 64)` (Go standard library): the digits after the sign. -/
def parseSigned (neg : Bool) (digits : Bytes) : Option Int :=
  match parseUintPrefixed digits with
  | none => none
  | some n =>
      if !neg && 2 ^ 63 ≤ n then none
      else if neg && 2 ^ 63 < n then none
      else some (if neg then -(n : Int) else n)

/-- `strconv.ParseInt(s, 0, 64)` (Go standard library). -/
def parseIntFlag (s : Bytes) : Option Int :=
  match s with
  | 43 :: rest => parseSigned false rest
  | 45 :: rest => parseSigned true rest
  | _ => parseSigned false s

/-- `Value.Set` of the flag types (Go standard library). -/
def setFlag (kind : FlagKind) (s : Bytes) : Option FlagValue :=
  match kind with
  | .bool => (parseBool s).map .bool
  | .string => some (.string s)
  | .int => (parseIntFlag s).map .int

/-- The outcome of `FlagSet.Parse` with `ExitOnError` (Go standard library): the flags set, in the order of the command line, and the
remaining arguments; or the program exits, with status 0 for `-h` and `-help` and with status 2 for any other error. -/
inductive Parsed where
  | ok (settings : List (Bytes × FlagValue)) (args : List Bytes)
  | help
  | bad
  deriving DecidableEq, Repr

/-- Adds a setting in front. -/
def Parsed.cons (s : Bytes × FlagValue) : Parsed → Parsed
  | .ok settings args => .ok (s :: settings) args
  | p => p

/-- The name and value of an argument without its dashes (`FlagSet.parseOne`, Go standard library): split at the first `=` that is not
the first character. -/
def splitFlag : Bytes → Bytes × Option Bytes
  | [] => ([], none)
  | c :: rest =>
      match rest.dropWhile (· != 61) with
      | _ :: value => (c :: rest.takeWhile (· != 61), some value)
      | [] => (c :: rest, none)

/-- `FlagSet.Parse` (Go standard library): `parseOne` until it stops. -/
def parseFlags (table : FlagTable) : List Bytes → Parsed
  | [] => .ok [] []
  | s :: args =>
      match s with
      | 45 :: c :: more =>
          if c = 45 ∧ more = [] then .ok [] args
          else
            let body := if c = 45 then more else c :: more
            if body.head? = some 45 ∨ body.head? = some 61 then .bad
            else
              match splitFlag body with
              | (name, value) =>
                  match table.lookup name with
                  | none => if name = str "help" ∨ name = str "h" then .help else .bad
                  | some kind =>
                      match value with
                      | some v =>
                          match setFlag kind v with
                          | none => .bad
                          | some x => (parseFlags table args).cons (name, x)
                      | none =>
                          if kind = .bool then (parseFlags table args).cons (name, .bool true)
                          else
                            match args with
                            | [] => .bad
                            | v :: args' =>
                                match setFlag kind v with
                                | none => .bad
                                | some x => (parseFlags table args').cons (name, x)
      | _ => .ok [] (s :: args)

/-- The value of a flag after parsing: the last setting. -/
def flagValue (settings : List (Bytes × FlagValue)) (name : Bytes) : Option FlagValue := settings.reverse.lookup name

/-- The value of a string flag. -/
def stringFlag (settings : List (Bytes × FlagValue)) (name : String) : Bytes :=
  match flagValue settings (str name) with
  | some (.string s) => s
  | _ => []

/-- The value of a boolean flag. -/
def boolFlag (settings : List (Bytes × FlagValue)) (name : String) : Bool :=
  match flagValue settings (str name) with
  | some (.bool b) => b
  | _ => false

/-- The value of an integer flag. -/
def intFlag (settings : List (Bytes × FlagValue)) (name : String) : Int :=
  match flagValue settings (str name) with
  | some (.int n) => n
  | _ => 0

end Midiasm
