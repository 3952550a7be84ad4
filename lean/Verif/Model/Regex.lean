import Verif.Model.Text

/-!
Regular expressions (Go standard library `regexp`), as far as /repo uses them.

A pattern is a sequence of items.  Go documents `regexp` matching as leftmost-first: of the matches that begin at the leftmost
position, the one a backtracking search would have found first.  `matchAt` is that search; `findSubmatch` is the leftmost start.
The input is a sequence of runes; a byte that is no valid UTF-8 is a rune of its own that only `.` matches.
-/

namespace Midiasm

/-- A rune of the input: its bytes. -/
abbrev Tok := Bytes

/-- The runes of a string with fuel; the length of the string is enough. -/
def toksAux : Nat → Bytes → List Tok
  | 0, _ => []
  | _, [] => []
  | fuel + 1, b :: rest =>
      (b :: rest.take (decodeRune b rest).2) :: toksAux fuel (rest.drop (decodeRune b rest).2)

/-- The runes of a string. -/
def toks (s : Bytes) : List Tok := toksAux s.length s

/-- Lower case of an ASCII letter. -/
def lower (b : UInt8) : UInt8 := if 65 ≤ b && b ≤ 90 then b + 32 else b

/-- `.`: any rune but a line feed. -/
def anyTok (t : Tok) : Bool := t ≠ [10]

/-- `[0-9]`. -/
def digitTok : Tok → Bool
  | [b] => 48 ≤ b && b ≤ 57
  | _ => false

/-- `\s`. -/
def spaceTok : Tok → Bool
  | [b] => reSpace b
  | _ => false

/-- A range of ASCII characters. -/
def rangeTok (lo hi : UInt8) : Tok → Bool
  | [b] => lo ≤ b && b ≤ hi
  | _ => false

/-- One ASCII character. -/
def charTok (c : UInt8) : Tok → Bool
  | [b] => b = c
  | _ => false

/-- One ASCII character under the flag `(?i)`.  Case folding of Unicode adds the Kelvin sign to `k` and the long s to `s`. -/
def foldTok (c : UInt8) (t : Tok) : Bool :=
  match t with
  | [b] => lower b = lower c
  | _ => (lower c = 107 && t = [0xe2, 0x84, 0xaa]) || (lower c = 115 && t = [0xc5, 0xbf])

/-- `[♯♭]`. -/
def accidentalTok (t : Tok) : Bool := t = str "♯" || t = str "♭"

/-- Items of a pattern. -/
inductive Item where
  /-- one rune of a class -/
  | chr (p : Tok → Bool)
  /-- `c*` or `c*?` -/
  | star (p : Tok → Bool) (greedy : Bool)
  /-- `c?` -/
  | opt (p : Tok → Bool)
  /-- `(?:a|b)` of two fixed sequences -/
  | alt (a b : List (Tok → Bool))
  /-- `(` of a numbered group; groups are not nested in the patterns of /repo -/
  | start
  /-- `)` of a numbered group -/
  | stop

/-- Groups closed so far, and the group being filled. -/
structure Caps where
  groups : List Bytes
  open_ : Option Bytes

/-- One rune has been matched. -/
def Caps.eat (c : Caps) (t : Tok) : Caps :=
  match c.open_ with
  | some b => ⟨c.groups, some (b ++ t)⟩
  | none => c

/-- `c*` followed by `k`: as many runes as possible, or as few as possible, such that `k` matches. -/
def starThen (p : Tok → Bool) (greedy : Bool) (k : Caps → List Tok → Option Caps) : Caps → List Tok → Option Caps
  | c, [] => k c []
  | c, t :: r =>
      if p t then
        if greedy then (starThen p greedy k (c.eat t) r).or (k c (t :: r))
        else (k c (t :: r)).or (starThen p greedy k (c.eat t) r)
      else k c (t :: r)

/-- A fixed sequence. -/
def seqTok : List (Tok → Bool) → Caps → List Tok → Option (Caps × List Tok)
  | [], c, s => some (c, s)
  | p :: ps, c, t :: r => if p t then seqTok ps (c.eat t) r else none
  | _ :: _, _, [] => none

/-- The match of a pattern at the start of the input. -/
def matchAt : List Item → Caps → List Tok → Option Caps
  | [], c, _ => some c
  | .chr p :: is, c, s =>
      match s with
      | t :: r => if p t then matchAt is (c.eat t) r else none
      | [] => none
  | .star p greedy :: is, c, s => starThen p greedy (matchAt is) c s
  | .opt p :: is, c, s =>
      match s with
      | t :: r => if p t then (matchAt is (c.eat t) r).or (matchAt is c s) else matchAt is c s
      | [] => matchAt is c s
  | .alt a b :: is, c, s =>
      ((seqTok a c s).bind fun x => matchAt is x.1 x.2).or ((seqTok b c s).bind fun x => matchAt is x.1 x.2)
  | .start :: is, c, s => matchAt is ⟨c.groups, some []⟩ s
  | .stop :: is, c, s => matchAt is ⟨c.groups ++ c.open_.toList, none⟩ s

/-- The leftmost match. -/
def findToks (is : List Item) : List Tok → Option Caps
  | [] => matchAt is ⟨[], none⟩ []
  | t :: r => (matchAt is ⟨[], none⟩ (t :: r)).or (findToks is r)

/-- `FindStringSubmatch`: the groups 1, 2, … of the leftmost match.  Every group of the patterns of /repo takes part in a match, so
the number of groups is fixed and the length checks of the callers never fail. -/
def findSubmatch (is : List Item) (s : Bytes) : Option (List Bytes) := (findToks is (toks s)).map (·.groups)

/-! ### Building blocks -/

/-- A literal under `(?i)`. -/
def ilit (s : String) : List Item := (str s).map fun c => .chr (foldTok c)

/-- A literal. -/
def lit (s : String) : List Item := (str s).map fun c => .chr (charTok c)

/-- A numbered group. -/
def group (is : List Item) : List Item := .start :: is ++ [.stop]

/-- `c+`. -/
def plus (p : Tok → Bool) : List Item := [.chr p, .star p true]

/-- `([0-9]+)`. -/
def number : List Item := group (plus digitTok)

/-! ### Parsing numbers -/

/-- Value of a decimal digit. -/
def digitValue (b : UInt8) : Option Nat := if 48 ≤ b && b ≤ 57 then some (b.toNat - 48) else none

/-- Value of a string of digits. -/
def digitsValue : Bytes → Nat → Option Nat
  | [], acc => some acc
  | b :: rest, acc => (digitValue b).bind fun d => digitsValue rest (acc * 10 + d)

/-- `strconv.ParseUint(s, 10, bits)` (Go standard library). -/
def parseUint (s : Bytes) (bits : Nat) : Outcome Nat :=
  if s = [] then .err .other
  else
    match digitsValue s 0 with
    | some v => if v < 2 ^ bits then .ok v else .err .other
    | none => .err .other

/-- `strconv.ParseInt(s, 10, 8)` (Go standard library) of a string without a `+` sign. -/
def parseInt8 (s : Bytes) : Outcome Int :=
  match s with
  | 45 :: rest =>
      if rest = [] then .err .other
      else
        match digitsValue rest 0 with
        | some v => if v ≤ 128 then .ok (-v) else .err .other
        | none => .err .other
  | _ =>
      if s = [] then .err .other
      else
        match digitsValue s 0 with
        | some v => if v ≤ 127 then .ok v else .err .other
        | none => .err .other

end Midiasm
