import Verif.Model.Text

/-!
The functions of the packages `path` and `filepath` (Go standard library, for a system with `/` as separator) used by
commands/disassemble.go:111-150 and commands/assemble.go:58.
-/

namespace Midiasm

/-- The elements of a path: `strings.Split(p, "/")`. -/
def splitPath : Bytes → List Bytes
  | [] => [[]]
  | c :: rest =>
      if c = 47 then [] :: splitPath rest
      else match splitPath rest with
        | [] => [[c]]
        | e :: es => (c :: e) :: es

/-- One element of `path.Clean` (Go standard library): `out` is the result so far, last element first. -/
def cleanStep (rooted : Bool) (out : List Bytes) (e : Bytes) : List Bytes :=
  if e = [] ∨ e = [46] then out
  else if e = [46, 46] then
    match out with
    | last :: rest => if last = [46, 46] then e :: out else rest
    | [] => if rooted then [] else [e]
  else e :: out

/-- `path.Clean` (Go standard library), element by element instead of with the index arithmetic of the original. -/
def cleanPath (p : Bytes) : Bytes :=
  let rooted := p.head? = some 47
  let out := List.intercalate [47] ((splitPath p).foldl (cleanStep rooted) []).reverse
  if rooted then 47 :: out else if out = [] then [46] else out

/-- `path.Dir` (Go standard library). -/
def dirPath (p : Bytes) : Bytes := cleanPath (p.reverse.dropWhile (· != 47)).reverse

/-- `path.Base` (Go standard library). -/
def basePath (p : Bytes) : Bytes :=
  if p = [] then [46]
  else
    let last := ((p.reverse.dropWhile (· = 47)).takeWhile (· != 47)).reverse
    if last = [] then [47] else last

/-- `path.Ext` and `filepath.Ext` (Go standard library): from the last dot of the last element. -/
def extPath (p : Bytes) : Bytes :=
  let last := p.reverse.takeWhile (· != 47)
  if last.dropWhile (· != 46) = [] then [] else 46 :: (last.takeWhile (· != 46)).reverse

/-- `path.Join` of two elements (Go standard library). -/
def joinPath (a b : Bytes) : Bytes :=
  if a = [] ∧ b = [] then []
  else if a = [] then cleanPath b
  else if b = [] then cleanPath a
  else cleanPath (a ++ [47] ++ b)

/-- `strings.TrimSuffix` (Go standard library). -/
def trimSuffix (s suffix : Bytes) : Bytes := if suffix.isSuffixOf s then s.take (s.length - suffix.length) else s

end Midiasm
