import Verif.Model.EventJson

/-!
Manufacturer configuration (midi/lib/manufacturer.go, cmd/midiasm/main.go:47-65).
-/

namespace Midiasm

namespace Lib

/-- `strings.Trim(s, " ")`. -/
def trimSpaces (s : String) : String :=
  String.ofList (((s.toList.dropWhile (· == ' ')).reverse.dropWhile (· == ' ')).reverse)

/-- The key of an ID in the map (midi/lib/manufacturer.go:136-139). -/
def manufacturerKey (id : Bytes) : String :=
  match id with
  | [a] => hex2 a
  | [_, b, c] => hex2 b ++ hex2 c
  | _ => ""

/-- `makeManufacturer` (midi/lib/manufacturer.go:127-150). -/
def makeManufacturer (id : Bytes) (region name : String) : Outcome (String × Manufacturer) :=
  if id.length ≠ 1 ∧ id.length ≠ 3 then .err .other
  else if trimSpaces name = "" then .err .other
  else .ok (manufacturerKey id, ⟨id, trimSpaces region, trimSpaces name⟩)

/-- The loop of `LoadManufacturers` (midi/lib/manufacturer.go:112-122); the map as an association list in which the first entry with a key counts. -/
def makeManufacturers : List Manufacturer → List (String × Manufacturer) → Outcome (List (String × Manufacturer))
  | [], list => .ok list
  | m :: ms, list => do
    let e ← makeManufacturer m.id m.region m.name
    makeManufacturers ms (e :: list)

end Lib

/-- `LoadManufacturers` (midi/lib/manufacturer.go:95-125) of a file with the JSON value `j`. -/
def loadManufacturers (j : Json) : Outcome (List (String × Lib.Manufacturer)) := do
  let ms ← field (sliceJson manufacturerJson noManufacturer) "manufacturers" ⟨[], []⟩ j
  Lib.makeManufacturers ms.els []

/-- `AddManufacturers` (midi/lib/manufacturer.go:55-59): the entries replace those of the table with the same key.  The
replaced entries stay in the association list, behind those that count. -/
def addManufacturers (list table : List (String × Lib.Manufacturer)) : List (String × Lib.Manufacturer) := list ++ table

/-- The entries of the Go map that an association list stands for (midi/lib/manufacturer.go:13-34, 55-59): the first one
with each key. -/
def mapEntries : List (String × Lib.Manufacturer) → List (String × Lib.Manufacturer)
  | [] => []
  | e :: l => e :: (mapEntries l).filter (fun x => x.1 ≠ e.1)

end Midiasm
