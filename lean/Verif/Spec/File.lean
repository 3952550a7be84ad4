import Verif.Spec.Wire

/-!
The container format, specified independently of the code: chunks with a four byte tag and a big-endian length, and the
header fields.
-/

namespace Spec

/-- Big-endian 16 bits. -/
def be16 (n : Nat) : List UInt8 := [UInt8.ofNat (n / 256 % 256), UInt8.ofNat (n % 256)]

/-- Big-endian 32 bits. -/
def be32 (n : Nat) : List UInt8 :=
  [UInt8.ofNat (n / 16777216 % 256), UInt8.ofNat (n / 65536 % 256), UInt8.ofNat (n / 256 % 256), UInt8.ofNat (n % 256)]

/-- A chunk of a file. -/
structure Chunk where
  tag : List UInt8
  body : List UInt8

/-- The bytes of a chunk. -/
def Chunk.bytes (c : Chunk) : List UInt8 := c.tag ++ be32 c.body.length ++ c.body

/-- Four byte tag and a length that fits the length field. -/
def Chunk.Wf (c : Chunk) : Prop := c.tag.length = 4 ∧ c.body.length < 2 ^ 32

/-- The tags. -/
def tagMThd : List UInt8 := [0x4d, 0x54, 0x68, 0x64]
def tagMTrk : List UInt8 := [0x4d, 0x54, 0x72, 0x6b]

/-- The bytes of a file. -/
def fileBytes (cs : List Chunk) : List UInt8 := (cs.map Chunk.bytes).flatten

/-- SMPTE frame rates of a division's high byte: frames per second and drop frame flag. -/
def frameRate (hi : Nat) : Option (Nat × Bool) :=
  if hi = 0xe8 then some (24, false)
  else if hi = 0xe7 then some (25, false)
  else if hi = 0xe3 then some (29, true)
  else if hi = 0xe2 then some (30, false)
  else none

/-- Header field values. -/
structure Header where
  format : Nat
  tracks : Nat
  division : Nat

/-- The documented header values. -/
def Header.Valid (h : Header) : Prop :=
  h.format ≤ 2 ∧ h.tracks < 65536 ∧ h.division < 65536 ∧ (h.division < 32768 ∨ (frameRate (h.division / 256)).isSome = true)

/-- A header chunk. -/
def Header.chunk (h : Header) : Chunk := ⟨tagMThd, be16 h.format ++ be16 h.tracks ++ be16 h.division⟩

/-- Inputs that do not start with a complete chunk. -/
inductive BadTail : List UInt8 → Prop
  /-- one to seven bytes -/
  | short {b : List UInt8} : b ≠ [] → b.length < 8 → BadTail b
  /-- a chunk header followed by some but not all of its body -/
  | partialBody {tag body : List UInt8} {n : Nat} : tag.length = 4 → n < 2 ^ 32 → body ≠ [] → body.length < n →
      BadTail (tag ++ be32 n ++ body)

/-- Inputs at which the chunk loop stops without an error. -/
inductive EndTail : List UInt8 → Prop
  | nil : EndTail []
  /-- a chunk header whose body is missing altogether -/
  | headerOnly {tag : List UInt8} {n : Nat} : tag.length = 4 → n < 2 ^ 32 → 0 < n → EndTail (tag ++ be32 n)

end Spec
