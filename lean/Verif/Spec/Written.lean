import Verif.Spec.Assembled
import Verif.Spec.Transpose
import Verif.Spec.Decoded

/-!
The bytes that are written for the events of a file, given by their fields.
-/

namespace Spec
open Midiasm

/-- A number in base 128, all digits but the last marked; of five digits the first is not marked. -/
def quantityBytes (n : Nat) : List UInt8 :=
  if n < 2 ^ 7 then [UInt8.ofNat n]
  else if n < 2 ^ 14 then [UInt8.ofNat (128 + n / 2 ^ 7), UInt8.ofNat (n % 128)]
  else if n < 2 ^ 21 then [UInt8.ofNat (128 + n / 2 ^ 14), UInt8.ofNat (128 + n / 2 ^ 7 % 128), UInt8.ofNat (n % 128)]
  else if n < 2 ^ 28 then
    [UInt8.ofNat (128 + n / 2 ^ 21), UInt8.ofNat (128 + n / 2 ^ 14 % 128), UInt8.ofNat (128 + n / 2 ^ 7 % 128), UInt8.ofNat (n % 128)]
  else [UInt8.ofNat (n / 2 ^ 28), UInt8.ofNat (128 + n / 2 ^ 21 % 128), UInt8.ofNat (128 + n / 2 ^ 14 % 128), UInt8.ofNat (128 + n / 2 ^ 7 % 128),
    UInt8.ofNat (n % 128)]

/-- Data after their length. -/
def sized (data : List UInt8) : List UInt8 := quantityBytes (data.length % 2 ^ 32) ++ data

/-- The power of two that a denominator is. -/
def denominatorPower (d : Nat) : Nat := ((List.range 8).find? fun e => d ≤ 2 ^ e).getD 0

/-- The code of a frame rate. -/
def rateCode (r : Nat) : Nat := if r = 24 then 0 else if r = 25 then 1 else if r = 29 then 2 else 3

/-- The bytes of an event after the delta time. -/
def contentBytes : Content → List UInt8
  | .sequenceNumber n => metaBytes 0x00 (be16 n)
  | .text t s => if t = 3 then 0xff :: 3 :: sized s else metaBytes (UInt8.ofNat t) s
  | .channelPrefix ch => metaBytes 0x20 [UInt8.ofNat ch]
  | .port p => metaBytes 0x21 [UInt8.ofNat p]
  | .endOfTrack => metaBytes 0x2f []
  | .tempo t => metaBytes 0x51 [UInt8.ofNat (t / 65536 % 256), UInt8.ofNat (t / 256 % 256), UInt8.ofNat (t % 256)]
  | .smpteOffset h m s r f ff =>
    metaBytes 0x54 [UInt8.ofNat (rateCode r * 32 + h), UInt8.ofNat m, UInt8.ofNat s, UInt8.ofNat f, UInt8.ofNat ff]
  | .timeSignature n d c t => metaBytes 0x58 [UInt8.ofNat n, UInt8.ofNat (denominatorPower d), UInt8.ofNat c, UInt8.ofNat t]
  | .keySignature a k => metaBytes 0x59 [UInt8.ofNat (a % 256).toNat, UInt8.ofNat k]
  | .sequencerSpecific id data => metaBytes 0x7f (id ++ data)
  | .noteOff ch k v => [UInt8.ofNat (0x80 + ch), UInt8.ofNat k, UInt8.ofNat v]
  | .noteOn ch k v => [UInt8.ofNat (0x90 + ch), UInt8.ofNat k, UInt8.ofNat v]
  | .polyPressure ch _ p => [UInt8.ofNat (0xa0 + ch), UInt8.ofNat p]
  | .controller ch id v => [UInt8.ofNat (0xb0 + ch), UInt8.ofNat id, UInt8.ofNat v]
  | .program ch p => [UInt8.ofNat (0xc0 + ch), UInt8.ofNat p]
  | .channelPressure ch p => [UInt8.ofNat (0xd0 + ch), UInt8.ofNat p]
  | .pitchBend ch b => UInt8.ofNat (0xe0 + ch) :: be16 b
  | .sysex id data t => 0xf0 :: sized (id ++ data ++ if t then [0xf7] else [])
  | .continuation data => 0xf7 :: sized data
  | .escape data => 0xf7 :: sized data

/-- Running status: a note on or off is written without its status if the bytes written for the event before begin with that status. -/
def thinnedBytes : Option UInt8 → List (List UInt8) → List (List UInt8)
  | _, [] => []
  | _, [] :: es => [] :: thinnedBytes none es
  | p, (s :: t) :: es =>
    if p = some s ∧ 0x80 ≤ s.toNat ∧ s.toNat < 0xa0 then t :: thinnedBytes t.head? es else (s :: t) :: thinnedBytes (some s) es

/-- The chunk of a track: the delta times and fields of its events. -/
def writtenTrack (es : List (Nat × Content)) : List UInt8 :=
  let content := (List.zipWith (fun d w => d ++ w) (es.map fun e => quantityBytes e.1) (thinnedBytes none (es.map fun e => contentBytes e.2))).flatten
  str "MTrk" ++ be32 (content.length % 2 ^ 32) ++ content

/-- A file. -/
def writtenFile (h : Header) (ts : List (List (Nat × Content))) : List UInt8 := h.chunk.bytes ++ (ts.map writtenTrack).flatten

/-- The events of a file, changed. -/
def contentsOf (f : Content → Content) (ts : List TrackEntry) : List (List (Nat × Content)) :=
  ts.map fun t => t.events.map fun e => (e.delta, f e.content)

end Spec
