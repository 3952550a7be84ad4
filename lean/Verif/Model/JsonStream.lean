import Verif.Model.Streams
import Verif.Model.JsonText

/-!
The JSON assembler on an arbitrary `io.Reader`: `json.Decoder` (Go standard library, encoding/json/stream.go) with its buffer, as used by
`JSONAssembler.Assemble` (ops/assemble/json.go:40-43).  `assembleJsonText` of Model/JsonText works on the whole text.
-/

namespace Midiasm

/-- `Decoder.readValue` stops at the end of an object or of an array; any other value ends with the byte after it, and is refused by the
assembler anyway. -/
def endsThere (buf : Bytes) : Bool :=
  match readJson buf with
  | some (.obj _) => true
  | some (.arr _) => true
  | _ => false

/-- `Decoder.refill`: the size of the buffer when there is room for at least 512 bytes more. -/
def roomy (cap used : Nat) : Nat := if cap - used < 512 then 2 * cap + 512 else cap

/-- `Decoder.readValue`: what is in the buffer when the value ends, or when the reader is at its end.  An error is looked at only after the
bytes that came with it; `io.EOF` itself then ends the value.  `fuel` bounds the number of reads.  Simplified: the scanner of the Go library
stops at the first byte that no JSON text continues with; here this is noticed when the reader is at its end or fails. -/
def readValueFrom {σ : Type} (R : Reader σ) : Nat → σ → Nat → Bytes → Outcome Bytes
  | 0, _, _, _ => .diverge
  | fuel + 1, s, cap, buf =>
    match R.read s (roomy cap buf.length - buf.length) with
    | (b, e, s') =>
      if endsThere (buf ++ b) then .ok (buf ++ b)
      else
        match e with
        | none => readValueFrom R fuel s' (roomy cap buf.length) (buf ++ b)
        | some e => if e = .eof then .ok (buf ++ b) else .err .other

/-- `JSONAssembler.Assemble` (ops/assemble/json.go:34-75) on any reader; `.diverge` when `fuel` is not enough. -/
def assembleJsonFrom {σ : Type} (mc : MiddleC) (R : Reader σ) (fuel : Nat) (s : σ) : Outcome Bytes := do
  let buf ← readValueFrom R fuel s 0 []
  assembleJsonText mc buf

end Midiasm
