/-!
Go runtime conventions shared by every model file: results of a call, byte strings, big-endian
integers and slicing.  Nothing here is code of /repo; each definition states which Go construct it
stands for.
-/

namespace Midiasm

/-- Errors a Go function can return.  `eof` is `io.EOF`, `unexpectedEof` is `io.ErrUnexpectedEOF`
(both are compared against in /repo); every other error is `other`.  Simplification: the message text
is not modelled. -/
inductive Err where
  | eof
  | unexpectedEof
  | other
  deriving DecidableEq, Repr

/-- Result of running a Go function: a value, a returned `error`, a runtime panic, or a loop that
never ends. -/
inductive Outcome (α : Type) where
  | ok (a : α)
  | err (e : Err)
  | panic
  | diverge
  deriving DecidableEq, Repr

namespace Outcome

@[inline] def bind {α β : Type} : Outcome α → (α → Outcome β) → Outcome β
  | ok a, f => f a
  | err e, _ => err e
  | panic, _ => panic
  | diverge, _ => diverge

instance : Monad Outcome where
  pure := ok
  bind := bind

@[simp] theorem bind_ok {α β} (a : α) (f : α → Outcome β) : (ok a >>= f) = f a := rfl
@[simp] theorem bind_err {α β} (e : Err) (f : α → Outcome β) : ((err e : Outcome α) >>= f) = err e := rfl
@[simp] theorem bind_panic {α β} (f : α → Outcome β) : ((panic : Outcome α) >>= f) = panic := rfl
@[simp] theorem bind_diverge {α β} (f : α → Outcome β) : ((diverge : Outcome α) >>= f) = diverge := rfl
@[simp] theorem pure_eq {α} (a : α) : (pure a : Outcome α) = ok a := rfl

/-- The call returned normally (with a value or an error). -/
def Returns {α} : Outcome α → Prop
  | ok _ => True
  | err _ => True
  | panic => False
  | diverge => False

end Outcome

/-- A Go byte slice or string: its bytes. -/
abbrev Bytes := List UInt8

/-- The bytes of a Go string literal (UTF-8). -/
def str (s : String) : Bytes := s.toList.flatMap String.utf8EncodeChar

/-- `binary.BigEndian.Uint16(b)`: panics on fewer than two bytes. -/
def beUint16 : Bytes → Outcome UInt16
  | a :: b :: _ => .ok (a.toUInt16 <<< 8 ||| b.toUInt16)
  | _ => .panic

/-- `binary.BigEndian.Uint32(b)`: panics on fewer than four bytes. -/
def beUint32 : Bytes → Outcome UInt32
  | a :: b :: c :: d :: _ =>
      .ok (a.toUInt32 <<< 24 ||| b.toUInt32 <<< 16 ||| c.toUInt32 <<< 8 ||| d.toUInt32)
  | _ => .panic

/-- `binary.Write(w, binary.BigEndian, uint16)` and `binary.BigEndian.AppendUint16`. -/
def putUint16 (v : UInt16) : Bytes := [(v >>> 8).toUInt8, v.toUInt8]

/-- `binary.Write(w, binary.BigEndian, uint32)`. -/
def putUint32 (v : UInt32) : Bytes :=
  [(v >>> 24).toUInt8, (v >>> 16).toUInt8, (v >>> 8).toUInt8, v.toUInt8]

/-- `b[lo:hi]` for a slice whose capacity equals its length: panics out of range. -/
def slice (b : Bytes) (lo hi : Nat) : Outcome Bytes :=
  if lo ≤ hi ∧ hi ≤ b.length then .ok ((b.take hi).drop lo) else .panic

/-- `b[:n]` for a slice with further capacity: Go bounds the high index by the capacity, not by the
length, so bytes of the underlying array beyond the length become visible.  `spare` is the content of
the underlying array between length and capacity. -/
def sliceTo (b spare : Bytes) (n : Nat) : Outcome Bytes :=
  if n ≤ b.length + spare.length then .ok ((b ++ spare).take n) else .panic

/-- `b[i]`: panics out of range. -/
def index (b : Bytes) (i : Nat) : Outcome UInt8 :=
  match b[i]? with
  | some v => .ok v
  | none => .panic

/-- The bytes read so far: the prefix of `inp` that is no longer in `rest`. -/
def consumed (inp rest : Bytes) : Bytes := inp.take (inp.length - rest.length)

/-- The value of an `int` sum in Go on a 64-bit platform: two's complement wrap-around. -/
def wrap64 (x : Int) : Int := x.bmod (2 ^ 64)

end Midiasm
