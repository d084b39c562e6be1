/-!
# Outcomes, bytes and packet words

Shared vocabulary of the model: C++ outcomes (including undefined behaviour), byte buffers, and the
64-bit packet words read from them.
-/

namespace Verif

/-- Kinds of undefined behaviour the model distinguishes. -/
inductive UB where
  /-- read outside a buffer -/
  | oobRead
  /-- write outside a buffer -/
  | oobWrite
  /-- use of an uninitialised object -/
  | indeterminate
  /-- floating-point value converted to an integer type that cannot hold it -/
  | floatToInt
  /-- signed integer overflow -/
  | signedOverflow
  deriving DecidableEq, Repr

/-- Outcome of running a piece of C++. -/
inductive Res (α : Type) where
  | ok (a : α)
  /-- a C++ exception -/
  | throws (msg : String)
  | ub (u : UB)
  deriving DecidableEq, Repr

namespace Res
def bind {α β : Type} : Res α → (α → Res β) → Res β
  | .ok a, f => f a
  | .throws m, _ => .throws m
  | .ub u, _ => .ub u

instance : Monad Res where
  pure := Res.ok
  bind := Res.bind
end Res

abbrev Byte := BitVec 8
abbrev Bytes := List Byte
abbrev U64 := BitVec 64
abbrev U32 := BitVec 32

/-- Little-endian value of a byte list. -/
def leNat : Bytes → Nat
  | [] => 0
  | b :: bs => b.toNat + 256 * leNat bs

/-- The eight bytes at `off` as one little-endian word (`*(unsigned long *)(&char_array[0])`);
`none` if any of them lies outside the buffer. -/
def wordAt (buf : Bytes) (off : Nat) : Option U64 :=
  if off + 8 ≤ buf.length then some (BitVec.ofNat 64 (leNat ((buf.drop off).take 8))) else none

/-- `char_array[k]` of a packet word. -/
def byteOf (w : U64) (k : Nat) : Byte := w.extractLsb' (8 * k) 8

/-- `*(unsigned short *)(&packet[k])`. -/
def u16Of (w : U64) (k : Nat) : BitVec 16 := w.extractLsb' (8 * k) 16

/-- `*(unsigned int *)(&packet[k])`. -/
def u32Of (w : U64) (k : Nat) : BitVec 32 := w.extractLsb' (8 * k) 32

/-- The complete 8-byte-aligned words of a buffer, in order (a trailing part of fewer than 8 bytes is
not a word). -/
def wordsOf (buf : Bytes) : List U64 :=
  (List.range (buf.length / 8)).map fun k => BitVec.ofNat 64 (leNat ((buf.drop (8 * k)).take 8))

/-- Bytes of a word, little endian. -/
def bytesOf (w : U64) : Bytes := (List.range 8).map (byteOf w)

end Verif
