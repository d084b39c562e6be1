import Verif.Spec.Interleaved

/-!
# Specification of what the program sees in an arbitrary file

Nothing is assumed about the bytes: the file need not come from a detector, sizes in headers may be wrong, packets may look like
headers, and the file and the pieces need not end at a packet boundary.
-/

namespace Verif.Spec

open Verif

/-- The pieces of `n` bytes of a file; the last one may be shorter. -/
def pieces (n : Nat) (file : Bytes) : List Bytes :=
  (List.range ((file.length + n - 1) / n)).map fun i => (file.drop (n * i)).take n

/-- Every word that looks like a header announces a chunk: as many of the following words as it says, as far as there are any. -/
def announced : List U64 → List Chunk
  | [] => []
  | w :: ws => if StartsTPX w then ⟨w, ws.take (field w 48 16 / 8)⟩ :: announced ws else announced ws

/-- All chunks announced in a file that is read in pieces of `n` bytes. -/
def fileChunks (n : Nat) (file : Bytes) : List Chunk := (pieces n file).flatMap fun p => announced (wordsOf p)

/-- A piece that ends inside a word, with a header that announces more packets than there are complete words after it. -/
def Overrun (buf : Bytes) : Prop :=
  buf.length % 8 ≠ 0 ∧
    ∃ pre w post, wordsOf buf = pre ++ w :: post ∧ StartsTPX w ∧ post.length < field w 48 16 / 8

/-- A hit packet the detector's clock cannot date from the last global time `g`: either its clock reads 40000000 ticks (1 s) or
more after `g` and there is no earlier round of the 30-bit clock it could belong to, or it belongs to the round after the last one
that 48 bits can count. -/
def Undatable (g : Nat) (w : U64) : Prop :=
  (g + 40000000 ≤ clock30 w ∧ g < 2 ^ 30) ∨ (2 ^ 48 - 2 ^ 30 ≤ g ∧ clock30 w < g % 2 ^ 30)

/-- A hit with an impossible arrival time (584 years after the start or more). -/
def Misdated (h : Hit) : Prop := 737869762948382016 < h.spidertime.toNat

/-- Files, read in pieces of `n` bytes, with a piece that overruns, or with a hit that is misdated or has no time of flight. -/
def Unsound (m : Mode) (n : Nat) (file : Bytes) : Prop :=
  (∃ p ∈ pieces n file, Overrun p) ∨
    ∃ hs ∈ chunkHits m ⟨0, 0, 0⟩ (fileChunks n file), ∃ h ∈ hs, Misdated h ∨ h.tof = none

end Verif.Spec
