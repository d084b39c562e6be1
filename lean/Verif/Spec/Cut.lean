import Verif.Spec.Stream

/-!
# Specification of what is left of a stream that is read in pieces

A piece that ends inside a chunk keeps the header and the packets before the cut; the packets after the cut stand at the
beginning of the next piece without a header.
-/

namespace Verif.Spec

open Verif

/-- The chunks left when the stream is cut every `n` words and only the packets in the same piece as their header count.
`o` is the number of words before the first chunk. -/
def cutChunks (n : Nat) : Nat → List Chunk → List Chunk
  | _, [] => []
  | o, k :: ks => ⟨k.header, k.packets.take (n - o % n - 1)⟩ :: cutChunks n (o + 1 + k.packets.length) ks

/-- Number of packets of the stream that are cut off. -/
def cutOff (n : Nat) : Nat → List Chunk → Nat
  | _, [] => 0
  | o, k :: ks => (k.packets.length - (n - o % n - 1)) + cutOff n (o + 1 + k.packets.length) ks

end Verif.Spec
