import Verif.Spec.Interleaved

/-! # What the memory-mapped program should do -/

namespace Verif.Spec

open Verif

/-- The hits of every chunk of a stream: with the times carried from chunk to chunk, or every chunk on its own. -/
def seenHits (carried : Bool) (cs : List Chunk) : List (List Hit) :=
  if carried then chunkHits .gdc ⟨0, 0, 0⟩ cs else cs.flatMap fun k => chunkHits .gdc ⟨0, 0, 0⟩ [k]

/-- The time of flight is longer than the time between two pulses. -/
def LaterThanPeriod (rate : Nat) (h : Hit) : Prop := ∃ t, h.tof = some t ∧ (10 ^ 9 : ℚ) / rate < 25 * t.toNat

end Verif.Spec
