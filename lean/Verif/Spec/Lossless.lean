import Verif.Spec.AnyFile

/-! # The packets behind a file of hits -/

namespace Verif.Spec

open Verif

/-- The packets of chunks, each with the chip that its header names. -/
def chipPackets (cs : List Chunk) : List (Int × U64) := cs.flatMap fun k => k.packets.map fun w => (headerChipId k.header, w)

/-- The hit packets that come when the times needed to date them are known. -/
def datedPackets (m : Mode) : Times → List (Int × U64) → List (Int × U64)
  | _, [] => []
  | t, p :: ps =>
    (if IsHitPacket p.2 ∧ t.tdc ≠ 0 ∧ (m = .gdc → t.gdc ≠ 0) then [p] else []) ++
      datedPackets m (match m with | .gdc => nextG p.2 t | .tdc => nextT p.2 t) ps

/-- Every header names one of the four chips. -/
def FourChips (cs : List Chunk) : Prop := ∀ k ∈ cs, 0 ≤ headerChipId k.header ∧ headerChipId k.header ≤ 3

end Verif.Spec
