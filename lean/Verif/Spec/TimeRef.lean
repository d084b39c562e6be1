import Verif.Spec.AnyFile
import Verif.Spec.Legacy

/-!
# Specification vocabulary: the two time references
-/

namespace Verif.Spec

open Verif

/-- A trigger whose 32-bit counter reads zero. -/
def ZeroTrigger (w : U64) : Prop := IsTriggerPacket w ∧ field w 12 32 = 0

instance (w : U64) : Decidable (ZeroTrigger w) := by unfold ZeroTrigger; infer_instance

/-- The hit packets that come after a trigger but before the global time is known. -/
def unclocked : Times → List (Int × U64) → List (Int × U64)
  | _, [] => []
  | t, p :: ps => (if IsHitPacket p.2 ∧ t.tdc ≠ 0 ∧ t.gdc = 0 then [p] else []) ++ unclocked (nextG p.2 t) ps

/-- The packets of all chunks of a file read in pieces of `n` bytes, each with the chip of its header. -/
def piecePackets (n : Nat) (file : Bytes) : List (Int × U64) :=
  (fileChunks n file).flatMap fun k => k.packets.map (headerChipId k.header, ·)

end Verif.Spec
