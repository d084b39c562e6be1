import Verif.Spec.ScanAny
import Verif.Spec.Arrival

/-!
# Specification vocabulary: damaged files
-/

namespace Verif.Spec

open Verif

/-- A packet that changes the times: a trigger or a global time. -/
def IsTimePacket (w : U64) : Prop := IsTriggerPacket w ∨ IsGlobalPacket w

instance (w : U64) : Decidable (IsTimePacket w) := by unfold IsTimePacket; infer_instance

/-- No header of the file, read in pieces of `n` bytes, announces packets that reach another header of its piece. -/
def Orderly (n : Nat) (file : Bytes) : Prop := ∀ p ∈ pieces n file, NoOverrun (wordsOf p)

/-- The file with the word `w` after the bytes `pre`. -/
def withWord (pre : Bytes) (w : U64) (post : Bytes) : Bytes := pre ++ (bytesOf w ++ post)

end Verif.Spec
