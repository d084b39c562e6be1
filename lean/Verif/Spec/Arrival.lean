import Verif.Spec.AnyFile
import Verif.Spec.Image
import Verif.Spec.Reducer

/-!
# Specification vocabulary: files that date their own hits
-/

namespace Verif.Spec

open Verif

/-- A packet with the lower, or the upper half of the global time. -/
def IsLowerHalf (w : U64) : Prop := IsGlobalPacket w ∧ field w 56 4 = 4
def IsUpperHalf (w : U64) : Prop := IsGlobalPacket w ∧ field w 56 4 = 5

instance (w : U64) : Decidable (IsLowerHalf w) := by unfold IsLowerHalf; infer_instance
instance (w : U64) : Decidable (IsUpperHalf w) := by unfold IsUpperHalf; infer_instance

/-- The packets give a global time other than 0 (the lower half, later the upper half) and after it a trigger. -/
def GivesTimes (ws : List U64) : Prop :=
  ∃ a lo b hi c tr d, ws = a ++ lo :: (b ++ hi :: (c ++ tr :: d)) ∧ IsLowerHalf lo ∧ (∀ w ∈ b, ¬ IsLowerHalf w) ∧ IsUpperHalf hi ∧
    field hi 16 16 * 2 ^ 32 + field lo 16 32 ≠ 0 ∧ IsTriggerPacket tr

/-- All packets of the chunks announced in a file, in order. -/
def filePackets (file : Bytes) : List U64 := (announced (wordsOf file)).flatMap Chunk.packets

/-- Every hit packet of the file comes after a global time and a trigger of the same file. -/
def SelfDated (file : Bytes) : Prop :=
  ∀ a h b, filePackets file = a ++ h :: b → IsHitPacket h → GivesTimes a

/-- The hits of a file on its own: those of each of its chunks. -/
def hitsOfFile (file : Bytes) : List (List Hit) := chunkHits .gdc ⟨0, 0, 0⟩ (announced (wordsOf file))

/-- The files processed with success: name and content, in order. -/
def doneFiles : List RedEvent → List (Path × Bytes)
  | [] => []
  | .done n data _ :: l => (n, data) :: doneFiles l
  | .failed _ :: l => doneFiles l

/-- The entry of an event: coordinates and time of flight in nanoseconds. -/
def eventEntry (n : Neutron) : Entry := ⟨n.x, n.y, F64.mul n.tof (.fin 25)⟩

/-- Value of a pixel in an image file. -/
def filePixel (f : Option File) (y x : Nat) : Option Nat :=
  match f with
  | some (.tiff t) => (t.rows[y]?.bind fun r => r[x]?).map BitVec.toNat
  | _ => none

end Verif.Spec
