import Verif.Model.H5

/-!
# Specification vocabulary for HDF5 output

Uses from the model only the types and `List.lookup` on files.
-/

namespace Verif.Spec

open Verif

/-- Content of a dataset. -/
def column (f : H5) (group name : Name) : Option (List F64) :=
  (f.lookup group).bind fun g => (g.lookup name).map Dataset.data

/-- Number of rows of a dataset, 0 when it is absent. -/
def columnRows (f : H5) (group name : Name) : Nat := ((column f group name).map List.length).getD 0

/-- What the datasets of a group of hits mean, in nanoseconds. -/
def hitAttrs : List (Name × (Hit → ℚ)) :=
  [(['x'], fun h => h.x), (['y'], fun h => h.y), (['t', 'o', 't', '_', 'n', 's'], fun h => 25 * h.tot),
   (['t', 'o', 'a', '_', 'n', 's'], fun h => 25 * h.toa), (['f', 't', 'o', 'a', '_', 'n', 's'], fun h => 25 / 16 * h.ftoa),
   (['t', 'o', 'f', '_', 'n', 's'], fun h => 25 * ((h.tof.map BitVec.toNat).getD 0 : Nat)),
   (['s', 'p', 'i', 'd', 'e', 'r', 't', 'i', 'm', 'e', '_', 'n', 's'], fun h => 25 * h.spidertime.toNat)]

/-- A hit with a time of flight and members in the ranges the hardware gives. -/
def RegularHit (h : Hit) : Prop :=
  |h.x| < 2 ^ 31 ∧ |h.y| < 2 ^ 31 ∧ |h.tot| < 2 ^ 31 ∧ |h.toa| < 2 ^ 31 ∧ |h.ftoa| < 2 ^ 31 ∧ h.tof ≠ none ∧
    h.spidertime.toNat < 2 ^ 48

/-- What the datasets of a group of neutrons mean. -/
def neutronAttrs : List (Name × (Neutron → F64)) :=
  [(['x'], fun n => n.x), (['y'], fun n => n.y), (['t', 'o', 'f', '_', 'n', 's'], fun n => F64.mul n.tof (.fin 25)),
   (['t', 'o', 't', '_', 'n', 's'], fun n => F64.mul n.tot (.fin 25)), (['n', 'H', 'i', 't', 's'], fun n => .fin n.nHits)]

/-- All datasets named have the same number of rows. -/
def Aligned (f : H5) (group : Name) (names : List Name) : Prop :=
  ∀ a ∈ names, ∀ b ∈ names, columnRows f group a = columnRows f group b

end Verif.Spec
