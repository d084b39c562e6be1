import Verif.Spec.H5
import Verif.Model.Abs

/-!
# Specification vocabulary: the minimum cluster size
-/

namespace Verif.Spec

open Verif

/-- The neutrons with at least `m` hits, in the same order. -/
def atLeast (m : Nat) (ns : List Neutron) : List Neutron := ns.filter fun n => m ≤ n.nHits

/-- The file holds exactly these neutrons, in this order. -/
def HoldsNeutrons (f : H5) (ns : List Neutron) : Prop :=
  (ns = [] → f = []) ∧ (ns ≠ [] → ∀ v ∈ neutronAttrs, column f "neutrons".toList v.1 = some (ns.map v.2))

/-- The same settings of the clustering with another minimum size. -/
def withMin (m : Nat) (p : AbsParams) : AbsParams := ⟨p.feature, m, p.range⟩

end Verif.Spec
