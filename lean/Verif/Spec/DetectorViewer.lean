import Verif.Spec.Detector
import Verif.Spec.Peak
import Verif.Spec.Interleaved

/-!
# Vocabulary for what the viewer shows of a detector (C104)
-/

namespace Verif.Spec

open Verif

/-- The hit with the time since the last multiple of 666667 ticks (16.67 ms) instead of the time since the trigger. -/
def inPeriod (h : Hit) : Hit := { h with tof := some (BitVec.ofNat 32 (h.spidertime.toNat % 666667)) }

/-- Column at which a neutron with hits `M` belongs in the turned picture. -/
def viewX (cs sn : ℚ) (M : List Hit) : ℚ := totMean Hit.x M * cs - totMean Hit.y M * sn

/-- Row at which it belongs. -/
def viewY (cs sn : ℚ) (M : List Hit) : ℚ := totMean Hit.x M * sn + totMean Hit.y M * cs

/-- The neutron belongs in column `i` and row `j`, at least `δ` away from the neighbours; for negative `δ`, at most `-δ` outside. -/
def WithinCell (cs sn δ : ℚ) (i j : Nat) (M : List Hit) : Prop :=
  (i : ℚ) + δ ≤ viewX cs sn M ∧ viewX cs sn M < i + 1 - δ ∧ (j : ℚ) + δ ≤ viewY cs sn M ∧ viewY cs sn M < j + 1 - δ

instance (cs sn δ : ℚ) (i j : Nat) : DecidablePred (WithinCell cs sn δ i j) := fun M => by unfold WithinCell; infer_instance

/-- Number of neutrons that belong there. -/
def neutronsIn (cs sn δ : ℚ) (i j : Nat) (Ms : List (List Hit)) : Nat := Ms.countP fun M => decide (WithinCell cs sn δ i j M)

end Verif.Spec
