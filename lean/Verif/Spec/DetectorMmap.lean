import Verif.Spec.Detector

/-!
# What the memory-mapped program should find of a detector
-/

namespace Verif.Spec

open Verif

/-- The true hits of every readout: dated by all that came before (`carried`) or only by the clocks and triggers of the same readout. -/
def datedReadouts (carried : Bool) (rs : List Readout) : List (List Hit) :=
  if carried then trueReadouts true ⟨0, 0⟩ rs else rs.map fun r => trueHits true r.chip ⟨0, 0⟩ r.signals

/-- The conditions under which the clock tells the true times, for the whole file or for every readout alone. -/
def DatedTimely (carried : Bool) (rs : List Readout) : Prop :=
  if carried then AllTimelyG ⟨0, 0⟩ (rs.flatMap Readout.signals) else ∀ r ∈ rs, AllTimelyG ⟨0, 0⟩ r.signals

/-- The number of pixels that fired. -/
def pixelCount (sigs : List Signal) : Nat := sigs.countP fun
  | .pixel .. => true
  | .trigger _ => false
  | .clock _ => false

end Verif.Spec
