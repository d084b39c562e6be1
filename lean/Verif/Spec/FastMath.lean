import Verif.Model.Abs

/-! # When the form of a computation does not matter (C116) -/

namespace Verif.Spec

open Verif

/-- The feature size is a number that is not just below an integer: at least `2^-32` is missing to the next one. -/
def ClearFeature (p : AbsParams) (f : ℚ) : Prop := p.feature = .fin f ∧ |f| ≤ 2 ^ 20 ∧ ∀ n : ℤ, f < n → f + 1 / 2 ^ 32 ≤ n

/-- Slots with small coordinates. -/
structure SmallSlot (s : Slot) : Prop where
  x : |s.xmin| ≤ 2 ^ 20 ∧ |s.xmax| ≤ 2 ^ 20
  y : |s.ymin| ≤ 2 ^ 20 ∧ |s.ymax| ≤ 2 ^ 20

/-- Hits with the values of `int` coordinates of a detector and times below `2^48` ticks (81 days). -/
structure SmallHit (h : Hit) : Prop where
  x : |h.x| ≤ 2 ^ 20
  y : |h.y| ≤ 2 ^ 20
  time : h.spidertime.toNat < 2 ^ 48

/-- A time is clear of an edge. -/
def ClearOf (s e : ℚ) : Prop := (e < s ∧ e * (1 + 1 / 2 ^ 49) ≤ s) ∨ s * (1 + 1 / 2 ^ 49) ≤ e

end Verif.Spec
