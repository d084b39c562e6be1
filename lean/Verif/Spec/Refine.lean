import Verif.Spec.Image
import Verif.Spec.Ieee
import Mathlib.Order.Interval.Finset.Nat

/-!
# Specification vocabulary: finer and coarser images
-/

namespace Verif.Spec

open Verif

/-- The pixels of images with an odd factor `m` more rows and columns that belong to row or column `k`: the `m` ones around `m k`,
those below 0 left out. -/
def block (m k : Nat) : Finset Nat := Finset.Icc (m * k - (m - 1) / 2) (m * k + (m - 1) / 2)

/-- The value of a pixel, 0 outside. -/
def pixelOr0 (im : List (List (List U32))) (i y x : Nat) : Nat := (pixel im i y x).getD 0

/-- The coordinates are finite doubles and not negative. -/
def Proper (e : Entry) : Prop := (∃ a, e.x = .fin a ∧ 0 ≤ a ∧ IsBinary64 a) ∧ ∃ a, e.y = .fin a ∧ 0 ≤ a ∧ IsBinary64 a

end Verif.Spec
