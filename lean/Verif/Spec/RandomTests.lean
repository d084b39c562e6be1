import Verif.Model.RandomTests
import Verif.Spec.FakeHits
import Verif.Spec.DbscanGroups

/-!
# Specification vocabulary for the unit tests with random hits
-/

namespace Verif.Spec

open Verif

/-- The distributions of one hit whose place is drawn from 0 to `w`.  Draws within `2^-45` of the upper end are left out: added
to 150 they may round up to the next pixel. -/
structure DrawnTest (w : Nat) (d : TestDraw) : Prop where
  x : Drawn 0 (w - 1 / 2 ^ 45) d.x
  y : Drawn 0 (w - 1 / 2 ^ 45) d.y
  time : Drawn (-1) 1 d.time
  hit : DrawnHit d.hit

/-- One of the hits has a time over threshold of at least one. -/
def SomeCharge (ds : List TestDraw) : Prop := ∃ d ∈ ds, ∃ q, d.hit.tot = .fin q ∧ 1 ≤ q

/-- No gap of more than `gap` between the numbers: from every number but the greatest the next is at most `gap` away. -/
def NoGap (gap : Int) (l : List Int) : Prop := ∀ a ∈ l, (∀ b ∈ l, b ≤ a) ∨ ∃ b ∈ l, a < b ∧ b ≤ a + gap

end Verif.Spec
