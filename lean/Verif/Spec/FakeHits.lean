import Verif.Model.FakeHits
import Verif.Spec.Peak

/-!
# Specification vocabulary for the clustering benchmarks
-/

namespace Verif.Spec

open Verif

/-- `v` is what `uniform_real_distribution(a, b)` may return.  The upper end is included: the standard excludes it, known
implementations return it now and then. -/
def Drawn (a b : ℚ) (v : F64) : Prop := ∃ q, v = .fin q ∧ F64.ofRat q = .fin q ∧ a ≤ q ∧ q ≤ b

/-- The distributions of one hit. -/
structure DrawnHit (d : HitDraw) : Prop where
  tot : Drawn 0 100 d.tot
  toa : Drawn 0 1000 d.toa
  ftoa : Drawn 0 255 d.ftoa
  tof : Drawn 0 2000 d.tof

/-- The distributions of one cluster of ten hits. -/
structure DrawnCluster (c : ClusterDraw) : Prop where
  x : Drawn 0 2 c.x
  y : Drawn 0 2 c.y
  time : Drawn (-1) 1 c.time
  size : c.hits.length = 10
  hits : ∀ d ∈ c.hits, DrawnHit d

/-- The generated cluster number `i`: hits `10 i` to `10 i + 9`. -/
def generated (hits : List Hit) (i : Nat) : List Hit := (hits.drop (10 * i)).take 10

/-- The hits from number `lo` to number `hi - 1` that belong to the generated cluster `i`. -/
def partOf (hits : List Hit) (lo hi i : Nat) : List Hit :=
  (hits.drop (max lo (10 * i))).take (min hi (10 * i + 10) - max lo (10 * i))

/-- The generated clusters that have a hit from number `lo` to number `hi - 1`. -/
def touched (lo hi : Nat) : List Nat := List.range' (lo / 10) ((hi + 9) / 10 - lo / 10)

/-- The hits `M` belong to cluster `i`: one place within two pixels of `(10 i, 10 i)`, one time within a tick of `10 i`. -/
def AtCluster (i : Nat) (M : List Hit) : Prop :=
  ∃ x y t : Int, (10 * i ≤ x ∧ x ≤ 10 * i + 2) ∧ (10 * i ≤ y ∧ y ≤ 10 * i + 2) ∧ (10 * i - 1 ≤ t ∧ t ≤ 10 * i + 1) ∧ 0 ≤ t ∧
    ∀ h ∈ M, h.x = x ∧ h.y = y ∧ (h.spidertime.toNat : Int) = t ∧ (0 ≤ h.tot ∧ h.tot ≤ 100) ∧
      ∃ f, h.tof = some f ∧ f.toNat ≤ 2000

end Verif.Spec
