import Verif.Model.Hit
import Mathlib.Data.Finset.Card

/-!
# Specification vocabulary for clustering
-/

namespace Verif.Spec

open Verif

/-- Arrival time in nanoseconds (25 ns clock). -/
def arrivalNs (h : Hit) : Int := 25 * (h.spidertime.toNat : Int)

/-- The hits with label `l`, in order. -/
def members (hits : List Hit) (labels : List Int) (l : Int) : List Hit :=
  ((hits.zip labels).filter fun p => p.2 = l).map Prod.fst

/-- `v` is the least element of `l`. -/
def IsLeastIn (v : Int) (l : List Int) : Prop := v ∈ l ∧ ∀ a ∈ l, v ≤ a
/-- `v` is the greatest element of `l`. -/
def IsGreatestIn (v : Int) (l : List Int) : Prop := v ∈ l ∧ ∀ a ∈ l, a ≤ v

/-- `x` is within `r` of the interval spanned by the numbers in `l`. -/
def NearSpan (r : ℚ) (l : List Int) (x : Int) : Prop :=
  (∃ a ∈ l, (a : ℚ) ≤ x + r) ∧ (∃ a ∈ l, (x : ℚ) ≤ a + r)

/-- `h` is within `r`, in x and in y, of the bounding box of the hits `M`. -/
def NearBox (r : ℚ) (M : List Hit) (h : Hit) : Prop :=
  NearSpan r (M.map Hit.x) h.x ∧ NearSpan r (M.map Hit.y) h.y

/-- The number of its burst for every hit of consecutive bursts, counting from `m`. -/
def burstNumbers : Nat → List (List Hit) → List Int
  | _, [] => []
  | m, b :: bs => List.replicate b.length (m : Int) ++ burstNumbers (m + 1) bs

/-- The hits `pre ++ post`, read one by one, keep within `range` ns of the hit `first` and within `r` of the
bounding box of the earlier hits, given that `pre` has been read. -/
def Compact (range : Nat) (r : ℚ) (first : Hit) : List Hit → List Hit → Prop
  | _, [] => True
  | pre, h :: post =>
    |arrivalNs h - arrivalNs first| ≤ range ∧ NearBox r pre h ∧ Compact range r first (pre ++ [h]) post

/-- A burst: non-empty and compact. -/
def IsBurst (range : Nat) (r : ℚ) : List Hit → Prop
  | [] => False
  | h :: hs => Compact range r h [h] hs

/-- Every two hits of different bursts are more than `range` ns apart. -/
def Separated (range : Nat) (bursts : List (List Hit)) : Prop :=
  bursts.Pairwise fun a b => ∀ g ∈ a, ∀ h ∈ b, (range : Int) < |arrivalNs h - arrivalNs g|

/-- Arrival time of the first hit labelled `l` (0 if there is none). -/
def startNs (hits : List Hit) (labels : List Int) (l : Int) : Int :=
  (((members hits labels l).head?).map arrivalNs).getD 0

/-- The clusters other than `l` that started no earlier than `l`. -/
def notEarlier (hits : List Hit) (labels : List Int) (l : Int) : Finset Int :=
  labels.toFinset.filter fun x => x ≠ l ∧ startNs hits labels l ≤ startNs hits labels x

/-- The clusters that started later than `l`. -/
def laterThan (hits : List Hit) (labels : List Int) (l : Int) : Finset Int :=
  labels.toFinset.filter fun x => startNs hits labels l < startNs hits labels x

/-- `h` is within `range` ns of the first hit of cluster `l` and within `r` of the bounding box of its hits. -/
def Matches (range : Nat) (r : ℚ) (hits : List Hit) (labels : List Int) (l : Int) (h : Hit) : Prop :=
  |arrivalNs h - startNs hits labels l| ≤ range ∧ NearBox r (members hits labels l) h

/-- No two clusters started at the same time. -/
def DistinctStarts (hits : List Hit) (labels : List Int) : Prop :=
  ∀ x ∈ labels, ∀ y ∈ labels, startNs hits labels x = startNs hits labels y → x = y

/-- The hits are in order of their arrival times. -/
def InOrder (hits : List Hit) : Prop := hits.Pairwise fun a b => arrivalNs a ≤ arrivalNs b

end Verif.Spec
