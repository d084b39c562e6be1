import Verif.Spec.Cluster

/-!
# Specification vocabulary for events
-/

namespace Verif.Spec

open Verif

/-- Sum of an integer quantity over hits. -/
def total (f : Hit → Int) (M : List Hit) : Int := (M.map f).sum

/-- Mean of `f` over the hits, weighted with the ToT. -/
def totMean (f : Hit → Int) (M : List Hit) : ℚ := (total (fun h => f h * h.tot) M : ℚ) / total Hit.tot M

/-- Time of flight of a hit that has one. -/
def tofOf (h : Hit) : Int := match h.tof with
  | some t => t.toNat
  | none => 0

/-- Field ranges of decoded hits: coordinates and ToT below 1024, a time of flight below 2^22 ticks (105 ms). -/
structure Decoded (h : Hit) : Prop where
  x : 0 ≤ h.x ∧ h.x < 1024
  y : 0 ≤ h.y ∧ h.y < 1024
  tot : 0 ≤ h.tot ∧ h.tot < 1024
  tof : ∃ t, h.tof = some t ∧ t.toNat < 2 ^ 22

/-- `x` is `q` up to relative rounding `eps`. -/
def Approx (eps : ℚ) (x : F64) (q : ℚ) : Prop := ∃ v, x = .fin v ∧ |v - q| ≤ |q| * eps

/-- `m` is the median of a list of integers: the mean of the two middle elements of the list in order (which
coincide if the length is odd). -/
def IsMedian (m : ℚ) (l : List Int) : Prop :=
  ∃ s : List Int, s.Perm l ∧ s.Pairwise (· ≤ ·) ∧
    ∃ a b, s[(s.length - 1) / 2]? = some a ∧ s[s.length / 2]? = some b ∧ m = ((a : ℚ) + b) / 2

end Verif.Spec
