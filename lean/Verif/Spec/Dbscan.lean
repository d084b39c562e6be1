import Mathlib.Data.Set.Card
import Mathlib.Logic.Relation
import Verif.Model.Dbscan

/-! # What DBSCAN clustering should do -/

namespace Verif.Spec

/-- Value of a finite double. -/
def val : F64 → ℚ
  | .fin q => q
  | _ => 0

/-- A rational that is a finite double. -/
def FiniteDouble (q : ℚ) : Prop := F64.ofRat q = .fin q

/-- Both ends of the interval are finite. -/
def FiniteSpan (i : TimeInfo) : Prop := i.tmin.isFinite = true ∧ i.tmax.isFinite = true

/-- `b` starts before `a` ends, or within `e` (up to rounding of the difference) after it. -/
def Touch (e : ℚ) (a b : TimeInfo) : Prop := val b.tmin ≤ val a.tmax ∨ rndQ (val b.tmin - val a.tmax) ≤ e

/-- A group of clusters in which every cluster but the first touches an earlier one. -/
inductive Chained (e : ℚ) : List TimeInfo → Prop
  | one (a) : Chained e [a]
  | snoc (g a b) : Chained e g → a ∈ g → Touch e a b → Chained e (g ++ [b])

/-- More than `e` between any member of `g` and any member of `h`. -/
def Apart (e : ℚ) (g h : List TimeInfo) : Prop := ∀ a ∈ g, ∀ b ∈ h, val a.tmax + e < val b.tmin

/-- `o` is the union of the clusters of `g`. -/
structure UnionOf (g : List TimeInfo) (o : TimeInfo) : Prop where
  idx : o.idx = g.flatMap TimeInfo.idx
  tmin : (∃ a ∈ g, o.tmin = a.tmin) ∧ ∀ a ∈ g, val o.tmin ≤ val a.tmin
  tmax : (∃ a ∈ g, o.tmax = a.tmax) ∧ ∀ a ∈ g, val a.tmax ≤ val o.tmax

/-- A sorting function, on lists whose keys are finite: the result is in order of the start, in no particular order for
equal starts. -/
def SortsByStart (sort : List TimeInfo → List TimeInfo) : Prop :=
  ∀ l : List TimeInfo, (∀ i ∈ l, FiniteSpan i) →
    (sort l).Perm l ∧ (sort l).Pairwise fun a b => val a.tmin ≤ val b.tmin

/-- Arrival times `times` of two points lie within `e`. -/
def Near (times : List ℚ) (e : ℚ) (i j : Nat) : Prop :=
  ∃ a b, times[i]? = some a ∧ times[j]? = some b ∧ |a - b| ≤ e

/-- Two points are connected by steps of at most `e`. -/
def Connected (times : List ℚ) (e : ℚ) : Nat → Nat → Prop := Relation.ReflTransGen (Near times e)

/-- What every labelling by mlpack satisfies: one label per point, each noise or a cluster number, each number used, one
centroid per cluster. -/
structure WellLabelled {α : Type} (L : Labelling α) (n : Nat) : Prop where
  len : L.labels.length = n
  range : ∀ l ∈ L.labels, l = sizeMax ∨ l < L.k
  used : ∀ j < L.k, j ∈ L.labels
  small : L.k < sizeMax
  centroids : L.centroids.length = L.k

/-- What one-dimensional DBSCAN with distance `e` satisfies moreover: points of a cluster are connected. -/
structure Dbscan1D (fit : List F64 → Labelling F64) (e : ℚ) : Prop where
  good : ∀ ts : List F64, ts ≠ [] → WellLabelled (fit ts) ts.length
  connected : ∀ ts : List F64, ts ≠ [] → ∀ i j l : Nat, (fit ts).labels[i]? = some l → (fit ts).labels[j]? = some l → l ≠ sizeMax →
    Connected (ts.map val) e i j

/-- Arrival time within the 14-bit counter, in nanoseconds. -/
def toaNsQ (h : Hit) : ℚ := 25 * h.toa

/-- What the time clusters of `fit` should be, for arrival times `T`: the connected components, by steps of at most `e`,
that have at least `m` points, each once, in order of time. -/
structure Components (T : List ℚ) (e : ℚ) (m : Nat) (out : List (List Nat)) : Prop where
  ne : ∀ o ∈ out, o ≠ []
  nodup : out.flatten.Nodup
  bound : ∀ o ∈ out, ∀ i ∈ o, i < T.length
  closed : ∀ o ∈ out, ∀ i ∈ o, ∀ j, j ∈ o ↔ Connected T e i j
  all : ∀ i < T.length, (∃ o ∈ out, i ∈ o) ↔ m ≤ Set.ncard {j | Connected T e i j}
  ordered : out.Pairwise fun a b => ∀ i ∈ a, ∀ j ∈ b, ∀ x y, T[i]? = some x → T[j]? = some y → x + e < y

/-- Labels and events agree: every label is `-1` or the number of an event, and every event has at least one hit and
counts the hits that carry its number. -/
structure LabelsAgree (labels : List Int) (events : List NEvent) : Prop where
  range : ∀ l ∈ labels, l = -1 ∨ 0 ≤ l ∧ l < events.length
  counts : ∀ (m : Nat) (ev : NEvent), events[m]? = some ev → ev.nHits = labels.count (m : Int) ∧ 0 < labels.count (m : Int)

end Verif.Spec
