import Verif.Spec.Dbscan
import Mathlib.Data.Finset.Card

/-!
# Specification vocabulary for groups of hits found by DBSCAN
-/

namespace Verif.Spec

open Verif

/-- Pixel of a hit. -/
def place (h : Hit) : Int × Int := (h.x, h.y)

/-- Two points of the list are at most `e` apart. -/
def Close (pts : List (Int × Int)) (e : ℚ) (i j : Nat) : Prop :=
  ∃ a b, pts[i]? = some a ∧ pts[j]? = some b ∧ 0 ≤ e ∧ ((a.1 - b.1) ^ 2 + (a.2 - b.2) ^ 2 : ℚ) ≤ e ^ 2

/-- Two points are connected by steps of at most `e`. -/
def Linked (pts : List (Int × Int)) (e : ℚ) : Nat → Nat → Prop := Relation.ReflTransGen (Close pts e)

/-- Coordinates of pixels. -/
def Small (pts : List (Int × Int)) : Prop := ∀ p ∈ pts, |p.1| ≤ 2 ^ 20 ∧ |p.2| ≤ 2 ^ 20

/-- The points as mlpack gets them. -/
def asDoubles (pts : List (Int × Int)) : List (F64 × F64) := pts.map fun p => (.fin p.1, .fin p.2)

/-- `v` is a double between the least and the greatest `f` of the points that carry the label `l`. -/
def Amid (labels : List Nat) (pts : List (Int × Int)) (l : Nat) (f : Int × Int → Int) (v : F64) : Prop :=
  ∃ q, v = .fin q ∧ FiniteDouble q ∧ (∃ (i : Nat) (a : Int × Int), labels[i]? = some l ∧ pts[i]? = some a ∧ (f a : ℚ) ≤ q) ∧
    ∃ (i : Nat) (a : Int × Int), labels[i]? = some l ∧ pts[i]? = some a ∧ q ≤ f a

/-- What two-dimensional DBSCAN satisfies on pixels.  Points of a cluster are connected by steps of at most `far`; two points
at most `near` apart that have at least `m` points (themselves included) within `near` are in one cluster; the centroid of a
cluster lies between its points.  Exact distances would have `near = far`; a distance in double precision leaves a little
room between the two. -/
structure Dbscan2D (fit : List (F64 × F64) → Labelling (F64 × F64)) (near far : ℚ) (m : Nat) : Prop where
  good : ∀ ps, ps ≠ [] → WellLabelled (fit ps) ps.length
  linked : ∀ pts, Small pts → ∀ i j l : Nat, (fit (asDoubles pts)).labels[i]? = some l →
    (fit (asDoubles pts)).labels[j]? = some l → l ≠ sizeMax → Linked pts far i j
  dense : ∀ pts, Small pts → ∀ i j : Nat, Close pts near i j → m ≤ Set.ncard {t | Close pts near i t} →
    m ≤ Set.ncard {t | Close pts near j t} → ∃ l, l ≠ sizeMax ∧ (fit (asDoubles pts)).labels[i]? = some l ∧
      (fit (asDoubles pts)).labels[j]? = some l
  centroid : ∀ pts, Small pts → ∀ l < (fit (asDoubles pts)).k, ∃ c, (fit (asDoubles pts)).centroids[l]? = some c ∧
    Amid (fit (asDoubles pts)).labels pts l Prod.fst c.1 ∧ Amid (fit (asDoubles pts)).labels pts l Prod.snd c.2

/-- `group` tells for every hit which neutron caused it.  The hits of a neutron are close together and connected in time by
steps of at most `e`; hits of different neutrons are farther apart in space, or not connected in time; a neutron has at least
`m` hits, and at least `mt` hits are connected in time with every hit. -/
structure Grouped (group : List Nat) (hits : List Hit) (e near far : ℚ) (mt m : Nat) : Prop where
  length : group.length = hits.length
  close : ∀ i j g : Nat, group[i]? = some g → group[j]? = some g →
    Close (hits.map place) near i j ∧ Connected (hits.map toaNsQ) e i j
  apart : ∀ i j g g' : Nat, group[i]? = some g → group[j]? = some g' → g ≠ g' →
    ¬ Close (hits.map place) far i j ∨ ¬ Connected (hits.map toaNsQ) e i j
  size : ∀ g ∈ group, m ≤ group.count g
  lasting : ∀ i < hits.length, mt ≤ Set.ncard {j | Connected (hits.map toaNsQ) e i j}

/-- `v` lies between the least and the greatest `f` of the hits of group `g`. -/
def InGroup (group : List Nat) (hits : List Hit) (g : Nat) (f : Hit → Int) (v : F64) : Prop :=
  ∃ q, v = .fin q ∧ (∃ (i : Nat) (h : Hit), group[i]? = some g ∧ hits[i]? = some h ∧ (f h : ℚ) ≤ q) ∧
    ∃ (i : Nat) (h : Hit), group[i]? = some g ∧ hits[i]? = some h ∧ q ≤ f h

/-- `ev` is the event of group `g`: number of hits and place are those of the group, the time is the mean of the counters of
all hits connected in time with the group, in nanoseconds, correctly rounded. -/
structure EventOfGroup (group : List Nat) (hits : List Hit) (e : ℚ) (g : Nat) (ev : NEvent) : Prop where
  nHits : ev.nHits = group.count g
  x : InGroup group hits g Hit.x ev.x
  y : InGroup group hits g Hit.y ev.y
  time : ∃ idx : List Nat, idx.Nodup ∧ (∃ i : Nat, group[i]? = some g ∧ ∀ j, j ∈ idx ↔ Connected (hits.map toaNsQ) e i j) ∧
    ev.tof = F64.ofRat (((idx.map fun i => (hits.map toaNsQ).getD i 0).sum) / idx.length)

/-- Labels and events are those of the groups: the labels tell the groups apart, and the events are those of the groups, each
once. -/
structure FoundGroups (group : List Nat) (hits : List Hit) (e : ℚ) (labels : List Int) (events : List NEvent) : Prop where
  length : labels.length = hits.length
  count : events.length = group.toFinset.card
  event : ∀ (n : Nat) (ev : NEvent), events[n]? = some ev → ∃ g, g ∈ group ∧
    (∀ i : Nat, labels[i]? = some (n : Int) ↔ group[i]? = some g) ∧ EventOfGroup group hits e g ev
  all : ∀ g ∈ group, ∃ n : Nat, n < events.length ∧ ∀ i : Nat, labels[i]? = some (n : Int) ↔ group[i]? = some g

end Verif.Spec
