import Mathlib.Data.List.Forall2
import Verif.Model.DisplayWorker

/-!
# Specification of the clusters of the display program

A cluster is the list of its hits, first one first.
-/

namespace Verif.Spec

open Verif

/-- The hit belongs to the cluster: at most two ticks from its first hit, and at most five pixels outside the box around
its hits. -/
def Joins (g : List DisplayHit) (h : DisplayHit) : Prop :=
  (∃ f, g.head? = some f ∧ f.spdr ≤ h.spdr + 2 ∧ h.spdr ≤ f.spdr + 2) ∧
  (∃ a ∈ g, h.x ≤ a.x + 5) ∧ (∃ a ∈ g, a.x ≤ h.x + 5) ∧ (∃ a ∈ g, h.y ≤ a.y + 5) ∧ (∃ a ∈ g, a.y ≤ h.y + 5)

/-- `ClustersOf hs os cl`: the hits `hs` have been put into clusters one after the other; `os` are open, oldest first, and
`cl` closed, in the order of closing.  A hit joins an open cluster that it belongs to; if there is none it opens a new one,
and then the oldest is closed if 127 are open. -/
inductive ClustersOf : List DisplayHit → List (List DisplayHit) → List (List DisplayHit) → Prop
  | nil : ClustersOf [] [] []
  | join (hs a b cl : _) (g : List DisplayHit) (h : DisplayHit) :
      ClustersOf hs (a ++ g :: b) cl → Joins g h → ClustersOf (hs ++ [h]) (a ++ (g ++ [h]) :: b) cl
  | opens (hs os cl : _) (h : DisplayHit) :
      ClustersOf hs os cl → (∀ g ∈ os, ¬ Joins g h) → os.length < 127 → ClustersOf (hs ++ [h]) (os ++ [[h]]) cl
  | recycles (hs os cl : _) (g : List DisplayHit) (h : DisplayHit) :
      ClustersOf hs (g :: os) cl → (∀ g' ∈ g :: os, ¬ Joins g' h) → (g :: os).length = 127 →
      ClustersOf (hs ++ [h]) (os ++ [[h]]) (cl ++ [g])

/-- The record holds the box, the sums and the first time of the cluster. -/
structure Summarises (c : ShownCluster) (g : List DisplayHit) : Prop where
  first : g.head?.map (·.spdr) = some c.firstspdr
  pix : c.totalpix = g.length
  tot : c.totalTOT = (g.map (·.tot)).sum
  rx : c.runningX = (g.map fun h => h.tot * h.x).sum
  ry : c.runningY = (g.map fun h => h.tot * h.y).sum
  minx : (∃ a ∈ g, a.x = c.minx) ∧ ∀ a ∈ g, c.minx ≤ a.x
  maxx : (∃ a ∈ g, a.x = c.maxx) ∧ ∀ a ∈ g, a.x ≤ c.maxx
  miny : (∃ a ∈ g, a.y = c.miny) ∧ ∀ a ∈ g, c.miny ≤ a.y
  maxy : (∃ a ∈ g, a.y = c.maxy) ∧ ∀ a ∈ g, a.y ≤ c.maxy

/-- The hit has values that a packet can have. -/
def IsPixelHit (h : DisplayHit) : Prop :=
  0 ≤ h.tot ∧ h.tot ≤ 1023 ∧ 0 ≤ h.x ∧ h.x ≤ 511 ∧ 0 ≤ h.y ∧ h.y ≤ 511

instance (h : DisplayHit) : Decidable (IsPixelHit h) := by unfold IsPixelHit; infer_instance

end Verif.Spec
