import Verif.Spec.Detector
import Verif.Spec.Display
import Verif.Spec.DisplayWorker

/-!
# Specification of what the display program should show of a detector
-/

namespace Verif.Spec

open Verif

/-- The place of a pixel of a chip in a picture of four chips without gap. -/
def onPicture (chip : Int) (col row : Nat) : Int × Int :=
  if chip = 0 then (256 + col, row)
  else if chip = 1 then (511 - col, 511 - row)
  else if chip = 2 then (255 - col, 511 - row)
  else (col, row)

/-- The hit of a firing pixel: its time modulo 2^30 and the true time since the last trigger. -/
def pictureHit (chip : Int) (trigger t col row tot ftoa : Nat) : DisplayHit :=
  { x := (onPicture chip col row).1, y := (onPicture chip col row).2, tot := tot, toa := (t % 2 ^ 14 : Nat), ftoa := ftoa,
    tof := BitVec.ofNat 32 (t - trigger), spdr := (t % 2 ^ 30 : Nat) }

/-- The hits of all firing pixels. -/
def pictureHits (chip : Int) : Past → List Signal → List DisplayHit
  | _, [] => []
  | p, .pixel t col row tot ftoa :: ss => pictureHit chip p.trigger t col row tot ftoa :: pictureHits chip p ss
  | p, s :: ss => pictureHits chip (p.after s) ss

/-- The hits of all firing pixels of a file. -/
def pictureReadouts : Past → List Readout → List DisplayHit
  | _, [] => []
  | p, r :: rs => pictureHits r.chip p r.signals ++ pictureReadouts (r.signals.foldl Past.after p) rs

/-- A pixel fires after the last trigger (or the start), and no multiple of 2^30 ticks (26.8 s) lies between. -/
def Signal.TimelyD (p : Past) : Signal → Prop
  | .pixel t col row tot ftoa => PixelOk col row tot ftoa ∧ p.trigger ≤ t ∧ t / 2 ^ 30 = p.trigger / 2 ^ 30
  | .trigger _ => True
  | .clock _ => True

def AllTimelyD : Past → List Signal → Prop
  | _, [] => True
  | p, s :: ss => s.TimelyD p ∧ AllTimelyD (p.after s) ss

/-- The number of packets is one that the display program takes: bytes of 128 and more count as negative. -/
def Readout.Short (r : Readout) : Prop := r.packets.length < 4096 ∧ r.packets.length % 32 < 16

/-- `NeutronHits hs gs`: the hits `hs` are those of the neutrons `gs`, in the order in which their first hits come.  A hit belongs to
one neutron, among the last 127, or it is the first of a new one and belongs to none of the last 127. -/
inductive NeutronHits : List DisplayHit → List (List DisplayHit) → Prop
  | nil : NeutronHits [] []
  | again (hs : List DisplayHit) (a b : List (List DisplayHit)) (g : List DisplayHit) (h : DisplayHit) :
      NeutronHits hs (a ++ g :: b) → b.length < 127 → Joins g h → (∀ g' ∈ b, ¬ Joins g' h) →
      (∀ a₁ g' a₂, a = a₁ ++ g' :: a₂ → (a₂ ++ g :: b).length < 127 → ¬ Joins g' h) →
      NeutronHits (hs ++ [h]) (a ++ (g ++ [h]) :: b)
  | first (hs : List DisplayHit) (gs : List (List DisplayHit)) (h : DisplayHit) :
      NeutronHits hs gs → (∀ a g b, gs = a ++ g :: b → b.length < 127 → ¬ Joins g h) → NeutronHits (hs ++ [h]) (gs ++ [[h]])

/-- The neutrons that are shown: those of more than ten hits, but for the last 127. -/
def shownNeutrons (gs : List (List DisplayHit)) : List (List DisplayHit) :=
  (gs.take (gs.length - 127)).filter fun g => 10 < g.length

/-- Mean of the columns (`f` = x) or rows (`f` = y) of the hits, weighted by the time over threshold. -/
def weightedMean (f : DisplayHit → Int) (g : List DisplayHit) : ℚ :=
  ((g.map fun h => h.tot * f h).sum : ℤ) / ((g.map fun h => h.tot).sum : ℤ)

/-- Column of the neutron in the picture, eight places to a pixel and turned. -/
def turnedX (cs sn : ℚ) (g : List DisplayHit) : ℚ := 8 * (weightedMean (·.x) g * cs - weightedMean (·.y) g * sn)

/-- Row of the neutron in the picture. -/
def turnedY (cs sn : ℚ) (g : List DisplayHit) : ℚ := 8 * (weightedMean (·.x) g * sn + weightedMean (·.y) g * cs)

/-- The neutron is shown once, less than a place (and 2^-29) from where it is, if that is inside the picture; not at all if it is
outside by more than a place. -/
def ShownAt (cs sn : ℚ) (g : List DisplayHit) (l : List (Int × Int)) : Prop :=
  (l = [] ∨ ∃ p, l = [p] ∧ |(p.1 : ℚ) - turnedX cs sn g| < 1 + 1 / 2 ^ 29 ∧ |(p.2 : ℚ) - turnedY cs sn g| < 1 + 1 / 2 ^ 29) ∧
  (0 ≤ turnedX cs sn g → turnedX cs sn g ≤ 4095 → 0 ≤ turnedY cs sn g → turnedY cs sn g ≤ 4095 → l ≠ [])

end Verif.Spec
