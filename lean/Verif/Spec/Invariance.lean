import Verif.Model.Hit

/-!
# Specification of moved hits
-/

namespace Verif.Spec

open Verif

/-- A motion of the detector plane (mirror images, exchange of the axes, shift) and a shift of the time. -/
structure Motion where
  flipX : Bool
  flipY : Bool
  swap : Bool
  dx : Int
  dy : Int
  dt : Int

/-- The place of a coordinate after a shift, with or without mirroring. -/
def placed (flip : Bool) (d a : Int) : Int := if flip then d - a else d + a

/-- `h'` is where and when `h` goes; nothing is said about its time over threshold and its time of flight. -/
structure Moved (m : Motion) (h h' : Hit) : Prop where
  x : h'.x = placed m.flipX m.dx (if m.swap then h.y else h.x)
  y : h'.y = placed m.flipY m.dy (if m.swap then h.x else h.y)
  time : (h'.spidertime.toNat : Int) = h.spidertime.toNat + m.dt

/-- The radius is a whole number of pixels, or differs from every whole number by more than 2^-32. -/
def Clear (r : ℚ) : Prop := ∀ k : ℤ, r = k ∨ 1 / 2 ^ 32 < |r - k|

/-- Coordinates and times in the range in which the arithmetic is exact. -/
def InRange (h : Hit) : Prop := |h.x| ≤ 2 ^ 20 ∧ |h.y| ≤ 2 ^ 20 ∧ h.spidertime.toNat < 2 ^ 48

end Verif.Spec
