import Verif.Model.DisplayWindow
import Verif.Spec.Detector

/-!
# What the files saved by the display program should say
-/

namespace Verif.Spec

open Verif

/-- The number that bytes stand for, lowest first. -/
def lowFirst : Bytes → Nat
  | [] => 0
  | b :: bs => b.toNat + 256 * lowFirst bs

/-- The number that 64 bits stand for in IEEE 754 binary64, if it is finite. -/
def binary64 (b : Nat) : ℚ :=
  (if b / 2 ^ 63 % 2 = 1 then -1 else 1) *
    if b / 2 ^ 52 % 2048 = 0 then ((b % 2 ^ 52 : Nat) : ℚ) * 2 ^ (-1074 : ℤ)
    else ((2 ^ 52 + b % 2 ^ 52 : Nat) : ℚ) * 2 ^ (((b / 2 ^ 52 % 2048 : Nat) : ℤ) - 1075)

/-- The `k`-th number in a file of doubles. -/
def doubleAt (f : Bytes) (k : Nat) : ℚ := binary64 (lowFirst ((f.drop (8 * k)).take 8))

/-- The `k`-th number in a file of 32-bit numbers. -/
def word32At (f : Bytes) (k : Nat) : Nat := lowFirst ((f.drop (4 * k)).take 4)

/-- A picture file: 4096 columns, one after the other, of 4096 doubles, the counts of the places. -/
def IsPictureOf (f : Bytes) (places : List (Int × Int)) : Prop :=
  f.length = 8 * (4096 * 4096) ∧ ∀ x y : Nat, x < 4096 → y < 4096 → doubleAt f (4096 * x + y) = (places.count ((x : Int), (y : Int)) : ℚ)

/-- A spectrum file: 170000 counts, modulo 2^32. -/
def IsSpectrumOf (f : Bytes) (times : List Int) : Prop :=
  f.length = 4 * 170000 ∧ ∀ i, i < 170000 → word32At f i = times.count (i : Int) % 2 ^ 32

/-- The times of flight, in units of 100 ns, of the pixels that fire in the upper right corner of their chip within 17 ms of the trigger. -/
def spectrumTimes : Past → List Signal → List Int
  | _, [] => []
  | p, .pixel t col row _ _ :: ss =>
    (if (t - p.trigger) / 4 < 170000 ∧ 250 < col ∧ 125 < row then [(((t - p.trigger) / 4 : Nat) : Int)] else []) ++ spectrumTimes p ss
  | p, s :: ss => spectrumTimes (p.after s) ss

end Verif.Spec
