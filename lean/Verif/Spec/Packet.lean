import Verif.Model.Base

/-!
# Specification vocabulary for packets

Written from the Timepix3 packet layout, without the model's decoding helpers.
-/

namespace Verif.Spec

open Verif

/-- `len` bits of the packet word starting at bit `lo`. -/
def field (w : U64) (lo len : Nat) : Nat := w.toNat / 2 ^ lo % 2 ^ len

/-- Packet type nibble, the top four bits. -/
def kind (w : U64) : Nat := field w 60 4

/-- The four 256×256 chips of the 516×516 detector, with a gap of four pixels.  Chip 0 is at the right,
chip 1 at the upper right, chip 2 at the upper left, every other id at the origin. -/
def InQuadrant (chip x y : Int) : Prop :=
  if chip = 0 then 260 ≤ x ∧ x ≤ 515 ∧ 0 ≤ y ∧ y ≤ 255
  else if chip = 1 then 260 ≤ x ∧ x ≤ 515 ∧ 260 ≤ y ∧ y ≤ 515
  else if chip = 2 then 0 ≤ x ∧ x ≤ 255 ∧ 260 ≤ y ∧ y ≤ 515
  else 0 ≤ x ∧ x ≤ 255 ∧ 0 ≤ y ∧ y ≤ 255

instance (chip x y : Int) : Decidable (InQuadrant chip x y) := by unfold InQuadrant; infer_instance

/-- The 30-bit arrival clock carried by a hit packet: 16 bits of spider time above 14 bits of ToA. -/
def clock30 (w : U64) : Nat := field w 0 16 * 2 ^ 14 + field w 30 14

/-- `s` is the extension of the 30-bit clock value `r` next to the global time `g`: equal to `r` modulo
`2^30`, less than 1 s (4e7 ticks of 25 ns) after `g`, less than `2^30` ticks before that limit. -/
def IsArrival (r g s : Nat) : Prop :=
  s % 2 ^ 30 = r ∧ (g : Int) - 2 ^ 30 + 40000000 ≤ s ∧ (s : Int) < g + 40000000

/-- The window has the length of the clock period, so the extension is unique. -/
theorem IsArrival.unique {r g s t : Nat} (hs : IsArrival r g s) (ht : IsArrival r g t) : s = t := by
  unfold IsArrival at *
  omega

/-- `t` is the extension of the 32-bit trigger counter `m` to the first time not before `g`. -/
def IsTrigger (m g t : Nat) : Prop := t % 2 ^ 32 = m ∧ g ≤ t ∧ t < g + 2 ^ 32

theorem IsTrigger.unique {m g s t : Nat} (hs : IsTrigger m g s) (ht : IsTrigger m g t) : s = t := by
  unfold IsTrigger at *
  omega

end Verif.Spec
