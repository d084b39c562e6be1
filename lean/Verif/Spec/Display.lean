import Verif.Model.DisplayParse
import Verif.Spec.Stream

/-! # Specification vocabulary for the display program -/

namespace Verif.Spec

open Verif

/-- Position of a hit packet on its chip. -/
def chipX (w : U64) : Nat := 2 * field w 53 7 + field w 46 1
def chipY (w : U64) : Nat := 4 * field w 47 6 + field w 44 2

/-- The hit shows the packet: raw values, arrival clock, time since the trigger `t` modulo 2^32, and position in a picture
of four chips without gap. -/
def Shows (chip : Int) (t : Nat) (w : U64) (h : DisplayHit) : Prop :=
  h.tot = field w 20 10 ∧ h.toa = field w 30 14 ∧ h.ftoa = field w 16 4 ∧ h.spdr = clock30 w ∧
  (h.tof.toNat + t) % 2 ^ 32 = clock30 w ∧
  let x : Int := chipX w
  let y : Int := chipY w
  (h.x, h.y) = if chip = 0 then (256 + x, y) else if chip = 1 then (511 - x, 511 - y)
    else if chip = 2 then (255 - x, 511 - y) else (x, y)

/-- The hit packets of a list of packets, each with the 30-bit time of the trigger packet before it. -/
def dated : Nat → List (Int × U64) → List (Nat × Int × U64)
  | _, [] => []
  | t, (chip, w) :: ps =>
    if IsHitPacket w then (t, chip, w) :: dated t ps
    else if IsTriggerPacket w then dated (field w 12 30) ps
    else dated t ps

/-- Time of the last trigger packet, `t` if there is none. -/
def lastTrigger : Nat → List (Int × U64) → Nat
  | t, [] => t
  | t, (_, w) :: ps => if IsTriggerPacket w then lastTrigger (field w 12 30) ps else lastTrigger t ps

/-- Time of flight in units of 100 ns: a quarter of the ticks since the trigger, modulo 2^32. -/
def tof100 (t : Nat) (w : U64) : Nat := (clock30 w + 2 ^ 32 - t % 2 ^ 32) % 2 ^ 32 / 4

/-- Where a dated hit packet is counted: in units of 100 ns, if less than 170000 and on the part of its own chip with
250 < x < 425 and 125 < y < 325. -/
def countedAt (d : Nat × Int × U64) : List Int :=
  if tof100 d.1 d.2.2 < 170000 ∧ 250 < chipX d.2.2 ∧ chipX d.2.2 < 425 ∧ 125 < chipY d.2.2 ∧ chipY d.2.2 < 325 then
    [(tof100 d.1 d.2.2 : Int)] else []

/-- Number of packets of a chunk of `n` that the display program reads as such: bytes of 128 and more count as negative. -/
def shownCount (n : Nat) : Nat := if 4096 ≤ n then 0 else if n % 32 < 16 then n else n - 32

/-- Those packets, with the chip. -/
def shownPackets (cs : List Chunk) : List (Int × U64) :=
  cs.flatMap fun c => (c.packets.take (shownCount c.packets.length)).map fun w => (headerChipId c.header, w)

/-- The quadrant of a chip in the picture of 512 by 512 pixels. -/
def InPicture (chip x y : Int) : Prop :=
  if chip = 0 then 256 ≤ x ∧ x ≤ 511 ∧ 0 ≤ y ∧ y ≤ 255
  else if chip = 1 then 256 ≤ x ∧ x ≤ 511 ∧ 256 ≤ y ∧ y ≤ 511
  else if chip = 2 then 0 ≤ x ∧ x ≤ 255 ∧ 256 ≤ y ∧ y ≤ 511
  else 0 ≤ x ∧ x ≤ 255 ∧ 0 ≤ y ∧ y ≤ 255

instance (chip x y : Int) : Decidable (InPicture chip x y) := by unfold InPicture; infer_instance

end Verif.Spec
