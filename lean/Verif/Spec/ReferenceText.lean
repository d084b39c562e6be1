import Verif.Spec.Text
import Verif.Spec.Detector
import Verif.Spec.Reference

/-!
# Reading the manufacturer's text file
-/

namespace Verif.Spec

open Verif

/-- What a line of the text says: the time in seconds of a trigger, of a hit with its place and time over threshold, of the clock. -/
inductive TextLine where
  | trigger (s : ℚ)
  | hit (x y : Int) (s tot : ℚ)
  | clock (s : ℚ)
  deriving DecidableEq, Repr

/-- Read a line. -/
def readTextLine? (l : List Char) : Option TextLine :=
  match fields ' ' l with
  | [a] => (readDecimal? a).map .trigger
  | [e, g, t, a] => if e = [] ∧ g = "Global".toList ∧ t = "time:".toList then (readDecimal? a).map .clock else none
  | [a, e, b, e', c, e'', d] =>
    if e = [] ∧ e' = [] ∧ e'' = [] then
      match readInt? a, readInt? b, readDecimal? c, readDecimal? d with
      | some x, some y, some s, some t => some (.hit x y s t)
      | _, _, _, _ => none
    else none
  | _ => none

/-- Read a text; every line ends with a line feed. -/
def readText? (text : List Char) : Option (List TextLine) :=
  if (fields '\n' text).getLast? = some [] then (fields '\n' text).dropLast.mapM readTextLine? else none

/-- The number `s` of seconds is `ns` nanoseconds up to `tol`. -/
def NearNs (s ns tol : ℚ) : Prop := |s * 1000000000 - ns| ≤ tol

/-- The place on the detector of the pixel in a packet: double column, super pixel, pixel. -/
def pixelOnDetector (chip : Int) (w : U64) : Int × Int :=
  onDetector chip (field w 53 7 * 2 + field w 46 1) (field w 47 6 * 4 + field w 44 2)

/-- What the line of a packet says of its fields; `low` is the lower half of the clock.  The counters have units of 25/16 ns for
hits, 25/96 ns for triggers with a valid fine counter, 25/8 ns for triggers without, and 25 ns for the clock. -/
inductive SaysPacket (low : Nat) (chip : Int) (w : U64) : TextLine → Prop where
  | trigger (s : ℚ) : kind w = 6 → (1 ≤ field w 5 4 → field w 5 4 ≤ 12 → NearNs s (triggerNs w) (1 / 50)) →
      (field w 5 4 = 0 → NearNs s (25 * field w 12 32 + 25 / 8 * field w 9 3 + 2) (1 / 4)) → SaysPacket low chip w (.trigger s)
  | hit (s tot : ℚ) : IsHitPacket w → NearNs s (fineArrival w) (1 / 1000) → tot = 25 * field w 20 10 →
      SaysPacket low chip w (.hit (pixelOnDetector chip w).1 (pixelOnDetector chip w).2 s tot)
  | clock (s : ℚ) : IsHighPacket w → NearNs s (25 * (field w 16 16 * 2 ^ 32 + low)) 8 → SaysPacket low chip w (.clock s)

/-- The packets that give a line, with their chip and the lower half of the clock received last. -/
def linePackets : Nat → List (Int × U64) → List (Nat × Int × U64)
  | _, [] => []
  | low, p :: ps =>
    if kind p.2 = 4 ∧ field p.2 56 4 = 4 then linePackets (field p.2 16 32) ps
    else if kind p.2 = 6 ∨ IsHitPacket p.2 ∨ IsHighPacket p.2 then (low, p.1, p.2) :: linePackets low ps
    else linePackets low ps

/-- What the line of a signal says: the times modulo 2^32, 2^48 and 2^30 ticks. -/
inductive SaysSignal (chip : Int) : Signal → TextLine → Prop where
  | trigger (t : Nat) (s : ℚ) : NearNs s (25 * (t % 2 ^ 32 : Nat) + 2) (1 / 4) → SaysSignal chip (.trigger t) (.trigger s)
  | clock (t : Nat) (s : ℚ) : NearNs s (25 * (t % 2 ^ 48 : Nat)) 8 → SaysSignal chip (.clock t) (.clock s)
  | pixel (t col row tot ftoa : Nat) (s : ℚ) : NearNs s (25 * (t % 2 ^ 30 : Nat) + 25 / 16 * (15 - ftoa)) (1 / 1000) →
      SaysSignal chip (.pixel t col row tot ftoa) (.hit (onDetector chip col row).1 (onDetector chip col row).2 s (25 * tot))

end Verif.Spec
