import Verif.Spec.Stream
import Verif.Model.Legacy

/-! # Specification vocabulary for the legacy library -/

namespace Verif.Spec

open Verif

/-- The two hits agree in everything that does not concern time of arrival on the experiment's clock. -/
def SamePixel (h k : Hit) : Prop := h.x = k.x ∧ h.y = k.y ∧ h.tot = k.tot ∧ h.toa = k.toa ∧ h.ftoa = k.ftoa

/-- The hit has the position on the detector and the raw values of the packet. -/
def Decodes (w : U64) (chip : Int) (h : Hit) : Prop :=
  h.tot = field w 20 10 ∧ h.toa = field w 30 14 ∧ h.ftoa = field w 16 4 ∧
  let x : Int := 2 * field w 53 7 + field w 46 1
  let y : Int := 4 * field w 47 6 + field w 44 2
  (h.x, h.y) = if chip = 0 then (260 + x, y) else if chip = 1 then (515 - x, 515 - y)
    else if chip = 2 then (255 - x, 515 - y) else (x, y)

/-- True arrival times that a 30-bit clock can be unwrapped from: each step is smaller than half a period. -/
inductive SlowSteps : Nat → List Nat → Prop
  | nil (t : Nat) : SlowSteps t []
  | cons (t u : Nat) (us : List Nat) : u < t + 2 ^ 29 → t < u + 2 ^ 29 → SlowSteps u us → SlowSteps t (u :: us)

/-- Every batch announced in the words is there completely.  `lastFree`: the last word is not looked at. -/
inductive Complete (lastFree : Bool) : List U64 → Prop
  | nil : Complete lastFree []
  | last (w : U64) : lastFree = true → Complete lastFree [w]
  | skip (w : U64) (ws : List U64) : ¬ StartsTPX w → Complete lastFree ws → Complete lastFree (w :: ws)
  | batch (w : U64) (ps ws : List U64) : StartsTPX w → ps.length = field w 48 16 / 8 → Complete lastFree ws →
      Complete lastFree (w :: (ps ++ ws))

/-- All packets of a stream with their chips, in order. -/
def chunkPackets (cs : List Chunk) : List (Int × U64) :=
  cs.flatMap fun c => c.packets.map fun w => (headerChipId c.header, w)

/-- Times after a packet for the legacy reader: unlike `nextG`, a global time of zero is taken over. -/
def nextL (w : U64) (t : Times) : Times :=
  if IsTriggerPacket w then { t with tdc := triggerTime (field w 12 32) t.gdc }
  else if IsGlobalPacket w then
    if field w 56 4 = 4 then { t with low := field w 16 32 }
    else if field w 56 4 = 5 then { t with gdc := field w 16 16 * 2 ^ 32 + t.low }
    else t
  else t

/-- One sequential pass over tagged packets: a hit for every hit packet, decoded with the times in force. -/
def passL : Times → List (Int × U64) → List Hit
  | _, [] => []
  | t, p :: ps =>
    (if IsHitPacket p.2 then [legacyHit p.2 (BitVec.ofNat 64 t.tdc) (BitVec.ofNat 64 t.gdc) p.1] else []) ++
      passL (nextL p.2 t) ps

end Verif.Spec
