import Verif.Spec.Packet
import Verif.Model.Hit

/-!
# Specification of packet streams

Arithmetic on natural numbers, written from the packet layout; no helper of the packet loop is used.
-/

namespace Verif.Spec

open Verif

/-- A trigger (TDC) packet: top byte 0x6F. -/
def IsTriggerPacket (w : U64) : Prop := field w 56 8 = 0x6F
/-- A global-time packet: type nibble 4. -/
def IsGlobalPacket (w : U64) : Prop := kind w = 4
/-- A hit packet: type nibble 0xb. -/
def IsHitPacket (w : U64) : Prop := kind w = 0xb
/-- Neither of the three. -/
def IsUnknownPacket (w : U64) : Prop := ¬ IsTriggerPacket w ∧ ¬ IsGlobalPacket w ∧ ¬ IsHitPacket w

instance (w : U64) : Decidable (IsTriggerPacket w) := by unfold IsTriggerPacket; infer_instance
instance (w : U64) : Decidable (IsGlobalPacket w) := by unfold IsGlobalPacket; infer_instance
instance (w : U64) : Decidable (IsHitPacket w) := by unfold IsHitPacket; infer_instance
instance (w : U64) : Decidable (IsUnknownPacket w) := by unfold IsUnknownPacket; infer_instance

/-- Trigger time, global time, and low half of the global time received last. -/
structure Times where
  tdc : Nat
  gdc : Nat
  low : Nat
  deriving DecidableEq, Repr

/-- First time not before `g` whose low 32 bits are `m`, modulo 2^48. -/
def triggerTime (m g : Nat) : Nat := (g + (m + 2 ^ 32 - g % 2 ^ 32) % 2 ^ 32) % 2 ^ 48

/-- Times after a packet in global-clock mode. -/
def nextG (w : U64) (t : Times) : Times :=
  if IsTriggerPacket w then { t with tdc := triggerTime (field w 12 32) t.gdc }
  else if IsGlobalPacket w then
    if field w 56 4 = 4 then { t with low := field w 16 32 }
    else if field w 56 4 = 5 ∧ field w 16 16 * 2 ^ 32 + t.low ≠ 0 then
      { t with gdc := field w 16 16 * 2 ^ 32 + t.low }
    else t
  else t

/-- Trigger time after a trigger packet with 32-bit counter `m` when there is no global clock: stay in the epoch
of the previous trigger (its upper 16 bits), or go to the next one if the counter fell by more than 2^31. -/
def rollTime (m prev : Nat) : Nat :=
  prev / 2 ^ 32 % 2 ^ 16 * 2 ^ 32 + (if m + 2 ^ 31 < prev % 2 ^ 32 then 2 ^ 32 else 0) + m

/-- Times after a packet in trigger-only mode. -/
def nextT (w : U64) (t : Times) : Times :=
  if IsTriggerPacket w then { t with tdc := rollTime (field w 12 32) t.tdc } else t

/-- Times after a list of packets. -/
def timesG (t : Times) (ws : List U64) : Times := ws.foldl (fun t w => nextG w t) t
def timesT (t : Times) (ws : List U64) : Times := ws.foldl (fun t w => nextT w t) t

/-- Positions of the hit packets that can be dated: the times in force before position `i` are those after
the first `i` packets. -/
def hitIndicesG (t : Times) (ws : List U64) : List Nat :=
  (List.range ws.length).filter fun i =>
    IsHitPacket (ws.getD i 0) ∧ (timesG t (ws.take i)).tdc ≠ 0 ∧ (timesG t (ws.take i)).gdc ≠ 0
def hitIndicesT (t : Times) (ws : List U64) : List Nat :=
  (List.range ws.length).filter fun i =>
    IsHitPacket (ws.getD i 0) ∧ (timesT t (ws.take i)).tdc ≠ 0

/-- The hits of a packet list: one per datable hit packet, decoded with the times in force. -/
def hitsG (chip : Int) (t : Times) (ws : List U64) : List Hit :=
  (hitIndicesG t ws).map fun i =>
    hitGdc (ws.getD i 0) (BitVec.ofNat 64 (timesG t (ws.take i)).tdc)
      (BitVec.ofNat 64 (timesG t (ws.take i)).gdc) chip
def hitsT (chip : Int) (t : Times) (ws : List U64) : List Hit :=
  (hitIndicesT t ws).map fun i =>
    hitTdc (ws.getD i 0) (BitVec.ofNat 64 (timesT t (ws.take i)).tdc) chip

/-- Complete packets of a batch whose header is at byte `index` and announces `num` packets: those that lie
completely in the buffer. -/
def batchPackets (buf : Bytes) (index num : Nat) : List U64 := (wordsOf (buf.drop (index + 8))).take num

/-- The byte word at `off` starts with `TPX`. -/
def LooksLikeHeader (buf : Bytes) (off : Nat) : Prop :=
  buf[off]? = some 0x54#8 ∧ buf[off + 1]? = some 0x50#8 ∧ buf[off + 2]? = some 0x58#8

/-- One sequential pass over packets tagged with their chip, carrying the times along. -/
def passG : Times → List (Int × U64) → List Hit
  | _, [] => []
  | t, p :: ps =>
    (if IsHitPacket p.2 ∧ t.tdc ≠ 0 ∧ t.gdc ≠ 0 then
      [hitGdc p.2 (BitVec.ofNat 64 t.tdc) (BitVec.ofNat 64 t.gdc) p.1] else []) ++ passG (nextG p.2 t) ps
def passT : Times → List (Int × U64) → List Hit
  | _, [] => []
  | t, p :: ps =>
    (if IsHitPacket p.2 ∧ t.tdc ≠ 0 then [hitTdc p.2 (BitVec.ofNat 64 t.tdc) p.1] else []) ++
      passT (nextT p.2 t) ps

/-! ## Well-formed streams -/

/-- A chunk of the stream: a header word and the data packets that follow it. -/
structure Chunk where
  header : U64
  packets : List U64

/-- The word starts with the bytes `TPX`. -/
def StartsTPX (w : U64) : Prop := field w 0 24 = 0x585054

instance (w : U64) : Decidable (StartsTPX w) := by unfold StartsTPX; infer_instance

/-- The header is a header and announces (in bytes, upper 16 bits) exactly the packets that follow. -/
def Chunk.WellFormed (c : Chunk) : Prop :=
  StartsTPX c.header ∧ field c.header 48 16 = 8 * c.packets.length

instance (c : Chunk) : Decidable c.WellFormed := by unfold Chunk.WellFormed; infer_instance

/-- No data packet starts with the bytes `TPX`. -/
def Chunk.NoLookAlike (c : Chunk) : Prop := ∀ w ∈ c.packets, ¬ StartsTPX w

instance (c : Chunk) : Decidable c.NoLookAlike := by unfold Chunk.NoLookAlike; infer_instance

/-- Chip id of a header: byte 4, signed. -/
def headerChipId (w : U64) : Int :=
  if field w 32 8 < 128 then field w 32 8 else (field w 32 8 : Int) - 256

/-- The words of a stream. -/
def streamWords (cs : List Chunk) : List U64 := cs.flatMap fun c => c.header :: c.packets

/-- The bytes of a stream. -/
def streamBytes (cs : List Chunk) : Bytes := (streamWords cs).flatMap bytesOf

/-- Position, number of packets and chip of every chunk. -/
def chunkTable : Nat → List Chunk → List (Nat × Nat × Int)
  | _, [] => []
  | off, c :: cs => (off, c.packets.length, headerChipId c.header) :: chunkTable (off + 8 + 8 * c.packets.length) cs

end Verif.Spec
