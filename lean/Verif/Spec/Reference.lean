import Verif.Spec.Stream
import Verif.Model.Reference

/-!
# Specification for the comparison with the manufacturer's converter

Written from the packet layout.
-/

namespace Verif.Spec

open Verif

/-- Arrival time of a hit within the period of the 30-bit clock, in nanoseconds: ticks of 25 ns, and the fine part, which
counts sixteenths of a tick down. -/
def fineArrival (w : U64) : ℚ := 25 * clock30 w + 25 / 16 * (15 - field w 16 4)

/-- A packet with the upper half of the global time. -/
def IsHighPacket (w : U64) : Prop := kind w = 4 ∧ field w 56 4 = 5

instance (w : U64) : Decidable (IsHighPacket w) := by unfold IsHighPacket; infer_instance

/-- Some hit comes before the first upper half of the global time. -/
def HitBeforeHigh (ws : List U64) : Prop :=
  ∀ pre w post, ws = pre ++ w :: post → IsHighPacket w → ∃ v ∈ pre, IsHitPacket v

/-- The global times of a list of packets: one for each upper half, with the lower half received last. -/
def globalTimes : Nat → List U64 → List Nat
  | _, [] => []
  | low, w :: ws =>
    if kind w = 4 ∧ field w 56 4 = 4 then globalTimes (field w 16 32) ws
    else if IsHighPacket w then (field w 16 16 * 2 ^ 32 + low) :: globalTimes low ws
    else globalTimes low ws

/-- The hits among the lines. -/
def hitLines (ls : List RefLine) : List (Int × Int × F64 × F64) := ls.filterMap fun
  | .hit x y s t => some (x, y, s, t)
  | _ => none

/-- The global times among the lines. -/
def globalLines (ls : List RefLine) : List F64 := ls.filterMap fun
  | .global s => some s
  | _ => none

/-- Number of triggers among the lines. -/
def triggerLines (ls : List RefLine) : Nat := ls.countP fun
  | .trigger _ => true
  | _ => false

/-- The times of the triggers among the lines. -/
def triggerTimes (ls : List RefLine) : List F64 := ls.filterMap fun
  | .trigger t => some t
  | _ => none

/-- Time of a trigger in nanoseconds: ticks of 25 ns, eighths of a tick, and twelfths of an eighth counted from 1. -/
def triggerNs (w : U64) : ℚ := 25 * field w 12 32 + 25 / 8 * field w 9 3 + 25 / 96 * (field w 5 4 - 1)

end Verif.Spec
