import Verif.Spec.Stream

/-!
# Specification of the GDC records
-/

namespace Verif.Spec

open Verif

/-- The word starts with the bytes `TPX3`. -/
def StartsTPX3 (w : U64) : Prop := field w 0 32 = 0x33585054

instance (w : U64) : Decidable (StartsTPX3 w) := by unfold StartsTPX3; infer_instance

/-- A packet carrying the upper half of the global time. -/
def IsHighHalf (w : U64) : Prop := IsGlobalPacket w ∧ field w 56 4 = 5 ∧ ¬ StartsTPX3 w

instance (w : U64) : Decidable (IsHighHalf w) := by unfold IsHighHalf; infer_instance

/-- The global time after some words: the one given by their packets, headers left out. -/
def globalTime (ws : List U64) : Nat := (timesG ⟨0, 0, 0⟩ (ws.filter fun w => ¬ StartsTPX3 w)).gdc

/-- The chip named by the last header among the words `a, …, i - 1`; `none` if there is no header among them. -/
def chipBefore (ws : List U64) (a i : Nat) : Option Int :=
  (((List.range i).filter fun h => a ≤ h ∧ StartsTPX3 (ws.getD h 0)).getLast?).map fun h => headerChipId (ws.getD h 0)

/-- The record for word `i` when the words from `a` on are looked at: chip, time and byte offset, if word `i` is
a high-half packet after a header with a non-negative chip id and the global time is not zero. -/
def recordAt (ws : List U64) (a i : Nat) : Option (Int × Nat × Nat) :=
  match chipBefore ws a i with
  | none => none
  | some chip =>
    if IsHighHalf (ws.getD i 0) ∧ 0 ≤ chip ∧ globalTime (ws.take (i + 1)) ≠ 0 then
      some (chip, globalTime (ws.take (i + 1)), 8 * i)
    else none

/-- The records of the words `a, …, b - 1` read in one piece. -/
def recordsOf (ws : List U64) (a b : Nat) : List (Int × Nat × Nat) := (List.range' a (b - a)).filterMap (recordAt ws a)

/-- The records of a file cut after the given numbers of words. -/
def recordsCut (ws : List U64) : Nat → List Nat → List (Int × Nat × Nat)
  | _, [] => []
  | a, n :: ns => recordsOf ws a (a + n) ++ recordsCut ws (a + n) ns

/-- The numbers of words in the pieces when `total` words are cut after every `k`. -/
def cutEvery (k total : Nat) : List Nat := List.replicate (total / k) k ++ [total % k]

end Verif.Spec
