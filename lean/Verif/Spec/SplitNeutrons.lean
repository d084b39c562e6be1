import Verif.Spec.Interleaved
import Mathlib.Data.List.Dedup

/-!
# Specification of neutrons whose hits are spread over several readouts
-/

namespace Verif.Spec

open Verif

variable {α : Type} [DecidableEq α]

/-- The different elements, in the order in which they are first met. -/
def firstUses (l : List α) : List α := l.reverse.dedup.reverse

/-- The elements numbered in the order in which they are first met. -/
def renumber (l : List α) : List Int := l.map fun a => ((firstUses l).idxOf a : Int)

/-- The hits that neutron `a` caused; `cause` names the neutron of every hit. -/
def hitsOfCause (hits : List Hit) (cause : List α) (a : α) : List Hit := ((hits.zip cause).filter fun p => p.2 = a).map Prod.fst

/-- Neutron `a` leaves enough hits, and charge, in the readout. -/
def LeavesMark (minSize : Nat) (a : α) (p : List Hit × List α) : Bool :=
  decide (minSize ≤ (hitsOfCause p.1 p.2 a).length ∧ total Hit.tot (hitsOfCause p.1 p.2 a) ≠ 0)

/-- All neutrons of the readouts. -/
def allNeutrons (ps : List (List Hit × List α)) : List α := (ps.flatMap Prod.snd).dedup

/-- The number of pairs of a neutron and a readout in which it leaves a mark. -/
def marks (minSize : Nat) (ps : List (List Hit × List α)) : Nat :=
  ((allNeutrons ps).map fun a => ps.countP (LeavesMark minSize a)).sum

end Verif.Spec
