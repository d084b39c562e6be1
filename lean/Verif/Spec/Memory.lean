import Verif.Spec.AnyFile
import Verif.Model.Memory

/-!
# What is left of a file if allocations fail
-/

namespace Verif.Spec

open Verif

/-- The times after chunks. -/
def timesAfter (m : Mode) : Times → List Chunk → Times
  | t, [] => t
  | t, k :: ks => timesAfter m (match m with | .gdc => timesG t k.packets | .tdc => timesT t k.packets) ks

/-- How many of `n` batches of a chunk have their hits written. -/
def hitsKept (n : Nat) : MemFault → Nat
  | .process => 0
  | .output i .hits => i
  | .output i _ => i + 1
  | _ => n

/-- How many have their neutrons written. -/
def eventsKept (n : Nat) : MemFault → Nat
  | .process => 0
  | .output i .images => i + 1
  | .output i _ => i
  | _ => n

/-- How many are counted in the totals and the images. -/
def fullyKept (n : Nat) : MemFault → Nat
  | .process => 0
  | .output i _ => i
  | _ => n

/-- The hits of the batches that are kept, for pieces of a file each with its failure.  A piece in which no batches were found is
as if it were not in the file. -/
def survive (m : Mode) (keep : Nat → MemFault → Nat) : Times → List (Bytes × MemFault) → List (List Hit)
  | _, [] => []
  | t, (p, f) :: rest =>
    if f = .find then survive m keep t rest
    else (chunkHits m t (announced (wordsOf p))).take (keep (announced (wordsOf p)).length f) ++
      survive m keep (timesAfter m t (announced (wordsOf p))) rest

/-- The failures of the rounds `k`, `k + 1`, … that got past reading, as far as the first `r` rounds. -/
def passed (mf : Nat → MemFault) (k r : Nat) : List MemFault := ((List.range' k r).map mf).filter fun f => f ≠ .read

end Verif.Spec
