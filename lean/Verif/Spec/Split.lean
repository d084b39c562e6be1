import Verif.Spec.Arrival
import Verif.Spec.ScanAny

/-!
# Specification vocabulary: a measurement that lies in several files
-/

namespace Verif.Spec

open Verif

/-- No header announces packets behind the end. -/
def Closed : List U64 → Prop
  | [] => True
  | w :: ws => (StartsTPX w → field w 48 16 / 8 ≤ ws.length) ∧ Closed ws

instance : (ws : List U64) → Decidable (Closed ws)
  | [] => .isTrue trivial
  | _ :: ws => @instDecidableAnd _ _ _ (instDecidableClosed ws)

/-- A file is divided into `a` and `b` between two pieces of `n` bytes, or it is one piece and divided between two chunks. -/
def Divided (n : Nat) (a b : Bytes) : Prop :=
  n ∣ a.length ∨ a.length % 8 = 0 ∧ Closed (wordsOf a) ∧ a.length + b.length ≤ n

/-- All files are divided from the rest in that way. -/
def AllDivided (n : Nat) : List Bytes → Prop
  | [] => True
  | a :: l => Divided n a l.flatten ∧ AllDivided n l

/-- The packets of a file read in pieces of `n` bytes. -/
def packetsRead (n : Nat) (file : Bytes) : List U64 := (fileChunks n file).flatMap Chunk.packets

/-- Every hit packet of the file comes after a global time and a trigger of the same file. -/
def DatesItself (n : Nat) (file : Bytes) : Prop :=
  ∀ a h b, packetsRead n file = a ++ h :: b → IsHitPacket h → GivesTimes a

end Verif.Spec
