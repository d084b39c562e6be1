import Verif.Spec.Detector
import Verif.Spec.Cut

/-!
# Specification of what is left of a measurement whose file is read in pieces
-/

namespace Verif.Spec

open Verif

/-- The first signals whose packets all fit. -/
def keepSignals : Nat → List Signal → List Signal
  | _, [] => []
  | room, s :: ss => if s.packets.length ≤ room then s :: keepSignals (room - s.packets.length) ss else []

/-- The signals left when the file is cut every `n` words and only the packets in the same piece as the header of their readout count; `o` is the
number of words before the first readout. -/
def keptReadouts (n : Nat) : Nat → List Readout → List Readout
  | _, [] => []
  | o, r :: rs => ⟨r.chip, keepSignals (n - o % n - 1) r.signals⟩ :: keptReadouts n (o + 1 + r.packets.length) rs

/-- The signals that are lost. -/
def lostSignals (n : Nat) : Nat → List Readout → List Signal
  | _, [] => []
  | o, r :: rs => r.signals.drop (keepSignals (n - o % n - 1) r.signals).length ++ lostSignals n (o + 1 + r.packets.length) rs

/-- A firing pixel. -/
def Signal.IsPixel : Signal → Prop
  | .pixel .. => True
  | _ => False

end Verif.Spec
