import Verif.Spec.Stream

/-!
# Packets of any words
-/

namespace Verif.Spec

open Verif

/-- The packets of any words, each with its chip: behind every word that starts with `TPX` as many words as it announces, as far as they
are there. -/
def announcedPackets : List U64 → List (Int × U64)
  | [] => []
  | w :: ws => (if StartsTPX w then (ws.take (field w 48 16 / 8)).map (headerChipId w, ·) else []) ++ announcedPackets ws

/-- No announced packet starts with `TPX`. -/
def NoOverrun : List U64 → Prop
  | [] => True
  | w :: ws => (StartsTPX w → ∀ v ∈ ws.take (field w 48 16 / 8), ¬ StartsTPX v) ∧ NoOverrun ws

end Verif.Spec
