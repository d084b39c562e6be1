import Verif.Model.Gui
import Mathlib.Data.List.Count

/-!
# Specification vocabulary for the picture of the graphical program
-/

namespace Verif.Spec

open Verif

/-- The event, turned in double precision, lies in column `i` and row `j` of the picture. -/
def InCell (cos sin : F64) (i j : Nat) (e : Neutron) : Prop :=
  ∃ x y : ℚ, F64.sub (F64.mul e.x cos) (F64.mul e.y sin) = .fin x ∧ F64.add (F64.mul e.x sin) (F64.mul e.y cos) = .fin y ∧
    (i : ℚ) ≤ x ∧ x < i + 1 ∧ (j : ℚ) ≤ y ∧ y < j + 1

open Classical in
/-- Number of events in a cell. -/
noncomputable def cellCount (cos sin : F64) (i j : Nat) (es : List Neutron) : Nat :=
  es.countP fun e => decide (InCell cos sin i j e)

/-- The action is a dialog for reading that was cancelled. -/
def IsCancelledRead : GuiAction → Prop
  | .read .cancelled => True
  | _ => False

/-- The events of all files read during the actions, one file after the other. -/
def eventsRead (solve : List GaussRow → F64 × F64) (cos sin : F64) : Gui → List GuiAction → List Neutron
  | _, [] => []
  | g, a :: as =>
    match g.act solve cos sin a with
    | .ok r =>
      (match a with
        | .read (.file _) => if g.timer then [] else r.1.events
        | _ => []) ++ eventsRead solve cos sin r.1 as
    | _ => []

end Verif.Spec
