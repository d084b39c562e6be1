import Verif.Model.GuiFiles
import Verif.Spec.DisplayWindow
import Verif.Spec.Gui
import Verif.Spec.LegacySave
import Mathlib.Algebra.BigOperators.Group.Finset.Basic

/-!
# What the files of the graphical program should say
-/

namespace Verif.Spec

open Verif

/-- A file of 512 rows of 512 doubles: number `i` of row `j` is the number of events in that cell. -/
def IsGuiPictureOf (cos sin : F64) (f : Bytes) (es : List Neutron) : Prop :=
  f.length = 8 * (512 * 512) ∧ ∀ i j, i < 512 → j < 512 → doubleAt f (512 * j + i) = (cellCount cos sin i j es : ℚ)

/-- The turned event lies in the picture. -/
def InFrame (cos sin : F64) (e : Neutron) : Prop :=
  ∃ x y : ℚ, F64.sub (F64.mul e.x cos) (F64.mul e.y sin) = .fin x ∧ F64.add (F64.mul e.x sin) (F64.mul e.y cos) = .fin y ∧
    0 ≤ x ∧ x < 512 ∧ 0 ≤ y ∧ y < 512

open Classical in
/-- Number of events in the picture. -/
noncomputable def framed (cos sin : F64) (es : List Neutron) : Nat := es.countP fun e => decide (InFrame cos sin e)

/-- The file can be opened and there is room for the picture. -/
def HasRoom (env : SaveEnv) (p : Path) : Prop := env.opens p = true ∧ 8 * (512 * 512) ≤ env.room p

/-- The names that the user gives in a session. -/
def namesGiven : List GuiDeed → List Path
  | [] => []
  | .save p e _ :: as => p.toList ++ e.toList ++ namesGiven as
  | _ :: as => namesGiven as

/-- The files that the user reads, as actions of the window. -/
def readings : List GuiDeed → List GuiAction
  | [] => []
  | .read c :: as => .read c :: readings as
  | _ :: as => readings as

end Verif.Spec
