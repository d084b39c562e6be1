import Verif.Model.Reducer

/-!
# Specification vocabulary for the automatic reducer

Uses from the model only directory entries and the record of what was done.
-/

namespace Verif.Spec

open Verif

/-- The name of a raw data file: something followed by `.tpx3`. -/
def RawName (n : Path) : Prop := ∃ s, s ≠ [] ∧ n = s ++ ['.', 't', 'p', 'x', '3']

/-- A raw data file in a listing. -/
def RawFile (e : DirEntry) : Prop := e.regular = true ∧ RawName e.name

/-- The file that ends a run: something followed by `.nxs.h5`. -/
def EndFile (e : DirEntry) : Prop := e.regular = true ∧ ∃ s, s ≠ [] ∧ e.name = s ++ ['.', 'n', 'x', 's', '.', 'h', '5']

/-- The file `n` has been processed with success. -/
def Succeeded (log : List RedEvent) (n : Path) : Prop := ∃ data im, RedEvent.done n data im ∈ log

/-- The file `n` has been tried. -/
def Tried (log : List RedEvent) (n : Path) : Prop :=
  Succeeded log n ∨ RedEvent.failed n ∈ log

/-- The images of the files processed with success, in order. -/
def successes : List RedEvent → List Stack
  | [] => []
  | .done _ _ im :: l => im :: successes l
  | .failed _ :: l => successes l

end Verif.Spec
