import Verif.Model.Base
import Verif.Spec.Text

/-! # Reading the table of events of the memory-mapped program -/

namespace Verif.Spec

open Verif

/-- The characters of a file: the byte is the code. -/
def fileText (b : Bytes) : List Char := b.map fun x => Char.ofNat x.toNat

/-- A row of the table: column, row, time, number of hits, charge. -/
def eventRow? : List (List Char) → Option (ℚ × ℚ × ℚ × Int × ℚ)
  | [x, y, t, n, c] => match readDecimal? x, readDecimal? y, readDecimal? t, readInt? n, readDecimal? c with
    | some x, some y, some t, some n, some c => some (x, y, t, n, c)
    | _, _, _, _, _ => none
  | _ => none

end Verif.Spec
