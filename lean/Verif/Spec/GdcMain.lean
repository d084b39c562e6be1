import Verif.Spec.Gdc
import Verif.Spec.CommandLine
import Verif.Spec.Text

/-!
# Specification of the extractor as a program
-/

namespace Verif.Spec

/-- Letters of the usage text. -/
def gdcValueLetters : List Char := "ioc".toList
def gdcSwitchLetters : List Char := "dv".toList

/-- What a reader of the bytes of the CSV file gets. -/
def readCsv? (bytes : List (BitVec 8)) : Option (List (Int × Nat × Nat × Nat)) :=
  readTable? "chip_id,gdc_value,file_offset,timestamp_ns".toList gdcRow? (bytes.map fun b => Char.ofNat b.toNat)

/-- The rows for the input `file` read in pieces of `mb` megabytes. -/
def expectedRows (ws : List (BitVec 64)) (mb : Nat) : List (Int × Nat × Nat × Nat) :=
  (recordsCut ws 0 (cutEvery (mb * 131072) ws.length)).map fun r => (r.1, r.2.1, r.2.2, 25 * r.2.1)

end Verif.Spec
