import Verif.Model.Tiff
import Verif.Model.Gdc

/-!
# Text written to streams: the spectrum file and the CSV file of the GDC extractor

`operator<<` of `std::ofstream` in the C locale with the default flags: integers in decimal, a `double` as `printf("%g")`
does, with six significant digits (sophiread_core.cpp:616-619, gdc_extractor.cpp:76-90; neither file sets a precision).
-/

namespace Verif

/-- An unsigned integer in decimal. -/
def natText (n : Nat) : List Char := Nat.toDigits 10 n

/-- A signed integer in decimal. -/
def intText (n : Int) : List Char := if n < 0 then '-' :: natText n.natAbs else natText n.natAbs

/-- The six significant digits of a positive number, as an integer with six digits, and the exponent of the first of them
(`%e` with precision 5: exact decimal expansion, rounded to nearest, ties to even; a carry into a seventh digit moves the
exponent). -/
def sixDigits (q : ℚ) : Nat × Int :=
  let x := Int.log 10 q
  let m := (roundNE (q / 10 ^ (x - 5))).toNat
  if m = 1000000 then (100000, x + 1) else (m, x)

/-- `%g` removes zeros at the end of the fraction. -/
def stripZeros (l : List Char) : List Char := (l.reverse.dropWhile (· = '0')).reverse

/-- Point and fraction; without fraction no point. -/
def fracText (l : List Char) : List Char := if stripZeros l = [] then [] else '.' :: stripZeros l

/-- Exponent of `%e`: sign and at least two digits. -/
def expText (x : Int) : List Char :=
  'e' :: (if x < 0 then '-' else '+') ::
    (List.replicate (2 - (natText x.natAbs).length) '0' ++ natText x.natAbs)

/-- `%g` of a positive number: fixed notation for exponents from -4 to 5, scientific notation otherwise. -/
def posText (q : ℚ) : List Char :=
  let m := (sixDigits q).1
  let x := (sixDigits q).2
  if 0 ≤ x ∧ x < 6 then (natText m).take (x.toNat + 1) ++ fracText ((natText m).drop (x.toNat + 1))
  else if -4 ≤ x ∧ x < 0 then '0' :: fracText (List.replicate ((-x).toNat - 1) '0' ++ natText m)
  else (natText m).take 1 ++ fracText ((natText m).drop 1) ++ expText x

/-- A `double`.  Negative zero is not distinguished from zero in this model. -/
def doubleText : F64 → List Char
  | .nan => ['n', 'a', 'n']
  | .inf neg => if neg then ['-', 'i', 'n', 'f'] else ['i', 'n', 'f']
  | .fin q => if q = 0 then ['0'] else if q < 0 then '-' :: posText (-q) else posText q

/-- A line of the spectrum file (sophiread_core.cpp:618-619). -/
def spectraLine (r : F64 × U64) : List Char := doubleText r.1 ++ ',' :: natText r.2.toNat ++ ['\n']

/-- The spectrum file (sophiread_core.cpp:616-620). -/
def spectraText (rows : List (F64 × U64)) : List Char := "shutter_time,counts\n".toList ++ (rows.map spectraLine).flatten

/-- A line of the CSV file (gdc_extractor.cpp:88-90). -/
def gdcLine (r : GdcRecord) : List Char :=
  intText r.chip ++ ',' :: natText r.value.toNat ++ ',' :: natText r.offset ++ ',' :: natText (r.value * 25#64).toNat ++ ['\n']

/-- The CSV file (gdc_extractor.cpp:76, 88-90). -/
def gdcText (rs : List GdcRecord) : List Char :=
  "chip_id,gdc_value,file_offset,timestamp_ns\n".toList ++ (rs.map gdcLine).flatten

end Verif
