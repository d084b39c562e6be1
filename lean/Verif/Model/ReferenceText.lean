import Verif.Model.Reference
import Verif.Model.Text

/-!
# The text file of the manufacturer's converter (resources/manufacture/tpx3cam.cpp)

`operator<<` of a `double` after `setprecision(p)` is `printf("%.*g", p, …)`; `Model/Text.lean` has the default precision 6.
The precision is given here as the number `k` of digits after the first one.
-/

namespace Verif

/-- `k + 1` significant digits of a positive number, as an integer, and the exponent of the first of them (as `sixDigits`). -/
def sigDigits (k : Nat) (q : ℚ) : Nat × Int :=
  let x := Int.log 10 q
  let m := (roundNE (q / 10 ^ (x - k))).toNat
  if m = 10 ^ (k + 1) then (10 ^ k, x + 1) else (m, x)

/-- `%.*g` of a positive number with `k + 1` digits (as `posText`). -/
def posTextPrec (k : Nat) (q : ℚ) : List Char :=
  let m := (sigDigits k q).1
  let x := (sigDigits k q).2
  if 0 ≤ x ∧ x < k + 1 then (natText m).take (x.toNat + 1) ++ fracText ((natText m).drop (x.toNat + 1))
  else if -4 ≤ x ∧ x < 0 then '0' :: fracText (List.replicate ((-x).toNat - 1) '0' ++ natText m)
  else (natText m).take 1 ++ fracText ((natText m).drop 1) ++ expText x

/-- A `double` with `k + 1` digits (as `doubleText`). -/
def doubleTextPrec (k : Nat) : F64 → List Char
  | .nan => ['n', 'a', 'n']
  | .inf neg => if neg then ['-', 'i', 'n', 'f'] else ['i', 'n', 'f']
  | .fin q => if q = 0 then ['0'] else if q < 0 then '-' :: posTextPrec k (-q) else posTextPrec k q

/-- A line of the text file (tpx3cam.cpp:105, 158-161, 185-188): every number that is no integer comes after
`setprecision(15)`. -/
def refText : RefLine → List Char
  | .trigger s => doubleTextPrec 14 s ++ ['\n']
  | .hit x y s tot =>
    intText x ++ "  ".toList ++ intText y ++ "  ".toList ++ doubleTextPrec 14 s ++ "  ".toList ++ doubleTextPrec 14 tot ++ ['\n']
  | .global s => " Global time: ".toList ++ doubleTextPrec 14 s ++ ['\n']

/-- The program on a file that can be opened, with a value `v` of the variable `spidrTime` that is never set before the first hit
(tpx3cam.cpp:33, 45-203).  Reading it is undefined in C++; compiled programs find some value there. -/
def refRunFrom (v : BitVec 16) (file : Bytes) : Res RefState :=
  if file.length % 8 ≠ 0 then .ub .oobWrite
  else refLoop (wordsOf file) (file.length / 8 + 1) 0 { RefState.init with spidr := some v }

/-- What the program does with the files (tpx3cam.cpp:20-210): without an argument nothing (lines 22-24); otherwise it empties or creates
`converted.txt` (line 30), then opens the input (line 32), of which a missing one gives no lines (lines 42-43), and writes the lines.
`none`: no file.  Names are compared as text, and the text file can be written. -/
def refMain (v : BitVec 16) (args : List (List Char)) (files : List Char → Option Bytes) : Res (Option (List Char)) :=
  match args with
  | [] => .ok none
  | name :: _ =>
    match (if name = "converted.txt".toList then some [] else files name) with
    | none => .ok (some [])
    | some bytes => (refRunFrom v bytes).bind fun s => .ok (some (s.lines.map refText).flatten)

end Verif
