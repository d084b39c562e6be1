import Mathlib.Data.Rat.Defs
import Mathlib.Algebra.Order.Field.Rat

/-!
# Reading tables of numbers

A reader for text files of lines with separated fields, the way an analysis program would read them.
-/

namespace Verif.Spec

/-- The fields between separators. -/
def fields (sep : Char) : List Char → List (List Char)
  | [] => [[]]
  | c :: cs =>
    if c = sep then [] :: fields sep cs
    else match fields sep cs with
      | [] => [[c]]
      | f :: fs => (c :: f) :: fs

def digitVal? (c : Char) : Option Nat := if '0' ≤ c ∧ c ≤ '9' then some (c.toNat - '0'.toNat) else none

/-- Value of a string of digits, continuing from `acc`; nothing else may occur. -/
def digitsVal? : Nat → List Char → Option Nat
  | acc, [] => some acc
  | acc, c :: cs => match digitVal? c with
    | some d => digitsVal? (10 * acc + d) cs
    | none => none

/-- An unsigned integer: at least one digit. -/
def readNat? : List Char → Option Nat
  | [] => none
  | cs => digitsVal? 0 cs

/-- A signed integer. -/
def readInt? : List Char → Option Int
  | [] => none
  | c :: cs => if c = '-' then ((readNat? cs).map fun n : Nat => -(n : Int)) else (readNat? (c :: cs)).map fun n : Nat => (n : Int)

/-- Digits, and possibly a point and digits: the integer made of all digits, and the number of digits after the point. -/
def readMantissa? (cs : List Char) : Option (Nat × Nat) :=
  match fields '.' cs with
  | [a] => (readNat? a).map fun n => (n, 0)
  | [a, b] => if a = [] ∨ b = [] then none else (readNat? (a ++ b)).map fun n => (n, b.length)
  | _ => none

/-- An exponent: sign and digits. -/
def readExponent? : List Char → Option Int
  | [] => none
  | c :: cs =>
    if c = '-' then (readNat? cs).map fun n : Nat => -(n : Int)
    else if c = '+' then (readNat? cs).map fun n : Nat => (n : Int)
    else none

/-- A number without sign: mantissa, and possibly `e` and an exponent. -/
def readUnsigned? (cs : List Char) : Option ℚ :=
  match fields 'e' cs with
  | [a] => (readMantissa? a).map fun m => (m.1 : ℚ) / 10 ^ m.2
  | [a, b] => match readMantissa? a, readExponent? b with
    | some m, some e => some ((m.1 : ℚ) / 10 ^ m.2 * 10 ^ e)
    | _, _ => none
  | _ => none

/-- A decimal number. -/
def readDecimal? : List Char → Option ℚ
  | [] => none
  | c :: cs => if c = '-' then (readUnsigned? cs).map fun q => -q else readUnsigned? (c :: cs)

/-- Read the rows of a file with a given first line; every line ends with a line feed. -/
def readTable? {α : Type} (header : List Char) (row : List (List Char) → Option α) (text : List Char) : Option (List α) :=
  match fields '\n' text with
  | [] => none
  | h :: ls => if h = header ∧ ls.getLast? = some [] then (ls.dropLast).mapM fun l => row (fields ',' l) else none

/-- A row of the spectrum: time and count. -/
def spectrumRow? : List (List Char) → Option (ℚ × Nat)
  | [a, b] => match readDecimal? a, readNat? b with
    | some q, some n => some (q, n)
    | _, _ => none
  | _ => none

/-- A row of the table of global times. -/
def gdcRow? : List (List Char) → Option (Int × Nat × Nat × Nat)
  | [a, b, c, d] => match readInt? a, readNat? b, readNat? c, readNat? d with
    | some i, some n, some m, some k => some (i, n, m, k)
    | _, _, _, _ => none
  | _ => none

/-- `d` is `q` rounded to six significant decimal digits. -/
def SixSignificant (q d : ℚ) : Prop :=
  (q = 0 ∧ d = 0) ∨
    ∃ (m : Int) (e : Int), 100000 ≤ |m| ∧ |m| ≤ 1000000 ∧ d = m * 10 ^ e ∧ |d - q| ≤ 10 ^ e / 2

end Verif.Spec
