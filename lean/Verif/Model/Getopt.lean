import Verif.Model.Config

/-!
# `getopt` and numbers on the command line

Shared by the three command line programs (SophireadCLI/src/sophiread.cpp:91, main_gdc_extractor.cpp:33,
venus_auto_reducer.cpp:61).
-/

namespace Verif

abbrev Arg := List Char

/-- What a call of `getopt` returns before `-1`. -/
inductive OptItem where
  | flag (c : Char)
  | arg (c : Char) (v : Arg)
  /-- `'?'`: unknown letter or missing argument -/
  | bad (c : Char)
  deriving DecidableEq

/-- The letters of one word after the dash; `al` are the letters with an argument, `fl` those without.  The second
component is a letter whose argument is the next word. -/
def getoptWord (al fl : List Char) : List Char → List OptItem × Option Char
  | [] => ([], none)
  | c :: cs =>
    if c ∈ fl then (.flag c :: (getoptWord al fl cs).1, (getoptWord al fl cs).2)
    else if c ∈ al then (if cs = [] then ([], some c) else ([.arg c cs], none))
    else (.bad c :: (getoptWord al fl cs).1, (getoptWord al fl cs).2)

/-- All results of `getopt` (glibc, without `POSIXLY_CORRECT`) on the words after the program name
(sophiread.cpp:91, main_gdc_extractor.cpp:33, venus_auto_reducer.cpp:61): words that are no options are passed over, `--`
ends the options.  The first argument is the letter that still waits for its argument. -/
def getoptGo (al fl : List Char) : Option Char → List Arg → List OptItem
  | some c, [] => [.bad c]
  | some c, a :: as => .arg c a :: getoptGo al fl none as
  | none, [] => []
  | none, a :: as =>
    if a = ['-', '-'] then []
    else match a with
      | '-' :: c :: cs => (getoptWord al fl (c :: cs)).1 ++ getoptGo al fl (getoptWord al fl (c :: cs)).2 as
      | _ => getoptGo al fl none as

/-- `std::stoull`: white space, sign, digits, and anything after them; a minus sign negates in 64 bits. -/
def stoull (s : List Char) : Res Nat :=
  let (neg, l) := takeSign (s.dropWhile isSpace)
  let d := l.takeWhile isDigit
  if d = [] then .throws "stoull"
  else if 2 ^ 64 ≤ digitsVal d then .throws "stoull"
  else .ok (if neg then (2 ^ 64 - digitsVal d) % 2 ^ 64 else digitsVal d)

/-- `std::stoi`: white space, sign, digits, and anything after them; values outside `int` throw. -/
def stoi (s : List Char) : Res Int :=
  let (neg, l) := takeSign (s.dropWhile isSpace)
  let d := l.takeWhile isDigit
  let v : Int := if neg then -(digitsVal d : Int) else digitsVal d
  if d = [] then .throws "stoi"
  else if v < -2 ^ 31 ∨ 2 ^ 31 ≤ v then .throws "stoi"
  else .ok v

end Verif
