import Mathlib.Data.Int.Log
import Mathlib.Algebra.Order.Floor.Ring
import Mathlib.Data.Rat.Floor
import Mathlib.Algebra.Order.Archimedean.Basic

/-!
# IEEE-754 binary64

C++ `double` as the source uses it: binary64, round to nearest, ties to even.  Finite values are
rationals; `-0` is identified with `0` (no modelled code divides by a negative zero or inspects the
sign of a zero).  The build's `-ffast-math` (sophiread/CMakeLists.txt:62) is not modelled; see
DESIGN.md.
-/

namespace Verif

/-- Nearest integer, ties to even (IEEE-754 roundTiesToEven on an integer grid). -/
def roundNE (x : ℚ) : ℤ :=
  let f := ⌊x⌋
  let r := x - f
  if r < 1 / 2 then f
  else if 1 / 2 < r then f + 1
  else if f % 2 = 0 then f else f + 1

/-- Exponent of the unit in the last place of the binary64 grid around `q ≠ 0`
(53 bits of significand, least exponent -1074). -/
def ulpExp (q : ℚ) : ℤ := max (Int.log 2 |q| - 52) (-1074)

/-- Rounding to the binary64 grid, before the overflow check. -/
def rndQ (q : ℚ) : ℚ :=
  if q = 0 then 0 else (roundNE (q / 2 ^ ulpExp q) : ℚ) * 2 ^ ulpExp q

/-- A `double`. -/
inductive F64 where
  | nan
  | inf (neg : Bool)
  | fin (q : ℚ)
  deriving DecidableEq, Repr

namespace F64

/-- Round an exact result to a `double`, overflowing to infinity. -/
def ofRat (q : ℚ) : F64 :=
  let v := rndQ q
  if (2 : ℚ) ^ (1024 : ℤ) ≤ |v| then .inf (decide (q < 0)) else .fin v

/-- Conversion of an integer (`int`, `unsigned`, `unsigned long long`, …) to `double`. -/
def ofInt (n : ℤ) : F64 := ofRat n

def neg : F64 → F64
  | .nan => .nan
  | .inf s => .inf (!s)
  | .fin q => .fin (-q)

def add : F64 → F64 → F64
  | .nan, _ => .nan
  | _, .nan => .nan
  | .inf s, .inf t => if s = t then .inf s else .nan
  | .inf s, .fin _ => .inf s
  | .fin _, .inf t => .inf t
  | .fin a, .fin b => ofRat (a + b)

def sub (a b : F64) : F64 := add a (neg b)

def mul : F64 → F64 → F64
  | .nan, _ => .nan
  | _, .nan => .nan
  | .inf s, .inf t => .inf (s != t)
  | .inf s, .fin b => if b = 0 then .nan else .inf (s != decide (b < 0))
  | .fin a, .inf t => if a = 0 then .nan else .inf (decide (a < 0) != t)
  | .fin a, .fin b => ofRat (a * b)

/-- Division; a zero divisor counts as `+0`. -/
def div : F64 → F64 → F64
  | .nan, _ => .nan
  | _, .nan => .nan
  | .inf _, .inf _ => .nan
  | .inf s, .fin b => .inf (s != decide (b < 0))
  | .fin _, .inf _ => .fin 0
  | .fin a, .fin b =>
    if b = 0 then (if a = 0 then .nan else .inf (decide (a < 0))) else ofRat (a / b)

/-- `std::abs`. -/
def abs : F64 → F64
  | .nan => .nan
  | .inf _ => .inf false
  | .fin q => .fin |q|

/-- `a < b`; false if either is NaN. -/
def lt : F64 → F64 → Bool
  | .nan, _ => false
  | _, .nan => false
  | .inf s, .inf t => s && !t
  | .inf s, .fin _ => s
  | .fin _, .inf t => !t
  | .fin a, .fin b => decide (a < b)

/-- `a <= b`; false if either is NaN. -/
def le : F64 → F64 → Bool
  | .nan, _ => false
  | _, .nan => false
  | .inf s, .inf t => s || !t
  | .inf s, .fin _ => s
  | .fin _, .inf t => !t
  | .fin a, .fin b => decide (a ≤ b)

/-- `std::isfinite`. -/
def isFinite : F64 → Bool
  | .fin _ => true
  | _ => false

/-- Truncation toward zero. -/
def truncQ (q : ℚ) : ℤ := if 0 ≤ q then ⌊q⌋ else ⌈q⌉

/-- `std::round`: nearest integer, halves away from zero. -/
def round : F64 → F64
  | .fin q => .fin (if 0 ≤ q then ⌊q + 1 / 2⌋ else ⌈q - 1 / 2⌉ : ℤ)
  | x => x

/-- Conversion `double → unsigned long long`; `none` is undefined behaviour (value not representable). -/
def toU64? : F64 → Option ℕ
  | .fin q => let t := truncQ q; if 0 ≤ t ∧ t < 2 ^ 64 then some t.toNat else none
  | _ => none

/-- Conversion `double → int`; `none` is undefined behaviour (value not representable). -/
def toI32? : F64 → Option ℤ
  | .fin q => let t := truncQ q; if -2 ^ 31 ≤ t ∧ t < 2 ^ 31 then some t else none
  | _ => none

end F64
end Verif
