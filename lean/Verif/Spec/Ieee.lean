import Mathlib.Data.Rat.Cast.Order
import Mathlib.Data.EReal.Inv
import Verif.Model.F64

/-!
# Specification of binary64

From IEEE 754-2008: the format (table 3.5: p = 53, emax = 1023), rounding to nearest with ties to even (4.3.1), infinities and invalid
operations (6.1, 7.2, 7.3).  Nothing of the model's rounding is used.
-/

namespace Verif.Spec

open Verif

/-- The finite values of the format: 53 bits of significand, exponents of the last place from -1074 to 971. -/
def IsBinary64 (d : ℚ) : Prop := ∃ m e : ℤ, d = m * 2 ^ e ∧ |m| < 2 ^ 53 ∧ -1074 ≤ e ∧ e ≤ 971

/-- A value whose significand has the last bit 0: normal numbers have the significand with 53 bits, subnormal ones the least exponent. -/
def IsEven (d : ℚ) : Prop :=
  ∃ m e : ℤ, d = m * 2 ^ e ∧ |m| < 2 ^ 53 ∧ -1074 ≤ e ∧ e ≤ 971 ∧ (2 ^ 52 ≤ |m| ∨ e = -1074) ∧ m % 2 = 0

/-- A value nearest to `q`; of two that are equally near, the even one. -/
def IsNearestEven (q d : ℚ) : Prop :=
  IsBinary64 d ∧ ∀ d', IsBinary64 d' → |d - q| ≤ |d' - q| ∧ (|d - q| = |d' - q| → d' ≠ d → IsEven d)

/-- From here on results are infinite: half a last place above the largest value. -/
def overflowBound : ℚ := 2 ^ (1024 : ℤ) - 2 ^ (970 : ℤ)

/-- The number a `double` stands for, if it is one. -/
noncomputable def extended : F64 → Option EReal
  | .nan => none
  | .inf false => some ⊤
  | .inf true => some ⊥
  | .fin q => some ((q : ℝ) : EReal)

/-- `n` is `q` without its fraction. -/
def IsTruncated (q : ℚ) (n : ℤ) : Prop := |(n : ℚ)| ≤ |q| ∧ |q| < |(n : ℚ)| + 1 ∧ 0 ≤ (n : ℚ) * q

/-- `n` is the integer nearest to `q`, of two equally near the one away from zero. -/
def IsRounded (q : ℚ) (n : ℤ) : Prop := |(n : ℚ) - q| ≤ 1 / 2 ∧ (|(n : ℚ) - q| = 1 / 2 → |q| < |(n : ℚ)|)

end Verif.Spec
