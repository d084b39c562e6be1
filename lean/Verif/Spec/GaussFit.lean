import Verif.Spec.Peak
import Mathlib.Analysis.SpecialFunctions.Log.Basic

/-!
# Specification vocabulary for the Gaussian fit

A Gaussian peak of width `σ` at `(p, q)` satisfies `x² + y² = 2p x + 2q y - 2σ² log t + d`.  The fit looks for the numbers in front of
`x`, `y`, `log t` and 1 that make the sum of the squared differences between both sides least; in real numbers.
-/

namespace Verif.Spec

open Verif

/-- A hit as the fit sees it: its place and its signal above the threshold. -/
structure Sample where
  x : ℝ
  y : ℝ
  t : ℝ

/-- The numbers in front of `x`, `y`, `log t` and 1. -/
@[ext] structure Coeffs where
  a : ℝ
  b : ℝ
  c : ℝ
  d : ℝ

/-- The right side. -/
noncomputable def Coeffs.value (v : Coeffs) (s : Sample) : ℝ := v.a * s.x + v.b * s.y + v.c * Real.log s.t + v.d

noncomputable def misfit (v : Coeffs) (S : List Sample) : ℝ := (S.map fun s => (s.x ^ 2 + s.y ^ 2 - v.value s) ^ 2).sum

/-- A solution of the problem of least squares. -/
def IsBest (v : Coeffs) (S : List Sample) : Prop := ∀ w, misfit v S ≤ misfit w S

/-- All solutions give the same place. -/
def Determined (S : List Sample) : Prop := ∀ v w, IsBest v S → IsBest w S → v.a = w.a ∧ v.b = w.b

/-- The samples lie on a Gaussian peak. -/
def OnGaussian (p q σ A : ℝ) (S : List Sample) : Prop :=
  0 < σ ∧ 0 < A ∧ ∀ s ∈ S, s.t = A * Real.exp (-((s.x - p) ^ 2 + (s.y - q) ^ 2) / (2 * σ ^ 2))

/-- The samples lie on a circle around `(p, q)`. -/
def OnCircle (p q r : ℝ) (S : List Sample) : Prop := ∀ s ∈ S, (s.x - p) ^ 2 + (s.y - q) ^ 2 = r ^ 2

def Sample.shift (u w : ℝ) (s : Sample) : Sample := ⟨s.x + u, s.y + w, s.t⟩

/-- Mirrored at the line `x = c`. -/
def Sample.mirror (c : ℝ) (s : Sample) : Sample := ⟨2 * c - s.x, s.y, s.t⟩

/-- The samples of hits whose signal counts above `m`. -/
noncomputable def samples (m : ℚ) (M : List Hit) : List Sample := M.map fun h => ⟨h.x, h.y, (h.tot : ℝ) - m⟩

/-- The two numbers of a solver are right up to `ε`. -/
def SolvesWithin (ε : ℝ) (sol : F64 × F64) (S : List Sample) : Prop :=
  ∃ (v : Coeffs) (a b : ℚ), IsBest v S ∧ sol = (.fin a, .fin b) ∧ |(a : ℝ) - v.a| ≤ ε ∧ |(b : ℝ) - v.b| ≤ ε

end Verif.Spec
