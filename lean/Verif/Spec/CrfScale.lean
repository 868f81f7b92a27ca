import Mathlib.Analysis.Calculus.Deriv.Basic
import Mathlib.MeasureTheory.Integral.IntervalIntegral.Basic
import Mathlib.Analysis.SpecialFunctions.Pow.Real

/-! # The curvature of the graph of a function -/

namespace Imate.Interp

/-- The curvature of the graph of `f` at `(x, f x)`. -/
noncomputable def curvature (f : ℝ → ℝ) (x : ℝ) : ℝ :=
  |deriv (deriv f) x| / (1 + deriv f x ^ 2) ^ (3 / 2 : ℝ)

/-- The integral of the square of the curvature over the graph of `f` between `-1` and `1`, with respect to its length. -/
noncomputable def bending (f : ℝ → ℝ) : ℝ :=
  ∫ x in (-1)..1, curvature f x ^ 2 * Real.sqrt (1 + deriv f x ^ 2)

end Imate.Interp
