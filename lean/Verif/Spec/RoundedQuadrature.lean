import Verif.Model.RoundedQuadrature
import Mathlib.Analysis.SpecialFunctions.Pow.Real

/-!
# Specification: values of the matrix functions and the accuracy of their computation
-/

namespace Imate.Spec

open Imate.Rounded

/-- The value of the matrix function at `y`, in exact arithmetic. -/
noncomputable def exactFunction : Functions.Api → ℝ → ℝ
  | .trace, y => y
  | .traceinv, y => 1 / y
  | .logdet, y => Real.log y
  | .trexp c, y => Real.exp (c * y)
  | .trlinfrac a b c d, y => (a * y + b) / (c * y + d)
  | .eigencount lo hi, y => if lo ≤ y ∧ y ≤ hi then 1 else 0
  | .density mu sigma, y =>
      1 / (sigma * Real.sqrt (2 * Real.pi)) * Real.exp (-((y - mu) / sigma) ^ 2 / 2)

/-- The functions of the C library have relative error at most `e`; `pow` for positive numbers, and for all numbers with the
exponent one. -/
structure LibmAccurate (e : ℝ) (lib : Libm) : Prop where
  pow : ∀ x y, 0 < x ∨ y = 1 → |lib.pow x y - x ^ y| ≤ e * |x ^ y|
  exp : ∀ x, |lib.exp x - Real.exp x| ≤ e * Real.exp x
  log : ∀ x, 0 < x → |lib.log x - Real.log x| ≤ e * |Real.log x|

/-- The relative error of `pow(theta, p)`: that of the library, and that of converting the exponent. -/
noncomputable def powerError (u e p theta : ℝ) : ℝ := (1 + e) * Real.exp (u * |p * Real.log theta|) - 1

/-- The relative error of three roundings of a sum of which one term has the relative error `k`. -/
noncomputable def sumError (u k : ℝ) : ℝ := (1 + k) * (1 + u) ^ 3 - 1

/-- The relative error of the standard score before it is squared, where `y` has the relative error `k`; relative to
`(|y| + |mu|) / sigma`. -/
noncomputable def scoreError (u k : ℝ) : ℝ := (1 + k) * (1 + u) ^ 3 / (1 - u) - 1

/-- The exponent of the Gaussian is at most this far from the exact one: `x` is the score and `t = (|y| + |mu|) / sigma`. -/
noncomputable def gaussianExponentError (u w k x t : ℝ) : ℝ :=
  ((1 + w) ^ 2 * (|x| + scoreError u k * t) ^ 2 - x ^ 2) / 2

/-- The error of the computed value of the function at a number with the relative error `k`; `y` is the exact number, `u` the
unit roundoff of `DataType`, `w` that of the wider type, `e` the relative error of the library. -/
noncomputable def functionError (u w e k : ℝ) : Functions.Api → ℝ → ℝ
  | .trace, y => k * |y|
  | .traceinv, y => ((1 + u) * (1 + w) / (1 - k) - 1) * |1 / y|
  | .logdet, y => e * |Real.log y| + (1 + e) * (k / (1 - k))
  | .trexp c, y => ((1 + e) * Real.exp (((1 + k) * (1 + u) ^ 2 - 1) * |c * y|) - 1) * Real.exp (c * y)
  | .trlinfrac a b c d, y =>
      (1 + u) * ((|a * y + b| + sumError u k * (|a * y| + |b|)) / (|c * y + d| - sumError u k * (|c * y| + |d|))) -
        |a * y + b| / |c * y + d|
  | .eigencount _ _, _ => 0
  | .density mu sigma, y =>
      ((1 + u) * (1 + w) ^ 6 * (1 + e) / (1 - u) *
        Real.exp (gaussianExponentError u w k ((y - mu) / sigma) ((|y| + |mu|) / sigma)) - 1) *
          exactFunction (.density mu sigma) y

/-- The numbers at which the bound holds: the function has a value there and the numbers nearby too; for `eigencount` the
number is not so near to a bound of the interval that rounding decides on which side it lies. -/
def WellDefined (u k : ℝ) : Functions.Api → ℝ → Prop
  | .trace, _ => True
  | .traceinv, y => y ≠ 0
  | .logdet, y => 0 < y
  | .trexp _, _ => True
  | .trlinfrac _ _ c d, y => sumError u k * (|c * y| + |d|) < |c * y + d|
  | .eigencount lo hi, y => k = 0 ∨ (k * |y| < |y - lo| ∧ k * |y| < |y - hi|)
  | .density _ sigma, _ => 0 < sigma

end Imate.Spec
