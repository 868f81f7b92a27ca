import Mathlib.MeasureTheory.Integral.Bochner.Basic
import Mathlib.MeasureTheory.Integral.Bochner.Set
import Mathlib.MeasureTheory.Measure.Lebesgue.Basic
import Mathlib.Analysis.SpecialFunctions.Pow.Real
import Mathlib.Analysis.SpecialFunctions.Gamma.Basic

/-!
# The modified Bessel function of the second kind and the Matern correlation
-/

namespace Imate.Spec

open Real MeasureTheory

/-- The modified Bessel function of the second kind, by its integral representation
`K_ν(x) = 1/2 (x/2)^ν ∫ exp(-t - x²/(4t)) t^(-ν-1) dt` (DLMF 10.32.10). -/
noncomputable def besselK (nu x : ℝ) : ℝ :=
  1 / 2 * (x / 2) ^ nu * ∫ t in Set.Ioi (0 : ℝ), exp (-t - x ^ 2 / (4 * t)) * t ^ (-nu - 1)

/-- The documented Matern correlation at the distance `r > 0`. -/
noncomputable def matern (nu r : ℝ) : ℝ :=
  2 ^ (1 - nu) / Gamma nu * (√(2 * nu) * r) ^ nu * besselK nu (√(2 * nu) * r)

end Imate.Spec
