import Verif.Spec.Bessel
import Mathlib.Analysis.InnerProductSpace.PiL2

/-!
# The documented correlation matrix
-/

namespace Imate.Spec

open Real

/-- The Matern correlation at the distance `r ≥ 0`; from the smoothness 100 on it is the Gaussian function. -/
noncomputable def maternCorrelation (nu r : ℝ) : ℝ :=
  if r = 0 then 1 else if nu < 100 then matern nu r else exp (-(1 / 2) * r ^ 2)

/-- The correlation matrix of points `x`. -/
noncomputable def correlationMatrix {n d : ℕ} (nu scale : ℝ) (x : Fin n → EuclideanSpace ℝ (Fin d)) :
    Matrix (Fin n) (Fin n) ℝ :=
  Matrix.of fun i j => maternCorrelation nu (dist (x i) (x j) / scale)

end Imate.Spec
