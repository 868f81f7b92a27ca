import Verif.Model.Interpolator
import Mathlib.MeasureTheory.Integral.IntervalIntegral.Basic
import Mathlib.Analysis.SpecialFunctions.Pow.Real

/-!
# The scale of the interpolation with rational Chebyshev functions

With `scale=None` the scale minimizes `curvature_integral`.  Exact real arithmetic; `quad` is the integral.
-/

namespace Imate.Interp

/-- `eval_chebyu(j, x)` -/
noncomputable def chebyu (j : ℕ) (x : ℝ) : ℝ := (Polynomial.Chebyshev.U ℝ (j : ℤ)).eval x

/-- `d1T` (_chebyshev_rational_functions_method.py:550-556), called with `n ≥ 1`. -/
noncomputable def d1T (n : ℕ) (x : ℝ) : ℝ := n * chebyu (n - 1) x

/-- `d2T` (_chebyshev_rational_functions_method.py:562-580), called with `n ≥ 1`. -/
noncomputable def d2T (n : ℕ) (x : ℝ) : ℝ :=
  if x = 1 then ((n : ℝ) ^ 4 - (n : ℝ) ^ 2) / 3
  else if x = -1 then (-1) ^ n * ((n : ℝ) ^ 4 - (n : ℝ) ^ 2) / 3
  else n * (n * chebyt n x - x * chebyu (n - 1) x) / (x ^ 2 - 1)

/-- `arc_curvature_squared` (_chebyshev_rational_functions_method.py:586-612). -/
noncomputable def arcCurvatureSquared {k : ℕ} (w : Fin k → ℝ) (x : ℝ) : ℝ :=
  (∑ j : Fin k, 0.5 * w j * d2T (j + 1) x) ^ 2 / (1 + (∑ j : Fin k, 0.5 * w j * d1T (j + 1) x) ^ 2) ^ (2.5 : ℝ)

/-- `curvature_integral` (_chebyshev_rational_functions_method.py:530-622): `⊤` is `numpy.inf`.  Numbers that are not finite
in the linear system do not occur for the positive points and scales considered. -/
noncomputable def curvatureIntegral (funcType : ℤ) (b : Base) (scale : ℝ) : Except PyExc (WithTop ℝ) :=
  if scale < 1e-5 then .ok ⊤
  else do
    let w ← solve (crfMatrix (crfPoints funcType scale b)) fun i => ((crfPoints funcType scale b).get i).2
    .ok ((∫ x in (-1)..1, arcCurvatureSquared w x : ℝ) : WithTop ℝ)

end Imate.Interp
