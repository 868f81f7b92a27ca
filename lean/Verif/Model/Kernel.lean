import Verif.Model.FloatLike
import Verif.Model.Mem
import Verif.Model.Points
import Mathlib.Analysis.SpecialFunctions.Gamma.Basic
import Mathlib.Analysis.SpecialFunctions.Pow.Real
import Mathlib.Analysis.SpecialFunctions.Sqrt

/-!
# Model of `imate/sample_matrices/_kernels.pyx`

A distance and a correlation is a `double`: `some x` for a number, `none` for `nan`.  Arithmetic is exact.  The
modified Bessel function `kv` of SciPy is a parameter.
-/

namespace Imate.Sample

/-- `_matern_kernel` (_kernels.pyx:70-157).  For `nu ≤ 0` SciPy's `gamma`, `kv` and the square root make the product
of line 144 `nan`; `nan < 100` is false. -/
noncomputable def maternKernel (kv : ℝ → ℝ → ℝ) (x : Option ℝ) (param : XR ℝ) : Option ℝ :=
  match x with
  | none => none
  | some x =>
    if x = 0 then some 1
    else
      match param with
      | .fin nu =>
        if nu = 1 / 2 then some (Real.exp (-x))
        else if nu = 3 / 2 then some ((1 + √3 * x) * Real.exp (-√3 * x))
        else if nu = 5 / 2 then some ((1 + √5 * x + 5 / 3 * x ^ 2) * Real.exp (-√5 * x))
        else if nu < 100 then
          if nu ≤ 0 then none
          else some (2 ^ (1 - nu) / Real.Gamma nu * (√(2 * nu) * x) ^ nu * kv nu (√(2 * nu) * x))
        else some (Real.exp (-(1 / 2) * x ^ 2))
      | .ninf => none
      | .pinf => some (Real.exp (-(1 / 2) * x ^ 2))
      | .nan => some (Real.exp (-(1 / 2) * x ^ 2))

/-- `_exponential_kernel` (_kernels.pyx:164-180). -/
noncomputable def exponentialKernel (kv : ℝ → ℝ → ℝ) (x : Option ℝ) (_param : XR ℝ) : Option ℝ :=
  maternKernel kv x (.fin (1 / 2))

/-- `_square_exponential_kernel` (_kernels.pyx:187-196). -/
noncomputable def squareExponentialKernel (kv : ℝ → ℝ → ℝ) (x : Option ℝ) (_param : XR ℝ) : Option ℝ :=
  maternKernel kv x .pinf

open Classical in
/-- `pow` of C for a finite base and a finite exponent that is not zero; an infinite result is `none` too. -/
noncomputable def cpow (x y : ℝ) : Option ℝ :=
  if 0 < x then some (x ^ y)
  else if x = 0 then (if 0 < y then some 0 else none)
  else if ∃ k : ℤ, y = k then some (x ^ y)
  else none

/-- `_rational_quadratic_kernel` (_kernels.pyx:203-216).  `pow` of C is 1 for the exponent zero, and for the base
one. -/
noncomputable def rationalQuadraticKernel (x : Option ℝ) (param : XR ℝ) : Option ℝ :=
  match param with
  | .fin alpha =>
    if alpha = 0 then some 1
    else
      match x with
      | none => none
      | some x =>
        if alpha ≠ 1 then cpow (1 + x ^ 2 / (2 * alpha)) (-alpha) else some (1 + x ^ 2 / (2 * alpha))
  | .nan => none
  | _ => x.map fun _ => 1

/-- A kernel: the correlation from the scaled distance and the parameter. -/
abbrev Kernel := Option ℝ → XR ℝ → Option ℝ

/-- `get_kernel` (_kernels.pyx:39-63): any other name ends the process. -/
noncomputable def getKernel (kv : ℝ → ℝ → ℝ) (name : String) : Except Fault Kernel :=
  if name = "matern" then .ok (maternKernel kv)
  else if name = "exponential" then .ok (exponentialKernel kv)
  else if name = "square-exponential" then .ok (squareExponentialKernel kv)
  else if name = "rational-quadratic" then .ok rationalQuadraticKernel
  else .error .abort

/-- The sum of the squares of the differences (_kernels.pyx:249-253); both points have the same number of
coordinates. -/
noncomputable def distance2 : Point → Point → Option ℝ
  | c :: p, d :: q =>
    match c, d, distance2 p q with
    | some c, some d, some s => some ((c - d) ^ 2 + s)
    | _, _, _ => none
  | _, _ => some 0

/-- `euclidean_distance` (_kernels.pyx:225-255), for a scale that is a number and not zero. -/
noncomputable def euclideanDistance (p q : Point) (scale : ℝ) : Option ℝ :=
  (distance2 p q).map fun s => √s / scale

end Imate.Sample
