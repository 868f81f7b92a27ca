import Verif.Model.Functions
import Verif.Model.Rounded

/-!
# The quadrature of one sample with rounding

`flD` rounds to `DataType` (`float`, `double`, `long double`), `flW` to the wider one of `DataType` and `double`: constants
such as `1.0` and `-0.5` are `double`, and an expression with one is computed in the wider type.  The functions of the C
library are given.  Simplifications: no overflow and no underflow; no contraction of a product and a sum; the library
functions of `DataType` are used (`long double`: see C69); `.invalid` stands for infinity or NaN.
-/

namespace Imate.Rounded

/-- The functions of the C library used by the matrix functions. -/
structure Libm where
  pow : ℝ → ℝ → ℝ
  exp : ℝ → ℝ
  log : ℝ → ℝ

variable (flD flW : ℝ → ℝ) (lib : Libm)

/-- `Inverse::function` (functions/inverse.cpp:27-58): the quotient has the wider type. -/
noncomputable def inverse (y : ℝ) : Except Fault ℝ :=
  open Classical in if y = 0 then .error .invalid else .ok (flD (flW (1 / y)))

/-- `Logarithm::function` (functions/logarithm.cpp:28-59). -/
noncomputable def logarithm (y : ℝ) : Except Fault ℝ :=
  open Classical in if 0 < y then .ok (lib.log y) else .error .invalid

/-- `Exponential::function` (functions/exponential.cpp:41-72); the coefficient is converted to `DataType`. -/
noncomputable def exponential (coeff y : ℝ) : Except Fault ℝ := .ok (lib.exp (flD (y * flD coeff)))

/-- `Homographic::function` (functions/homographic.cpp:43-92); the coefficients are converted to `DataType`. -/
noncomputable def homographic (a b c d y : ℝ) : Except Fault ℝ :=
  let numerator := flD (flD (flD a * y) + flD b)
  let denominator := flD (flD (flD c * y) + flD d)
  open Classical in
  if denominator = 0 then .error .invalid else .ok (flD (numerator / denominator))

/-- `Indicator::function` (functions/indicator.cpp:41-93); the bounds are compared as `double`, which is exact. -/
noncomputable def indicator (a b y : ℝ) : Except Fault ℝ :=
  open Classical in if y < a ∨ b < y then .ok 0 else .ok 1

/-- `Gaussian::function` (functions/gaussian.cpp:48-87): the parameters are converted to `DataType`; the exponent and the
product have the wider type. -/
noncomputable def gaussian (mu sigma y : ℝ) : Except Fault ℝ :=
  let mu := flD mu
  let sigma := flD sigma
  open Classical in
  if sigma = 0 then .error .invalid
  else
    let x := flD (flD (y - mu) / sigma)
    let scale := flW (flW (flW (1 / 2 * flW Functions.sqrtHalf) * flW Functions.twoOverSqrtPi) / sigma)
    .ok (flD (flW (scale * lib.exp (flW (flW (-(1 / 2) * x) * x)))))

/-- The function object of a call (see `Functions.slqFunction`). -/
noncomputable def function : Functions.Api → ℝ → Except Fault ℝ
  | .trace, y => .ok y
  | .traceinv, y => inverse flD flW y
  | .logdet, y => logarithm lib y
  | .trexp c, y => exponential flD lib c y
  | .trlinfrac a b c d, y => homographic flD a b c d y
  | .eigencount lo hi, y => indicator lo hi y
  | .density mu sigma, y => gaussian flD flW lib mu sigma y

/-- `function(pow(theta, exponent))`, c_trace_estimator.cpp:617; the exponent of the user is converted to `DataType`
(py_c_trace_estimator.pyx:179, 296, 413). -/
noncomputable def nodeValue (api : Functions.Api) (exponent theta : ℝ) : Except Fault ℝ :=
  function flD flW lib api (lib.pow theta (flD exponent))

/-- The sum over the nodes and the factor `matrix_size`, c_trace_estimator.cpp:604-620. -/
noncomputable def quadrature (api : Functions.Api) (exponent : ℝ) (matrixSize : ℕ) (theta tau : Array ℝ) (lanczosSize : ℕ) :
    Except Fault ℝ := do
  let quadratureSum ← forRange 0 lanczosSize (fun i s => do
    let f ← nodeValue flD flW lib api exponent (← rd theta i)
    let t ← rd tau i
    .ok (flD (s + flD (flD (t * t) * f)))) 0
  .ok (flD (flD matrixSize * quadratureSum))

/-- `get_eigenvalue` of an affine matrix function, c_affine_matrix_function.cpp:97-113. -/
noncomputable def shiftedEigenvalue (knownParameter knownEigenvalue inquiryParameter : ℝ) : ℝ :=
  flD (flD (knownEigenvalue - knownParameter) + inquiryParameter)

end Imate.Rounded
