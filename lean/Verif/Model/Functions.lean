import Verif.Model.Eigenvalue

/-!
# The matrix functions of the Lanczos quadrature

The classes in `imate/functions`, which the methods `slq` pass to the trace estimator.  Arithmetic is exact; the three
overloads for the three floating-point types are one function; `none` is a value that is not finite.
-/

namespace Imate.Functions

open Imate.Eigen

/-- `Identity::function` (functions/identity.cpp:41-44). -/
def identity : Power → Option ℝ
  | .fin y => some y
  | _ => none

/-- `Inverse::function` (functions/inverse.cpp:41-44). -/
noncomputable def inverse : Power → Option ℝ
  | .fin y => open Classical in if y = 0 then none else some (1 / y)
  | .inf => some 0
  | .nan => none

/-- `Logarithm::function` (functions/logarithm.cpp:42-45). -/
noncomputable def logarithm : Power → Option ℝ
  | .fin y => open Classical in if 0 < y then some (Real.log y) else none
  | _ => none

/-- `Exponential::function` (functions/exponential.cpp:55-58). -/
noncomputable def exponential (coeff : ℝ) : Power → Option ℝ
  | .fin y => some (Real.exp (y * coeff))
  | .inf => open Classical in if coeff < 0 then some 0 else none
  | .nan => none

/-- `Homographic::function` (functions/homographic.cpp:63-72); not modelled: the value at infinity. -/
noncomputable def homographic (a b c d : ℝ) : Power → Option ℝ
  | .fin y => open Classical in if c * y + d = 0 then none else some ((a * y + b) / (c * y + d))
  | _ => none

/-- `Indicator::function` (functions/indicator.cpp:62-72); a comparison with `nan` is false. -/
noncomputable def indicator (a b : ℝ) : Power → Option ℝ
  | .fin y => open Classical in if y < a ∨ b < y then some 0 else some 1
  | .inf => some 0
  | .nan => some 1

/-- `M_SQRT1_2` and `M_2_SQRTPI` -/
noncomputable def sqrtHalf : ℝ := 1 / Real.sqrt 2
noncomputable def twoOverSqrtPi : ℝ := 2 / Real.sqrt Real.pi

/-- `Gaussian::function` (functions/gaussian.cpp:65-69). -/
noncomputable def gaussian (mu sigma : ℝ) : Power → Option ℝ
  | .fin y => some (1 / 2 * sqrtHalf * twoOverSqrtPi / sigma *
      Real.exp (-(1 / 2) * ((y - mu) / sigma) * ((y - mu) / sigma)))
  | .inf => some 0
  | .nan => none

/-- The value that the quadrature sums for one Ritz value, `function(pow(theta, exponent))`
(_c_trace_estimator/c_trace_estimator.cpp:616-617). -/
noncomputable def applied (f : Power → Option ℝ) (exponent theta : ℝ) : Option ℝ := f (powR theta exponent)

/-- The functions that compute with the eigenvalues of a matrix, with their parameters. -/
inductive Api where
  | trace
  | traceinv
  | logdet
  | trexp (coeff : ℝ)
  | trlinfrac (a b c d : ℝ)
  | eigencount (lo hi : ℝ)
  | density (mu sigma : ℝ)

/-- The function object that the method `slq` creates (trace/_slq_method.pyx:825, traceinv/_slq_method.pyx:827,
logdet/_slq_method.pyx:824, trexp/_slq_method.pyx:814, trlinfrac/_slq_method.pyx:823-824,
eigencount/_slq_method.pyx:824, density/_slq_method.pyx:831). -/
noncomputable def slqFunction : Api → Power → Option ℝ
  | .trace => identity
  | .traceinv => inverse
  | .logdet => logarithm
  | .trexp c => exponential c
  | .trlinfrac a b c d => homographic a b c d
  | .eigencount lo hi => indicator lo hi
  | .density mu sigma => gaussian mu sigma

/-- The value that the method `slq` sums for one eigenvalue. -/
noncomputable def slqValue (api : Api) (p theta : ℝ) : Option ℝ := applied (slqFunction api) p theta

end Imate.Functions
