import Verif.Model.FloatLike

/-!
# Model of `_c_trace_estimator/special_functions.cpp`

The functions of the C math library are parameters (`MathFns`).
-/

namespace Imate.ErfInv

/-- The functions and constants of `<cmath>` that `erf_inv` uses. -/
structure MathFns (K : Type) where
  log : K → K
  exp : K → K
  erf : K → K
  sqrt : K → K
  pi : K

variable {K : Type} [Field K] [LinearOrder K] [HasSqrt K]

/-- `sign`, special_functions.cpp:34-37: `(x > 0) - (x < 0)`. -/
def sign (x : K) : K := (if 0 < x then 1 else 0) - (if x < 0 then 1 else 0)

/-- The rational initial guess for `z ≥ 0`, special_functions.cpp:75-93.  (The decimal constants are
exact rationals here.) -/
def guess (F : MathFns K) (z : K) : K :=
  if z ≤ 7 / 10 then
    let x2 := z * z
    z * ((((-140543331 / 1000000000) * x2 + 914624893 / 1000000000) * x2 + (-1645349621 / 1000000000)) * x2
        + 886226899 / 1000000000) /
      ((((12229801 / 1000000000 * x2 + (-329097515 / 1000000000)) * x2 + 1442710462 / 1000000000) * x2
        + (-2118377725 / 1000000000)) * x2 + 1)
  else
    let y := F.sqrt (-F.log ((1 - z) / 2))
    (((1641345311 / 1000000000 * y + 3429567803 / 1000000000) * y + (-162490649 / 100000000)) * y
        + (-1970840454 / 1000000000)) /
      ((1637067800 / 1000000000 * y + 3543889200 / 1000000000) * y + 1)

/-- One Newton refinement, special_functions.cpp:100-101. -/
def newton (F : MathFns K) (z r : K) : K :=
  r - (F.erf r - z) / ((2 / F.sqrt F.pi) * F.exp (-r * r))

/-- `erf_inv`, special_functions.cpp:63-104. -/
def erfInv (F : MathFns K) (x : K) : XR K :=
  if x = 1 ∨ x = -1 then XR.mul (.fin (sign x)) .pinf
  else
    let z := sign x * x
    let r := guess F z * sign x
    let z := z * sign x
    .fin (newton F z (newton F z r))

/-- `sqrt(2) * erf_inv(level)`, convergence_tools.cpp:133-135, 280, 286. -/
def zScore (F : MathFns K) (level : K) : XR K := XR.mul (.fin (F.sqrt 2)) (erfInv F level)

end Imate.ErfInv
