import Verif.Model.RoundedOrtho
import Verif.Model.RoundedQuadrature

/-!
# Model: one sample of SLQ in floating-point arithmetic

`imate/_c_trace_estimator/c_trace_estimator.cpp`, lines 410-654, with the roundings.
-/

namespace Imate.Rounded

/-- `_c_stochastic_lanczos_quadrature` for one inquiry that has not converged, without `gram`, c_trace_estimator.cpp:410-654:
tridiagonalization (lines 539-541), eigenvalues and eigenvectors by LAPACK (543-548), nodes and weights (550-555), sum over the
nodes (606-620).  `eigh` is `eigh_tridiagonal`, `z` the random vector, `V0`, `r0`, `alpha` and `beta` the contents of the allocated
memory.  The parameters of the operator are part of `dot`.  Simplified: `theta` and `tau` have the
length `lanczos_size`; the arrays of the code have the length `lanczos_degree` and are not read beyond `lanczos_size`. -/
noncomputable def slqSample (flD flE flL flW : ℝ → ℝ) (lib : Libm) (dot : Array ℝ → Array ℝ → Except Fault (Array ℝ))
    (eigh : Nat → Array ℝ → Array ℝ → Array ℝ × Array ℝ) (eps : ℝ) (orthogonalize : Int) (n m : ℕ) (tol : ℝ)
    (api : Functions.Api) (exponent : ℝ) (z : Array ℝ) (V0 : Array (Array ℝ)) (r0 alpha beta : Array ℝ) : Except Fault ℝ := do
  let (size, alpha', beta') ← lanczosOrtho flD flE flL dot eps orthogonalize n z m tol V0 r0 alpha beta
  let theta := Array.ofFn fun i : Fin size => (eigh size alpha' beta').1.getD i.1 0
  let tau := Array.ofFn fun i : Fin size => (eigh size alpha' beta').2.getD (i.1 * size) 0
  quadrature flD flW lib api exponent n theta tau size

end Imate.Rounded
