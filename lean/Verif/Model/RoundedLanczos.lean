import Verif.Model.Rounded

/-!
# The Lanczos iteration with rounding

`c_lanczos_tridiagonalization.cpp` for `orthogonalize = 0` (the default of the package), on top of the kernels of
`Model/Rounded.lean`.  `flD` rounds to `DataType`, `flL` to `long double`, and `flE` to the wider one of `double` and
`DataType`, in which `1.0/beta[j-1]` and `lanczos_tol * sqrt(n)` are computed.  Simplifications: as in `Model/Rounded.lean`; a
division by zero is the error `Fault.invalid`.
-/

namespace Imate.Rounded

variable (flD flE flL : ℝ → ℝ)

/-- `copy_scaled_vector`, c_vector_operations.cpp:81-107 (branch 98-104). -/
noncomputable def copyScaledVector (v : Array ℝ) (n : Nat) (scale : ℝ) (out : Array ℝ) : Except Fault (Array ℝ) :=
  forRange 0 n (fun i out => do wr out i (times flD scale (← rd v i))) out

/-- `copy_vector`, c_vector_operations.cpp:36-61. -/
def copyVector (v : Array ℝ) (n : Nat) (out : Array ℝ) : Except Fault (Array ℝ) :=
  forRange 0 n (fun i out => do wr out i (← rd v i)) out

/-- Local variables and outputs; `V` is the buffer with two rows, `stop` records that `break` was executed. -/
structure LanczosState where
  V : Array (Array ℝ)
  r : Array ℝ
  alpha : Array ℝ
  beta : Array ℝ
  size : Nat
  stop : Bool

/-- `1.0/b`, then the conversion of the argument to `DataType`, c_lanczos_tridiagonalization.cpp:173-181. -/
noncomputable def reciprocal (b : ℝ) : Except Fault ℝ :=
  if b = 0 then .error .invalid else .ok (flD (flE (1 / b)))

/-- The factor with which `r` is scaled, c_lanczos_tridiagonalization.cpp:171-181. -/
noncomputable def lanczosScale (initialBeta : ℝ) (j : Nat) (beta : Array ℝ) : Except Fault ℝ :=
  if j = 0 then reciprocal flD flE initialBeta else do reciprocal flD flE (← rd beta (j - 1))

/-- "Subtract V[:,j-1] * beta[j] from r", c_lanczos_tridiagonalization.cpp:194-199. -/
noncomputable def subtractPrevious (n j : Nat) (V : Array (Array ℝ)) (beta r : Array ℝ) : Except Fault (Array ℝ) :=
  if j > 0 then do
    subtractScaledVector flD (← rd V ((j - 1) % 2)) n (← rd beta (j - 1)) r
  else .ok r

/-- The loop body for index `j`, c_lanczos_tridiagonalization.cpp:165-229. -/
noncomputable def lanczosBody (dot : Array ℝ → Array ℝ → Except Fault (Array ℝ)) (n : Nat) (tol initialBeta : ℝ)
    (j : Nat) (s : LanczosState) : Except Fault LanczosState := do
  let scale ← lanczosScale flD flE initialBeta j s.beta
  let vj ← copyScaledVector flD s.r n scale (← rd s.V (j % 2))
  let V ← wr s.V (j % 2) vj
  let r ← dot vj s.r
  let a ← innerProduct flD flL vj r n
  let alpha ← wr s.alpha j a
  let r ← subtractScaledVector flD vj n a r
  let r ← subtractPrevious flD n j V s.beta r
  let b ← euclideanNorm flD flL r n
  let beta ← wr s.beta j b
  .ok ⟨V, r, alpha, beta, s.size + 1, decide (b < flE (tol * flE (Real.sqrt n)))⟩

/-- `c_lanczos_tridiagonalization`, c_lanczos_tridiagonalization.cpp:116-236.  `V0` and `r0` are the contents of the
allocated memory, `alpha` and `beta` the arrays of the caller. -/
noncomputable def lanczos (dot : Array ℝ → Array ℝ → Except Fault (Array ℝ)) (n : Nat) (v : Array ℝ) (m : Nat)
    (tol : ℝ) (V0 : Array (Array ℝ)) (r0 alpha beta : Array ℝ) : Except Fault (Nat × Array ℝ × Array ℝ) := do
  let r ← copyVector v n r0
  let initialBeta ← euclideanNorm flD flL r n
  let s ← forRange 0 m (fun j s =>
      if s.stop then .ok s else lanczosBody flD flE flL dot n tol initialBeta j s)
    ⟨V0, r, alpha, beta, 0, false⟩
  .ok (s.size, s.alpha, s.beta)

end Imate.Rounded
