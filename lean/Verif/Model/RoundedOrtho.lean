import Verif.Model.Lanczos
import Verif.Model.RoundedLanczos

/-!
# Reorthogonalization with rounding

`gram_schmidt_process` and `c_lanczos_tridiagonalization` for every value of `orthogonalize`, on top of the kernels of
`Model/Rounded.lean`.  `flD` rounds to `DataType`, `flL` to `long double`, and `flE` to the wider one of `double` and
`DataType`, in which an expression with a literal such as `2.0` or with `sqrt` of an integer is computed.  `eps` is
`std::numeric_limits<DataType>::epsilon()`.  Simplifications: as in `Model/RoundedLanczos.lean`; the warning on `std::cerr` is
left out.
-/

namespace Imate.Rounded

open Imate.Lanczos (gsNumSteps gsIndex lanczosBufferSize)

variable (flD flE flL : ℝ → ℝ)

/-- `norm_v*norm_v - 2.0*inner_prod + norm*norm`, c_orthogonalization.cpp:210. -/
noncomputable def distance2 (normV inner norm : ℝ) : ℝ :=
  flD (flE (flE (flD (normV * normV) - flE (2 * inner)) + flD (norm * norm)))

/-- One step of the process against one vector, c_orthogonalization.cpp:181-222. -/
noncomputable def gsStep (eps : ℝ) (n : Nat) (Vi v : Array ℝ) : Except Fault (Array ℝ) := do
  let norm ← euclideanNorm flD flL Vi n
  if norm < flE (eps * flE (Real.sqrt n)) then return v
  let inner ← innerProduct flD flL Vi v n
  let scale := flD (inner / flD (norm * norm))
  if |flE (|scale| - 1)| ≤ flE (2 * eps) then
    let normV ← euclideanNorm flD flL v n
    if distance2 flD flE normV inner norm < flE (flE (2 * eps) * n) then return v
  subtractScaledVector flD Vi n scale v

/-- `gram_schmidt_process`, c_orthogonalization.cpp:124-224, with `v` outside the buffer. -/
noncomputable def gramSchmidt (eps : ℝ) (n : Nat) (V : Array (Array ℝ)) (numVectors lastVector : Nat) (numOrtho : Int)
    (v : Array ℝ) : Except Fault (Array ℝ) :=
  forRange 0 (gsNumSteps n numVectors numOrtho) (fun step v => do
    gsStep flD flE flL eps n (← rd V (gsIndex numVectors lastVector step)) v) v

/-- "Subtract V[:,j-1] * beta[j] from r", c_lanczos_tridiagonalization.cpp:194-199. -/
noncomputable def subtractPreviousIn (bufferSize n j : Nat) (V : Array (Array ℝ)) (beta r : Array ℝ) :
    Except Fault (Array ℝ) :=
  if j > 0 then do
    subtractScaledVector flD (← rd V ((j - 1) % bufferSize)) n (← rd beta (j - 1)) r
  else .ok r

/-- The re-orthogonalisation block, c_lanczos_tridiagonalization.cpp:201-217. -/
noncomputable def reorthogonalize (eps : ℝ) (orthogonalize : Int) (bufferSize n : Nat) (V : Array (Array ℝ)) (j : Nat)
    (r : Array ℝ) : Except Fault (Array ℝ) :=
  if orthogonalize ≠ 0 then
    let numOrtho : Nat := if j < bufferSize then j + 1 else bufferSize
    gramSchmidt flD flE flL eps n V bufferSize (j % bufferSize) numOrtho r
  else .ok r

/-- The loop body for index `j`, c_lanczos_tridiagonalization.cpp:165-229. -/
noncomputable def orthoBody (dot : Array ℝ → Array ℝ → Except Fault (Array ℝ)) (eps : ℝ) (orthogonalize : Int)
    (bufferSize n : Nat) (tol initialBeta : ℝ) (j : Nat) (s : LanczosState) : Except Fault LanczosState := do
  let scale ← lanczosScale flD flE initialBeta j s.beta
  let vj ← copyScaledVector flD s.r n scale (← rd s.V (j % bufferSize))
  let V ← wr s.V (j % bufferSize) vj
  let r ← dot vj s.r
  let a ← innerProduct flD flL vj r n
  let alpha ← wr s.alpha j a
  let r ← subtractScaledVector flD vj n a r
  let r ← subtractPreviousIn flD bufferSize n j V s.beta r
  let r ← reorthogonalize flD flE flL eps orthogonalize bufferSize n V j r
  let b ← euclideanNorm flD flL r n
  let beta ← wr s.beta j b
  .ok ⟨V, r, alpha, beta, s.size + 1, decide (b < flE (tol * flE (Real.sqrt n)))⟩

/-- `c_lanczos_tridiagonalization`, c_lanczos_tridiagonalization.cpp:116-236.  `V0` and `r0` are the contents of the
allocated memory, `alpha` and `beta` the arrays of the caller. -/
noncomputable def lanczosOrtho (dot : Array ℝ → Array ℝ → Except Fault (Array ℝ)) (eps : ℝ) (orthogonalize : Int)
    (n : Nat) (v : Array ℝ) (m : Nat) (tol : ℝ) (V0 : Array (Array ℝ)) (r0 alpha beta : Array ℝ) :
    Except Fault (Nat × Array ℝ × Array ℝ) := do
  let bufferSize := lanczosBufferSize m orthogonalize
  let r ← copyVector v n r0
  let initialBeta ← euclideanNorm flD flL r n
  let s ← forRange 0 m (fun j s =>
      if s.stop then .ok s else orthoBody flD flE flL dot eps orthogonalize bufferSize n tol initialBeta j s)
    ⟨V0, r, alpha, beta, 0, false⟩
  .ok (s.size, s.alpha, s.beta)

end Imate.Rounded
