import Verif.Spec.Krylov

/-! # Specification of the two LAPACK drivers the library calls

`?stev` (symmetric tridiagonal eigenproblem) and `?bdsdc` (singular values of an upper bidiagonal
matrix), with the calling convention of `imate/_c_trace_estimator/diagonalization.cpp`: the diagonal is
overwritten with the eigenvalues (singular values), the vectors are returned in column-major order. -/

namespace Imate.Spec

open Matrix

/-- The diagonalisation `eigh size alpha beta` returns `(theta, Z)` with
`T = Z diag(theta) Zᵀ`, `Z` orthogonal, where `T` is the tridiagonal matrix of the first `size` entries.
The arrays may be longer than `size`; the length of `alpha` is kept. -/
def EighSpec (eigh : Nat → Array ℝ → Array ℝ → Array ℝ × Array ℝ) : Prop :=
  ∀ (k : Nat) (alpha beta : Array ℝ), 1 ≤ k → k ≤ alpha.size → k ≤ beta.size →
    (eigh k alpha beta).1.size = alpha.size ∧ (eigh k alpha beta).2.size = k * k ∧
    Spectral (tridiagonal k (fun i => alpha.getD i 0) (fun i => beta.getD i 0))
      (fun i j => (eigh k alpha beta).2.getD (i.1 + j.1 * k) 0)
      (fun i => (eigh k alpha beta).1.getD i.1 0)

/-- The singular value decomposition `svd size alpha beta` returns `(sigma, Vt)` with
`B = U diag(sigma) Vt`; required only of matrices with a positive diagonal. -/
def SvdSpec (svd : Nat → Array ℝ → Array ℝ → Array ℝ × Array ℝ) : Prop :=
  ∀ (k : Nat) (alpha beta : Array ℝ), 1 ≤ k → k ≤ alpha.size → k ≤ beta.size →
    (∀ i < k, 0 < alpha.getD i 0) →
    (svd k alpha beta).1.size = alpha.size ∧ (svd k alpha beta).2.size = k * k ∧
    ∃ U, SingularValues (bidiagonal k (fun i => alpha.getD i 0) (fun i => beta.getD i 0)) U
      (fun i j => (svd k alpha beta).2.getD (j.1 + i.1 * k) 0)
      (fun i => (svd k alpha beta).1.getD i.1 0)

end Imate.Spec
