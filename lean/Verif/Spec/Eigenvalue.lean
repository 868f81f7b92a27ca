import Verif.Model.Eigenvalue
import Verif.Spec.Cholesky
import Mathlib.LinearAlgebra.Matrix.Charpoly.Eigs

/-! Specification vocabulary for C36, C38 and C55: what is assumed of LAPACK and ARPACK. -/

namespace Imate.Spec

open Matrix Imate.Eigen

variable {n m : ℕ}

/-- The eigenvalues of a real matrix, with their multiplicities. -/
noncomputable def complexEigenvalues (A : Matrix (Fin n) (Fin n) ℝ) : Multiset ℂ :=
  (A.map ((↑) : ℝ → ℂ)).charpoly.roots

/-- The real eigenvalues of a real matrix, with their multiplicities. -/
noncomputable def realEigenvalues (A : Matrix (Fin n) (Fin n) ℝ) : Multiset ℝ := A.charpoly.roots

/-- What is assumed of the external routines, in exact arithmetic. -/
structure EigSpec (lib : Lib) : Prop where
  /-- `eig` returns all eigenvalues. -/
  eig_ok : ∀ (n : ℕ) (A : Matrix (Fin n) (Fin n) ℝ), (lib.eig n A : Multiset ℂ) = complexEigenvalues A
  /-- `eigh` returns all eigenvalues of the symmetric matrix whose lower triangle is given. -/
  eigh_ok : ∀ (n : ℕ) (A : Matrix (Fin n) (Fin n) ℝ),
    (lib.eigh n A : Multiset ℝ) = realEigenvalues (lowerSymm A)
  /-- `svd` returns the `min m n` singular values: their squares and zeros are the eigenvalues of `AᵀA`. -/
  svd_length : ∀ (m n : ℕ) (A : Matrix (Fin m) (Fin n) ℝ), (lib.svd m n A).length = min m n
  svd_ok : ∀ (m n : ℕ) (A : Matrix (Fin m) (Fin n) ℝ),
    (((lib.svd m n A).map (· ^ 2) : List ℝ) : Multiset ℝ) + Multiset.replicate (n - min m n) 0 =
      realEigenvalues (Aᵀ * A)
  /-- `svd(hermitian=True)` returns the absolute values of the eigenvalues. -/
  svdh_ok : ∀ (n : ℕ) (A : Matrix (Fin n) (Fin n) ℝ),
    (lib.svdh n A : Multiset ℝ) = (realEigenvalues (lowerSymm A)).map (|·|)
  /-- The routines for sparse matrices raise or return as many eigenvalues as they are asked for. -/
  eigs_ok : ∀ (w : Which) (k n : ℕ) (A : Matrix (Fin n) (Fin n) ℝ) (l : List ℂ),
    lib.eigs w k n A = .ok l → l.length = k ∧ (l : Multiset ℂ) ≤ complexEigenvalues A
  eigsh_ok : ∀ (w : Which) (k n : ℕ) (A : Matrix (Fin n) (Fin n) ℝ) (l : List ℝ),
    lib.eigsh w k n A = .ok l → l.length = k ∧ (l : Multiset ℝ) ≤ realEigenvalues (lowerSymm A)
  svds_ok : ∀ (w : Which) (k m n : ℕ) (A : Matrix (Fin m) (Fin n) ℝ) (l : List ℝ),
    lib.svds w k m n A = .ok l → l.length = k ∧ k ≤ min m n ∧
      (((l.map (· ^ 2) : List ℝ)) : Multiset ℝ) ≤ realEigenvalues (Aᵀ * A)

end Imate.Spec
