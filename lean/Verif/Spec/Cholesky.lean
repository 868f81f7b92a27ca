import Verif.Model.Cholesky
import Verif.Spec.Hutchinson
import Mathlib.LinearAlgebra.Matrix.PosDef
import Mathlib.LinearAlgebra.Matrix.NonsingularInverse

/-! Specification vocabulary for C34, C36 and C53: triangular factorisations and what is assumed of SciPy and
scikit-sparse. -/

namespace Imate.Spec

open Matrix Imate.Direct

variable {n : ℕ}

/-- zero above the diagonal -/
def Lower (L : Matrix (Fin n) (Fin n) ℝ) : Prop := ∀ i j, i < j → L i j = 0

/-- zero below the diagonal -/
def Upper (U : Matrix (Fin n) (Fin n) ℝ) : Prop := ∀ i j, j < i → U i j = 0

/-- `L` is the Cholesky factor of `A`. -/
structure IsCholesky (L A : Matrix (Fin n) (Fin n) ℝ) : Prop where
  lower : Lower L
  pos : ∀ i, 0 < L i i
  eq : L * Lᵀ = A

/-- The symmetric matrix with the lower triangle of `A`. -/
def lowerSymm (A : Matrix (Fin n) (Fin n) ℝ) : Matrix (Fin n) (Fin n) ℝ :=
  fun i j => if j ≤ i then A i j else A j i

/-- `A = L U` with `L` unit lower triangular and `U` upper triangular and non-singular. -/
structure IsLU (L U A : Matrix (Fin n) (Fin n) ℝ) : Prop where
  lower : Lower L
  unit : ∀ i, L i i = 1
  upper : Upper U
  pivots : ∀ i, U i i ≠ 0
  eq : L * U = A

/-- What is assumed of the external routines, in exact arithmetic. -/
structure LibSpec (lib : Lib) : Prop where
  /-- `scipy.linalg.cholesky` reads the lower triangle; it raises `LinAlgError` if the matrix is not positive
  definite. -/
  chol_ok : ∀ (n : ℕ) (A : Matrix (Fin n) (Fin n) ℝ), (lowerSymm A).PosDef →
    ∃ L, lib.chol n A = .ok L ∧ IsCholesky L (lowerSymm A)
  chol_error : ∀ (n : ℕ) (A : Matrix (Fin n) (Fin n) ℝ), ¬ (lowerSymm A).PosDef →
    lib.chol n A = .error .linAlgError
  /-- `splu` factors the matrix with its rows permuted and, the ordering being natural, its columns not. -/
  splu_ok : ∀ (n : ℕ) (A : Matrix (Fin n) (Fin n) ℝ) (lu : LU n), lib.splu n A = .ok lu →
    Function.Bijective lu.permR ∧ lu.permC = id ∧
      ∃ A', IsLU lu.L lu.U A' ∧ ∀ i j, A i j = A' (lu.permR i) (lu.permC j)
  /-- With `diag_pivot_thresh=0` it pivots on the diagonal as long as it can. -/
  splu_natural : ∀ (n : ℕ) (A : Matrix (Fin n) (Fin n) ℝ), (∃ L U, IsLU L U A) →
    ∃ lu, lib.splu n A = .ok lu ∧ lu.permR = id
  /-- CHOLMOD factors a positive definite matrix with rows and columns permuted alike. -/
  cholmod_ok : ∀ (natural : Bool) (n : ℕ) (A : Matrix (Fin n) (Fin n) ℝ), A.PosDef →
    ∃ F, lib.cholmod natural n A = .ok F ∧ Function.Bijective F.P ∧ (natural = true → F.P = id) ∧
      IsCholesky F.L (A.submatrix F.P F.P)
  inv_ok : ∀ (n : ℕ) (A : Matrix (Fin n) (Fin n) ℝ), IsUnit A.det → lib.inv n A = .ok A⁻¹
  triSolve_ok : ∀ (n : ℕ) (L : Matrix (Fin n) (Fin n) ℝ) (b : Fin n → ℝ), Lower L → (∀ i, L i i ≠ 0) →
    ∃ x, lib.triSolve n L b = .ok x ∧ L *ᵥ x = b

end Imate.Spec
