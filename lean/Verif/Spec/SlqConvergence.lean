import Verif.Model.Slq
import Verif.Spec.Krylov
import Verif.Spec.Lapack
import Mathlib.LinearAlgebra.Matrix.Symmetric

/-! # Specification: the conditions for the convergence of the SLQ method -/

namespace Imate.Spec

open Matrix Imate.Lanczos

/-- The matrix whose function is estimated: `A`, or its Gram matrix. -/
def target {n : Nat} (gram : Bool) (A : Matrix (Fin n) (Fin n) ℝ) : Matrix (Fin n) (Fin n) ℝ :=
  if gram then Aᵀ * A else A

/-- The operator multiplies with the matrices `M t` and their transposes, LAPACK and the square root are exact, the
matrix is symmetric, or invertible if `gram` is set, the tolerance is positive and there is at least one step. -/
structure ExactRun {n : Nat} (ext : External ℝ) (opt : Options ℝ) (op : Operator ℝ n)
    (M : ℝ → Matrix (Fin n) (Fin n) ℝ) (parameters : Array ℝ) : Prop where
  sqrt : ext.sqrt = Real.sqrt
  dot : ∀ t x, op.dot t x = .ok (M t *ᵥ x)
  transposeDot : ∀ t x, op.transposeDot t x = .ok ((M t)ᵀ *ᵥ x)
  symmetric : opt.gram = false → EighSpec ext.eigh ∧ ∀ t, (M t).IsSymm
  invertible : opt.gram = true → SvdSpec ext.svd ∧ ∀ t ∈ parameters, Function.Injective (M t).mulVec
  tol : 0 < opt.tol
  degree : 1 ≤ opt.degree

/-- The square of the largest residual with which the iteration stops before the last step; `b` is a bound of the
eigenvalues. -/
noncomputable def stopped (n : Nat) (gram : Bool) (tol b : ℝ) : ℝ := if gram then b * (tol ^ 2 * n) else tol ^ 2 * n

end Imate.Spec
