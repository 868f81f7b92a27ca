import Verif.Model.LinearSolver
import Mathlib.Analysis.Real.Sqrt
import Mathlib.Data.Matrix.Mul
import Mathlib.LinearAlgebra.Matrix.PosDef

/-! What SciPy documents about `cg` and `gmres`, and a lower bound of a matrix. -/

namespace Imate.Spec
open Matrix Imate.Hutchinson Imate.LinearSolver

/-- Euclidean norm -/
noncomputable def norm2 {n : ℕ} (x : Fin n → ℝ) : ℝ := Real.sqrt (x ⬝ᵥ x)

/-- The documentation of SciPy's `cg` and `gmres` with `atol=0`: for a square matrix the iterate has the
right length, and if the flag is zero the residual is at most `tol` times the right hand side. -/
def IterativeSpec (f : Iterative ℝ) : Prop :=
  ∀ (n : ℕ) (A : Matrix (Fin n) (Fin n) ℝ) (b : Fin n → ℝ) (tol : ℝ), ∃ (x : Fin n → ℝ) (info : Int),
    f ⟨n, n, A⟩ ⟨n, b⟩ tol = .ok (⟨n, x⟩, info) ∧
    (info = 0 → norm2 (b - A *ᵥ x) ≤ tol * norm2 b)

/-- On this matrix the solver always meets the tolerance. -/
def Converges {n : ℕ} (f : Iterative ℝ) (A : Matrix (Fin n) (Fin n) ℝ) (tol : ℝ) : Prop :=
  ∀ (b : Fin n → ℝ) (x : Vec ℝ) (info : Int), f ⟨n, n, A⟩ ⟨n, b⟩ tol = .ok (x, info) → info = 0

/-- The solver meets its tolerance on all matrices of a kind. -/
def SolvesOn (f : Iterative ℝ) (kind : ∀ n : ℕ, Matrix (Fin n) (Fin n) ℝ → Prop) : Prop :=
  ∀ (n : ℕ) (A : Matrix (Fin n) (Fin n) ℝ) (b : Fin n → ℝ) (tol : ℝ), kind n A → 0 < tol →
    ∃ x : Fin n → ℝ, f ⟨n, n, A⟩ ⟨n, b⟩ tol = .ok (⟨n, x⟩, 0) ∧ norm2 (b - A *ᵥ x) ≤ tol * norm2 b

/-- What the values `sym`, `pos`, `sym_pos` and `gen` of `assume_matrix` say of an invertible matrix. -/
def Assumed : Assume → ∀ n : ℕ, Matrix (Fin n) (Fin n) ℝ → Prop
  | .sym => fun _ A => A.IsSymm ∧ IsUnit A.det
  | .pos => fun _ A => A.PosDef
  | .symPos => fun _ A => A.PosDef
  | .gen => fun _ A => IsUnit A.det

/-- All values of the quadratic form are at least `μ` times the square of the norm: for a symmetric
matrix, all eigenvalues are at least `μ`. -/
def BoundedBelow {n : ℕ} (μ : ℝ) (A : Matrix (Fin n) (Fin n) ℝ) : Prop :=
  ∀ x : Fin n → ℝ, μ * (x ⬝ᵥ x) ≤ x ⬝ᵥ (A *ᵥ x)

end Imate.Spec
