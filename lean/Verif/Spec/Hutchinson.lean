import Verif.Model.Hutchinson
import Mathlib.LinearAlgebra.Matrix.PosDef
import Mathlib.LinearAlgebra.Matrix.ZPow
import Mathlib.Data.Real.Basic

/-! Specification vocabulary for C35: what the documentation of `traceinv(method='hutchinson')` says is
estimated, and what is assumed of SciPy's solvers. -/

namespace Imate.Spec

open Matrix Imate.Hutchinson

variable {n : ℕ}

/-- What a caller promises by `assume_matrix`.  (The documentation does not say that `'pos'` includes
symmetry, but SciPy's `assume_a='pos'` and `cg` require it.) -/
def Admissible : Assume → Matrix (Fin n) (Fin n) ℝ → Prop
  | .gen, _ => True
  | .sym, A => A.IsSymm
  | .pos, A => A.PosDef
  | .symPos, A => A.PosDef

/-- What is assumed of `linear_solver` (SciPy, exact arithmetic): it solves non-singular systems that are
as promised and raises for a matrix that is not square or a right hand side of another length. -/
structure SolverSpec (solve : Solver ℝ) : Prop where
  exact : ∀ (n : ℕ) (a : Assume) (A : Matrix (Fin n) (Fin n) ℝ) (b : Fin n → ℝ), Admissible a A →
    IsUnit A.det → ∃ x, solve a ⟨n, n, A⟩ ⟨n, b⟩ = .ok ⟨n, x⟩ ∧ A *ᵥ x = b
  square : ∀ (a : Assume) (A : Mat ℝ) (b : Vec ℝ), A.rows ≠ A.cols → ∃ e, solve a A b = .error e
  fits : ∀ (a : Assume) (A : Mat ℝ) (b : Vec ℝ), b.size ≠ A.rows → ∃ e, solve a A b = .error e

/-- `A`, or its Gramian -/
def subject (gram : Bool) (A : Matrix (Fin n) (Fin n) ℝ) : Matrix (Fin n) (Fin n) ℝ :=
  if gram then Aᵀ * A else A

/-- The documented matrix whose trace is wanted: `B M^(-p)`, or `B M^(-p) C M^(-p)` when `C` is given, with
`M` the matrix or its Gramian and `B` the identity when it is not given. -/
noncomputable def documented (gram : Bool) (A : Matrix (Fin n) (Fin n) ℝ) (p : ℤ)
    (B C : Option (Matrix (Fin n) (Fin n) ℝ)) : Matrix (Fin n) (Fin n) ℝ :=
  match C with
  | none => B.getD 1 * subject gram A ^ (-p)
  | some C => B.getD 1 * subject gram A ^ (-p) * C * subject gram A ^ (-p)

/-- A matrix with the trace of `documented` whose quadratic form is what one vector samples: `M^(-p) B`, or `M^(-p) C M^(-p) B` when `C`
is given; for the Gramian with exponent one and no `B` the inverse `A⁻¹ A⁻ᵀ` of the Gramian. -/
noncomputable def sampledMatrix (gram : Bool) (A : Matrix (Fin n) (Fin n) ℝ) (p : ℤ)
    (B C : Option (Matrix (Fin n) (Fin n) ℝ)) : Matrix (Fin n) (Fin n) ℝ :=
  if gram = true ∧ p = 1 ∧ B.isNone then A⁻¹ * A⁻¹ᵀ
  else subject gram A ^ (-p) * C.elim 1 (fun C => C * subject gram A ^ (-p)) * B.getD 1

/-- a square array -/
def square (A : Matrix (Fin n) (Fin n) ℝ) : Mat ℝ := ⟨n, n, A⟩

/-- `n` orthonormal vectors of length `n` -/
def Orthonormal (V : Fin n → Fin n → ℝ) : Prop := ∀ i j, V i ⬝ᵥ V j = if i = j then 1 else 0

end Imate.Spec
