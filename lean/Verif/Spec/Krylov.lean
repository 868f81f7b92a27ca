import Mathlib.Data.Matrix.Mul
import Mathlib.Analysis.Real.Sqrt
import Mathlib.LinearAlgebra.Matrix.Notation

/-! # Specification: Krylov factorisations, spectral decompositions and matrix functions -/

namespace Imate.Spec

open Matrix

/-- The symmetric tridiagonal matrix with diagonal `a 0, a 1, …` and off-diagonal `b 0, b 1, …`. -/
def tridiagonal (k : Nat) (a b : Nat → ℝ) : Matrix (Fin k) (Fin k) ℝ := fun i j =>
  if i = j then a i
  else if i.1 + 1 = j.1 then b i
  else if j.1 + 1 = i.1 then b j
  else 0

/-- The upper bidiagonal matrix with diagonal `a` and super-diagonal `b`. -/
def bidiagonal (k : Nat) (a b : Nat → ℝ) : Matrix (Fin k) (Fin k) ℝ := fun i j =>
  if i = j then a i
  else if i.1 + 1 = j.1 then b i
  else 0

/-- The last standard basis row vector (zero when `k = 0`). -/
def lastRow (k : Nat) : Fin k → ℝ := fun j => if j.1 + 1 = k then 1 else 0

/-- The first standard basis column vector. -/
def firstCol (k : Nat) : Fin k → ℝ := fun i => if i.1 = 0 then 1 else 0

/-- `V` is an orthonormal basis whose first column is `z` normalised, and
`M V = V T + w eₖᵀ` with `w` orthogonal to `V`; so `T = Vᵀ M V` and the columns of `V` are the Krylov
basis of `M` started at `z`. -/
structure KrylovFactorisation {n k : Nat} (M : Matrix (Fin n) (Fin n) ℝ) (z : Fin n → ℝ)
    (V : Matrix (Fin n) (Fin k) ℝ) (T : Matrix (Fin k) (Fin k) ℝ) (w : Fin n → ℝ) : Prop where
  orthonormal : Vᵀ * V = 1
  start : z = Real.sqrt (z ⬝ᵥ z) • (V *ᵥ firstCol k)
  factor : M * V = V * T + vecMulVec w (lastRow k)
  residual : Vᵀ *ᵥ w = 0
  projected : T = Vᵀ * M * V

/-- `M = Q diag(lam) Qᵀ` with `Q` orthogonal. -/
structure Spectral {k : Nat} (M Q : Matrix (Fin k) (Fin k) ℝ) (lam : Fin k → ℝ) : Prop where
  left : Qᵀ * Q = 1
  right : Q * Qᵀ = 1
  eq : M = Q * diagonal lam * Qᵀ

/-- `f(M)` for a matrix with the spectral decomposition `(Q, lam)`. -/
def matrixFunction {k : Nat} (f : ℝ → ℝ) (Q : Matrix (Fin k) (Fin k) ℝ) (lam : Fin k → ℝ) :
    Matrix (Fin k) (Fin k) ℝ :=
  Q * diagonal (fun i => f (lam i)) * Qᵀ

/-- `M = U diag(s) Wᵀ` with `U`, `W` orthogonal and `s ≥ 0`. -/
structure SingularValues {k : Nat} (M U W : Matrix (Fin k) (Fin k) ℝ) (s : Fin k → ℝ) : Prop where
  uleft : Uᵀ * U = 1
  wleft : Wᵀ * W = 1
  wright : W * Wᵀ = 1
  nonneg : ∀ i, 0 ≤ s i
  eq : M = U * diagonal s * Wᵀ

/-- Golub-Kahn: orthonormal `U`, `V` with `A V = U B` and `Aᵀ U = V Bᵀ + q eₖᵀ`, started at `z`. -/
structure Bidiagonalisation {n k : Nat} (A : Matrix (Fin n) (Fin n) ℝ) (z : Fin n → ℝ)
    (U V : Matrix (Fin n) (Fin k) ℝ) (B : Matrix (Fin k) (Fin k) ℝ) (q : Fin n → ℝ) : Prop where
  uorthonormal : Uᵀ * U = 1
  vorthonormal : Vᵀ * V = 1
  start : z = Real.sqrt (z ⬝ᵥ z) • (V *ᵥ firstCol k)
  factor : A * V = U * B
  cofactor : Aᵀ * U = V * Bᵀ + vecMulVec q (lastRow k)
  residual : Vᵀ *ᵥ q = 0

/-- A Rademacher vector. -/
def Rademacher {n : Nat} (z : Fin n → ℝ) : Prop := ∀ i, z i = 1 ∨ z i = -1

end Imate.Spec
