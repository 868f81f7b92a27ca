import Mathlib.Data.Real.Basic
import Mathlib.Data.Matrix.Mul
import Mathlib.Data.Fintype.Pi
import Mathlib.Algebra.BigOperators.Fin

/-! # Specification: averages over equally likely random vectors -/

namespace Imate.Spec

open Matrix

/-- The expected value of `g` when all elements of `Ω` are equally likely. -/
noncomputable def expected {Ω : Type*} [Fintype Ω] (g : Ω → ℝ) : ℝ := (∑ w, g w) / Fintype.card Ω

/-- The probability of an event when all elements of `Ω` are equally likely. -/
noncomputable def probability {Ω : Type*} [Fintype Ω] (P : Ω → Prop) [DecidablePred P] : ℝ :=
  ((Finset.univ.filter P).card : ℝ) / Fintype.card Ω

/-- The sum of the squares of the elements off the diagonal. -/
noncomputable def offDiagonal {n : ℕ} (M : Matrix (Fin n) (Fin n) ℝ) : ℝ :=
  ∑ i, ∑ j, if i = j then 0 else M i j ^ 2

end Imate.Spec
