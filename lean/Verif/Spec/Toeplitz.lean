import Mathlib.Data.Matrix.Basic
import Mathlib.Data.Real.Basic

/-!
# The documented Toeplitz matrices

`imate/sample_matrices/toeplitz.py:37-74` shows them entry by entry.
-/

namespace Imate.Spec

/-- `a` on the diagonal, `b` on the first diagonal above it. -/
def toeplitzBidiagonal (a b : ℝ) (n : ℕ) : Matrix (Fin n) (Fin n) ℝ := fun i j =>
  if i = j then a else if i.1 + 1 = j.1 then b else 0

/-- `a ^ 2` in the first position of the diagonal, `a ^ 2 + b ^ 2` in the others, `a b` next to the diagonal. -/
def toeplitzTridiagonal (a b : ℝ) (n : ℕ) : Matrix (Fin n) (Fin n) ℝ := fun i j =>
  if i = j then (if i.1 = 0 then a ^ 2 else a ^ 2 + b ^ 2)
  else if i.1 + 1 = j.1 ∨ j.1 + 1 = i.1 then a * b else 0

end Imate.Spec
