import Mathlib.Data.Real.Basic
import Mathlib.Data.Matrix.Mul

/-! # Specification: which vectors a new vector is orthogonalized against -/

namespace Imate.Spec

open Matrix

/-- The documented number of vectors a new one is orthogonalized against, out of the `previous` ones, when `orthogonalize = q` and
`lanczos_degree = m` (trace/_slq_method.pyx:170-182): all for a negative number or one above `m`, and the last `q` otherwise. -/
def documentedWindow (m : ℕ) (q : ℤ) (previous : ℕ) : ℕ := if q < 0 ∨ (m : ℤ) < q then previous else min q.toNat previous

/-- The vectors `W i` with `i` in `I` are orthonormal. -/
def OrthonormalOn {n : ℕ} (W : ℕ → Fin n → ℝ) (I : Set ℕ) : Prop := ∀ i ∈ I, ∀ k ∈ I, W i ⬝ᵥ W k = if i = k then 1 else 0

/-- The coefficients of `v` along the vectors `W i` with `i` in `I` are not within `2 eps` of `1` and `-1`, where the code may take the
vectors to be equal and skip a step. -/
def NotParallel {n : ℕ} (eps : ℝ) (W : ℕ → Fin n → ℝ) (I : Set ℕ) (v : Fin n → ℝ) : Prop := ∀ i ∈ I, 2 * eps < |(|W i ⬝ᵥ v| - 1)|

end Imate.Spec
