import Verif.Spec.RoundedLanczos

/-!
# Specification: the Lanczos recurrence with vectors that are nearly orthonormal
-/

namespace Imate.Spec

open Matrix

variable {n : ℕ}

/-- The coefficients `alpha`, `beta` of `size` steps come from vectors `v 0, ..., v (size - 1)`: the first is the direction of
the start vector `z`, all have length one, `alpha k` is the Rayleigh quotient of `v k`. -/
structure UnitVectors (M : Matrix (Fin n) (Fin n) ℝ) (z : Fin n → ℝ) (size : ℕ) (alpha : ℕ → ℝ) (eUnit eAlpha : ℝ)
    (v : ℕ → Fin n → ℝ) : Prop where
  start : ∀ i, |v 0 i - z i / len z| ≤ eUnit * |z i / len z|
  unit : ∀ k < size, |len (v k) - 1| ≤ eUnit
  diagonal : ∀ k < size, |alpha k - v k ⬝ᵥ (M *ᵥ v k)| ≤ eAlpha

/-- The vectors are orthogonal and satisfy `M v_k = β_k v_{k+1} + α_k v_k + β_{k-1} v_{k-1}`, both up to small errors; the last
`beta` is the length of the residual, which is orthogonal to all of them. -/
structure OrthogonalLanczos (M : Matrix (Fin n) (Fin n) ℝ) (size : ℕ) (alpha beta : ℕ → ℝ) (eOrth eRec eLast eRes : ℝ)
    (v : ℕ → Fin n → ℝ) : Prop where
  orthogonal : ∀ i < size, ∀ k < size, i ≠ k → |v i ⬝ᵥ v k| ≤ eOrth
  recurrence : ∀ k, k + 1 < size → len (fun i => beta k * v (k + 1) i - rest M alpha beta v k i) ≤ eRec
  last : ∃ r : Fin n → ℝ, len (fun i => r i - rest M alpha beta v (size - 1) i) ≤ eRec ∧
    |beta (size - 1) - len r| ≤ eLast * len r ∧ ∀ i < size, |v i ⬝ᵥ r| ≤ eRes

end Imate.Spec
