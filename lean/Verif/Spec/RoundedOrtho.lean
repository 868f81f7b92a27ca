import Verif.Spec.RoundedLanczos

/-!
# Specification: vectors that are orthogonal up to small errors
-/

namespace Imate.Spec

open Matrix

variable {n : ℕ}

/-- How many vectors the process uses: the last `numOrtho` of the `N` vectors, all of them for a negative number or one that
is too large, and never more than the dimension. -/
def windowSize (n N : ℕ) (numOrtho : ℤ) : ℕ := min n (if numOrtho < 0 ∨ (N : ℤ) < numOrtho then N else numOrtho.toNat)

/-- Row `i` of the cyclic buffer of `N` rows was written less than `k` steps before row `last`. -/
def InWindow (N last k i : ℕ) : Prop := i < N ∧ ∃ s < k, (i + s) % N = last

/-- The rows in a set have length one up to `3 ε` and are orthogonal up to `η`. -/
structure NearlyOrthonormal (ε η : ℝ) (W : ℕ → Fin n → ℝ) (S : ℕ → Prop) : Prop where
  unit : ∀ i, S i → |len (W i) - 1| ≤ 3 * ε
  orthogonal : ∀ i j, S i → S j → i ≠ j → |W i ⬝ᵥ W j| ≤ η

end Imate.Spec
