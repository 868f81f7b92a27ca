import Verif.Spec.Lapack
import Verif.Spec.RoundedLanczos

/-!
# Specification: LAPACK in floating-point arithmetic
-/

namespace Imate.Spec

open Matrix

/-- What the documentation of LAPACK promises of `xSTEV` in floating-point arithmetic: the eigenvalues returned are those of
a matrix `T + E` with `‖E‖ ≤ δ ‖T‖`, and the components of the eigenvectors returned are within `η` of those of orthonormal
eigenvectors of `T + E`, for matrices of order at most `m`.  Only the first component of each eigenvector is used by SLQ. -/
def StableEigh (m : ℕ) (δ η : ℝ) (eigh : Nat → Array ℝ → Array ℝ → Array ℝ × Array ℝ) : Prop :=
  ∀ (k : Nat) (alpha beta : Array ℝ) (hk : 0 < k), k ≤ m → k ≤ alpha.size → k ≤ beta.size →
    ∃ E Q : Matrix (Fin k) (Fin k) ℝ,
      Spectral (tridiagonal k (fun i => alpha.getD i 0) (fun i => beta.getD i 0) + E) Q
        (fun i => (eigh k alpha beta).1.getD i.1 0) ∧
      (∀ B, (∀ x, len (tridiagonal k (fun i => alpha.getD i 0) (fun i => beta.getD i 0) *ᵥ x) ≤ B * len x) →
        ∀ x, len (E *ᵥ x) ≤ δ * B * len x) ∧
      ∀ j : Fin k, |(eigh k alpha beta).2.getD (j.1 * k) 0 - Q ⟨0, hk⟩ j| ≤ η

end Imate.Spec
