import Verif.Spec.Eigenvalue

/-! Specification vocabulary for C106: the end of the spectrum that ARPACK returns. -/

namespace Imate.Spec

open Matrix Imate.Eigen

/-- The numbers of `l` are at the wanted end of those of `l` and `s`, ordered by `size`. -/
def AtEnd {α : Type} (w : Which) (size : α → ℝ) (l s : Multiset α) : Prop :=
  match w with
  | .largest => ∀ x ∈ l, ∀ y ∈ s, size y ≤ size x
  | .smallest => ∀ x ∈ l, ∀ y ∈ s, size x ≤ size y
  | .bothEnds => True

/-- What is assumed of ARPACK beside `EigSpec`: `which='LM'` and `which='SM'` give the eigenvalues of largest and of smallest
absolute value.  A matrix with more columns than rows has eigenvalues zero of the Gramian that are no singular values. -/
structure EndSpec (lib : Lib) : Prop where
  eigs_end : ∀ (w : Which) (k n : ℕ) (A : Matrix (Fin n) (Fin n) ℝ) (l : List ℂ), lib.eigs w k n A = .ok l →
    ∃ s, (l : Multiset ℂ) + s = complexEigenvalues A ∧ AtEnd w (fun z => ‖z‖) (l : Multiset ℂ) s
  eigsh_end : ∀ (w : Which) (k n : ℕ) (A : Matrix (Fin n) (Fin n) ℝ) (l : List ℝ), lib.eigsh w k n A = .ok l →
    ∃ s, (l : Multiset ℝ) + s = realEigenvalues (lowerSymm A) ∧ AtEnd w (fun x => |x|) (l : Multiset ℝ) s
  svds_end : ∀ (w : Which) (k m n : ℕ) (A : Matrix (Fin m) (Fin n) ℝ) (l : List ℝ), lib.svds w k m n A = .ok l →
    ∃ s, ((l.map (· ^ 2) : List ℝ) : Multiset ℝ) + s = realEigenvalues (Aᵀ * A) ∧
      (n ≤ m ∨ w = .largest → AtEnd w (fun x => x) ((l.map (· ^ 2) : List ℝ) : Multiset ℝ) s)

end Imate.Spec
