import Verif.Spec.Hutchinson
import Verif.Lemmas.Mem
import Mathlib.LinearAlgebra.Matrix.NonsingularInverse
import Mathlib.LinearAlgebra.Matrix.Trace
import Mathlib.Analysis.Real.Sqrt
import Mathlib.Algebra.Order.Star.Real
import Mathlib.Tactic.Linarith
import Mathlib.Tactic.NormNum
import Mathlib.Tactic.Abel
import Mathlib.Tactic.Ring

/-! Lemmas about the Hutchinson method. -/

namespace Imate.Hutchinson

open Matrix Imate.Spec

variable {n : ℕ} {solve : Solver ℝ} {a : Assume}

theorem mulVec_square (M : Matrix (Fin n) (Fin n) ℝ) (v : Fin n → ℝ) :
    Mat.mulVec ⟨n, n, M⟩ ⟨n, v⟩ = .ok ⟨n, M *ᵥ v⟩ := by
  unfold Mat.mulVec
  rw [dif_pos rfl]
  rfl

theorem solve_eq (hs : SolverSpec solve) {A : Matrix (Fin n) (Fin n) ℝ} (hA : Admissible a A)
    (hu : IsUnit A.det) (b : Fin n → ℝ) : solve a ⟨n, n, A⟩ ⟨n, b⟩ = .ok ⟨n, A⁻¹ *ᵥ b⟩ := by
  obtain ⟨x, h1, h2⟩ := hs.exact n a A b hA hu
  rw [h1, ← h2, mulVec_mulVec, nonsing_inv_mul A hu, one_mulVec]

theorem solveTimes_eq (hs : SolverSpec solve) {A : Matrix (Fin n) (Fin n) ℝ} (hA : Admissible a A)
    (hu : IsUnit A.det) (k : ℕ) (b : Fin n → ℝ) :
    solveTimes solve a ⟨n, n, A⟩ k ⟨n, b⟩ = .ok ⟨n, A⁻¹ ^ k *ᵥ b⟩ := by
  induction k generalizing b with
  | zero => simp [solveTimes]
  | succ k ih =>
    unfold solveTimes
    rw [solve_eq hs hA hu, Except.ok_bind', ih, mulVec_mulVec, pow_succ]

theorem admissible_transpose {A : Matrix (Fin n) (Fin n) ℝ} (hA : Admissible a A) : Admissible a Aᵀ := by
  cases a
  · trivial
  · exact hA.transpose
  · exact PosDef.transpose hA
  · exact PosDef.transpose hA

theorem admissible_gramian {A : Matrix (Fin n) (Fin n) ℝ} (hA : Admissible a A) (hu : IsUnit A.det) :
    Admissible a (Aᵀ * A) := by
  have hp : (Aᵀ * A).PosDef := by
    have h := PosDef.conjTranspose_mul_self A (mulVec_injective_of_isUnit
      ((isUnit_iff_isUnit_det A).2 hu))
    rwa [conjTranspose_eq_transpose_of_trivial] at h
  cases a
  · trivial
  · exact isSymm_transpose_mul_self A
  · exact hp
  · exact hp

theorem det_gramian {A : Matrix (Fin n) (Fin n) ℝ} (hu : IsUnit A.det) : IsUnit (Aᵀ * A).det := by
  rw [det_mul, det_transpose]
  exact hu.mul hu

theorem applyB_square (B : Option (Matrix (Fin n) (Fin n) ℝ)) (E : Fin n → ℝ) :
    applyB (B.map square) ⟨n, E⟩ = .ok ⟨n, B.getD 1 *ᵥ E⟩ := by
  cases B with
  | none => simp [applyB]
  | some B => exact mulVec_square B E

/-- the general case of `_operator_dot` -/
theorem operatorDot_eq (hs : SolverSpec solve) {A : Matrix (Fin n) (Fin n) ℝ} (hA : Admissible a A)
    {p : ℤ} (hp : -1 ≤ p) (hu : 1 ≤ p → IsUnit A.det) {gram : Bool} (hneg : p = -1 → gram = false)
    (B : Option (Matrix (Fin n) (Fin n) ℝ)) (hB : gram = true → p = 1 → B.isSome)
    (AtA : Option (Mat ℝ)) (hAtA : gram = true → AtA = some (square (Aᵀ * A))) (E : Fin n → ℝ) :
    operatorDot solve (square A) AtA (.int p) gram a (B.map square) ⟨n, E⟩ =
      .ok ⟨n, (subject gram A ^ (-p) * B.getD 1) *ᵥ E⟩ := by
  unfold operatorDot
  rw [applyB_square, Except.ok_bind']
  have hv : (Exponent.int p).val = (p : ℚ) := rfl
  rw [← mulVec_mulVec]
  by_cases h0 : p = 0
  · subst h0; rw [if_pos (by rw [hv]; norm_num)]; simp
  rw [if_neg (by rw [hv]; exact_mod_cast h0)]
  by_cases h1 : p = 1
  · subst h1
    have hu := hu le_rfl
    rw [if_pos (by rw [hv]; norm_num)]
    unfold operatorOne
    cases gram with
    | false =>
      rw [if_neg (by simp)]
      show solve a ⟨n, n, A⟩ _ = _
      rw [solve_eq hs hA hu]
      simp [subject, Matrix.zpow_neg_one]
    | true =>
      rw [if_pos rfl, hAtA rfl]
      cases B with
      | none => simp at hB
      | some B =>
        show solve a ⟨n, n, Aᵀ * A⟩ _ = _
        rw [solve_eq hs (admissible_gramian hA hu) (det_gramian hu)]
        simp [subject, Matrix.zpow_neg_one]
  rw [if_neg (by rw [hv]; exact_mod_cast h1)]
  by_cases h2 : 1 < p
  · have hu' := hu h2.le
    clear hu
    rw [if_pos (by rw [hv]; exact_mod_cast h2)]
    obtain ⟨k, rfl⟩ : ∃ k : ℕ, p = k := ⟨p.toNat, by omega⟩
    unfold operatorMany
    cases gram with
    | false =>
      show (if false = true then _ else _) = _
      rw [if_neg (by simp)]
      show solveTimes solve a ⟨n, n, A⟩ _ _ = _
      rw [solveTimes_eq hs hA hu']
      simp [subject, Matrix.zpow_neg hu', inv_pow']
    | true =>
      show (if true = true then _ else _) = _
      rw [if_pos rfl, hAtA rfl]
      show solveTimes solve a ⟨n, n, Aᵀ * A⟩ _ _ = _
      rw [solveTimes_eq hs (admissible_gramian hA hu') (det_gramian hu')]
      simp [subject, Matrix.zpow_neg (det_gramian hu'), inv_pow']
  have hm : p = -1 := by omega
  subst hm
  rw [if_neg (by rw [hv]; norm_num), if_pos (by rw [hv]; norm_num), hneg rfl]
  show Mat.mulVec ⟨n, n, A⟩ _ = _
  rw [mulVec_square]
  simp [subject]

theorem innerProduct_eq (v w : Fin n → ℝ) : innerProduct ⟨n, v⟩ ⟨n, w⟩ n = .ok (v ⬝ᵥ w) := by
  unfold innerProduct
  rw [dif_pos ⟨le_rfl, le_rfl⟩]
  rfl

end Imate.Hutchinson
