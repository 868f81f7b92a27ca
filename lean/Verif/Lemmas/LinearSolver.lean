import Verif.Spec.LinearSolver
import Verif.Lemmas.Hutchinson
import Mathlib.Algebra.Order.BigOperators.Ring.Finset
import Mathlib.Tactic.Positivity
import Mathlib.Tactic.FieldSimp

/-! Perturbation of solutions of linear systems. -/

namespace Imate.LinearSolver
open Matrix Imate.Spec Imate.Hutchinson

variable {n : ℕ}

theorem dot_self_nonneg (x : Fin n → ℝ) : 0 ≤ x ⬝ᵥ x :=
  Finset.sum_nonneg (fun i _ => mul_self_nonneg (x i))

theorem norm2_nonneg (x : Fin n → ℝ) : 0 ≤ norm2 x := Real.sqrt_nonneg _

theorem norm2_sq (x : Fin n → ℝ) : norm2 x ^ 2 = x ⬝ᵥ x := Real.sq_sqrt (dot_self_nonneg x)

theorem abs_dot_le (x y : Fin n → ℝ) : |x ⬝ᵥ y| ≤ norm2 x * norm2 y := by
  apply abs_le_of_sq_le_sq _ (mul_nonneg (norm2_nonneg x) (norm2_nonneg y))
  rw [mul_pow, norm2_sq, norm2_sq]
  have h := Finset.sum_mul_sq_le_sq_mul_sq Finset.univ x y
  simp only [dotProduct]
  have e : ∀ z : Fin n → ℝ, ∑ i, z i * z i = ∑ i, z i ^ 2 := fun z =>
    Finset.sum_congr rfl (fun i _ => by ring)
  rw [e, e]
  exact h

theorem norm2_add_le (x y : Fin n → ℝ) : norm2 (x + y) ≤ norm2 x + norm2 y := by
  apply Real.sqrt_le_iff.2
  refine ⟨add_nonneg (norm2_nonneg x) (norm2_nonneg y), ?_⟩
  have h := abs_le.1 (abs_dot_le x y)
  have hc : y ⬝ᵥ x = x ⬝ᵥ y := dotProduct_comm y x
  rw [add_dotProduct, dotProduct_add, dotProduct_add, hc]
  nlinarith [norm2_sq x, norm2_sq y, h.2]

theorem norm2_zero : norm2 (0 : Fin n → ℝ) = 0 := by simp [norm2]

/-- a bounded below matrix stretches by at least `μ` -/
theorem norm2_le_of_mulVec {μ : ℝ} (hμ : 0 < μ) {A : Matrix (Fin n) (Fin n) ℝ} (hA : BoundedBelow μ A)
    {e r : Fin n → ℝ} (h : A *ᵥ e = r) : norm2 e ≤ norm2 r / μ := by
  rw [le_div_iff₀ hμ]
  by_cases h0 : norm2 e = 0
  · rw [h0, zero_mul]; exact norm2_nonneg r
  · have hp : 0 < norm2 e := lt_of_le_of_ne (norm2_nonneg e) (Ne.symm h0)
    have h1 := hA e
    rw [h, ← norm2_sq] at h1
    have h2 := (abs_le.1 (abs_dot_le e r)).2
    have h3 : norm2 e * (norm2 e * μ) ≤ norm2 e * norm2 r := by nlinarith
    exact le_of_mul_le_mul_left h3 hp

theorem isUnit_det {μ : ℝ} (hμ : 0 < μ) {A : Matrix (Fin n) (Fin n) ℝ} (hA : BoundedBelow μ A) :
    IsUnit A.det := by
  rw [← isUnit_iff_isUnit_det, ← mulVec_injective_iff_isUnit]
  intro x y hxy
  have h1 : A *ᵥ (x - y) = 0 := by
    rw [mulVec_sub]; exact sub_eq_zero.2 hxy
  have h2 := norm2_le_of_mulVec hμ hA h1
  rw [norm2_zero, zero_div] at h2
  have h3 : norm2 (x - y) = 0 := le_antisymm h2 (norm2_nonneg _)
  have h4 := norm2_sq (x - y)
  rw [h3] at h4
  have h5 : x - y = 0 := dotProduct_self_eq_zero.1 (by linarith)
  exact sub_eq_zero.1 h5

theorem boundedBelow_transpose {μ : ℝ} {A : Matrix (Fin n) (Fin n) ℝ} (hA : BoundedBelow μ A) :
    BoundedBelow μ Aᵀ := by
  intro x
  have := hA x
  rwa [dotProduct_mulVec, ← mulVec_transpose, dotProduct_comm (Aᵀ *ᵥ x)] at this

theorem norm2_inv_mulVec {μ : ℝ} (hμ : 0 < μ) {A : Matrix (Fin n) (Fin n) ℝ} (hA : BoundedBelow μ A)
    (b : Fin n → ℝ) : norm2 (A⁻¹ *ᵥ b) ≤ norm2 b / μ := by
  apply norm2_le_of_mulVec hμ hA
  rw [mulVec_mulVec, mul_nonsing_inv A (isUnit_det hμ hA), one_mulVec]

/-- the error of an approximate solution -/
theorem error_le {μ : ℝ} (hμ : 0 < μ) {A : Matrix (Fin n) (Fin n) ℝ} (hA : BoundedBelow μ A)
    {tol : ℝ} {b x : Fin n → ℝ} (h : norm2 (b - A *ᵥ x) ≤ tol * norm2 b) :
    norm2 (x - A⁻¹ *ᵥ b) ≤ tol * norm2 b / μ := by
  have h1 : A *ᵥ (A⁻¹ *ᵥ b - x) = b - A *ᵥ x := by
    rw [mulVec_sub, mulVec_mulVec, mul_nonsing_inv A (isUnit_det hμ hA), one_mulVec]
  have h2 := norm2_le_of_mulVec hμ hA h1
  have h3 : norm2 (x - A⁻¹ *ᵥ b) = norm2 (A⁻¹ *ᵥ b - x) := by
    unfold norm2
    rw [← neg_sub x, neg_dotProduct_neg]
  rw [h3]
  exact h2.trans (div_le_div_of_nonneg_right h hμ.le)

/-- the routine that serves `assume_matrix` -/
theorem linearSolver_ok {S : Scipy ℝ} {a : Assume} (hspec : IterativeSpec (choose S a))
    {A : Matrix (Fin n) (Fin n) ℝ} {tol : ℝ} (hconv : Converges (choose S a) A tol) (b : Fin n → ℝ) :
    ∃ x : Fin n → ℝ, linearSolver S true tol a ⟨n, n, A⟩ ⟨n, b⟩ = .ok ⟨n, x⟩ ∧
      norm2 (b - A *ᵥ x) ≤ tol * norm2 b := by
  obtain ⟨x, info, h1, h2⟩ := hspec n A b tol
  refine ⟨x, ?_, h2 (hconv b _ _ h1)⟩
  have hc : choose S (rename a) = choose S a := by cases a <;> rfl
  unfold linearSolver
  dsimp only
  rw [if_pos rfl, hc, h1]
  rfl

theorem solveTimes_error {S : Scipy ℝ} {a : Assume} (hspec : IterativeSpec (choose S a))
    {A : Matrix (Fin n) (Fin n) ℝ} {tol μ : ℝ} (ht : 0 ≤ tol) (hμ : 0 < μ) (hA : BoundedBelow μ A)
    (hconv : Converges (choose S a) A tol) (k : ℕ) (b : Fin n → ℝ) :
    ∃ x : Fin n → ℝ, solveTimes (linearSolver S true tol) a ⟨n, n, A⟩ k ⟨n, b⟩ = .ok ⟨n, x⟩ ∧
      norm2 (x - A⁻¹ ^ k *ᵥ b) ≤ ((1 + tol) ^ k - 1) / μ ^ k * norm2 b := by
  induction k generalizing b with
  | zero => exact ⟨b, rfl, by simp [norm2_zero]⟩
  | succ k ih =>
    obtain ⟨y, hy1, hy2⟩ := linearSolver_ok hspec hconv b
    obtain ⟨x, hx1, hx2⟩ := ih y
    refine ⟨x, ?_, ?_⟩
    · unfold solveTimes
      rw [hy1, Except.ok_bind']
      exact hx1
    · have he := error_le hμ hA hy2
      -- powers of the inverse shrink by `μ`
      have hpow : ∀ (j : ℕ) (v : Fin n → ℝ), norm2 (A⁻¹ ^ j *ᵥ v) ≤ norm2 v / μ ^ j := by
        intro j
        induction j with
        | zero => intro v; simp
        | succ j ihj =>
          intro v
          rw [pow_succ, ← mulVec_mulVec]
          refine (ihj _).trans ?_
          rw [pow_succ, mul_comm, ← div_div]
          exact div_le_div_of_nonneg_right (norm2_inv_mulVec hμ hA v) (by positivity)
      have e1 : x - A⁻¹ ^ (k + 1) *ᵥ b = (x - A⁻¹ ^ k *ᵥ y) + A⁻¹ ^ k *ᵥ (y - A⁻¹ *ᵥ b) := by
        rw [mulVec_sub, mulVec_mulVec, ← pow_succ]; abel
      rw [e1]
      refine (norm2_add_le _ _).trans ?_
      have hb0 := norm2_nonneg b
      have hy : norm2 y ≤ (1 + tol) * norm2 b / μ := by
        have e2 : y = A⁻¹ *ᵥ b + (y - A⁻¹ *ᵥ b) := by abel
        rw [e2]
        refine (norm2_add_le _ _).trans ?_
        have := norm2_inv_mulVec hμ hA b
        have e3 : (1 + tol) * norm2 b / μ = norm2 b / μ + tol * norm2 b / μ := by ring
        rw [e3]
        exact add_le_add this he
      have hc : 0 ≤ ((1 + tol) ^ k - 1) / μ ^ k := by
        apply div_nonneg _ (by positivity)
        have : (1 : ℝ) ≤ (1 + tol) ^ k := one_le_pow₀ (by linarith)
        linarith
      have h1 := mul_le_mul_of_nonneg_left hy hc
      have h2 := (hpow k (y - A⁻¹ *ᵥ b)).trans (div_le_div_of_nonneg_right he (by positivity : 0 ≤ μ ^ k))
      have e4 : ((1 + tol) ^ (k + 1) - 1) / μ ^ (k + 1) * norm2 b =
          ((1 + tol) ^ k - 1) / μ ^ k * ((1 + tol) * norm2 b / μ) + tol * norm2 b / μ / μ ^ k := by
        field_simp
        ring
      rw [e4]
      exact add_le_add (hx2.trans h1) h2

end Imate.LinearSolver
