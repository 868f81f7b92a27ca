import Verif.Lemmas.Spectrum
import Mathlib.Analysis.Convex.Jensen
import Mathlib.Analysis.Matrix.Spectrum
import Mathlib.Analysis.Matrix.PosDef
import Mathlib.Algebra.Order.Star.Real

/-! The trace of a convex function of a matrix is convex. -/

namespace Imate.Interp

open Matrix Finset

variable {n : ℕ}

theorem quad_cfc {A : Matrix (Fin n) (Fin n) ℝ} (hA : A.IsHermitian) (f : ℝ → ℝ) (u : Fin n → ℝ) :
    u ⬝ᵥ (cfc f A *ᵥ u) =
      ∑ i, ((star (hA.eigenvectorUnitary : Matrix (Fin n) (Fin n) ℝ) *ᵥ u) i) ^ 2 * f (hA.eigenvalues i) := by
  have hst : star (hA.eigenvectorUnitary : Matrix (Fin n) (Fin n) ℝ) =
      (hA.eigenvectorUnitary : Matrix (Fin n) (Fin n) ℝ)ᵀ := by
    rw [star_eq_conjTranspose, conjTranspose_eq_transpose_of_trivial]
  rw [hA.cfc_eq, IsHermitian.cfc, Unitary.conjStarAlgAut_apply, ← mulVec_mulVec, ← mulVec_mulVec,
    dotProduct_mulVec]
  simp only [Unitary.coe_star, hst]
  rw [← mulVec_transpose]
  simp only [dotProduct, mulVec_diagonal]
  refine sum_congr rfl fun i _ => ?_
  simp only [Function.comp]
  rw [RCLike.ofReal_real_eq_id, id]
  ring

theorem weights_sum {A : Matrix (Fin n) (Fin n) ℝ} (hA : A.IsHermitian) (u : Fin n → ℝ) :
    ∑ i, ((star (hA.eigenvectorUnitary : Matrix (Fin n) (Fin n) ℝ) *ᵥ u) i) ^ 2 = u ⬝ᵥ u := by
  have hst : star (hA.eigenvectorUnitary : Matrix (Fin n) (Fin n) ℝ) =
      (hA.eigenvectorUnitary : Matrix (Fin n) (Fin n) ℝ)ᵀ := by
    rw [star_eq_conjTranspose, conjTranspose_eq_transpose_of_trivial]
  have h2 : (hA.eigenvectorUnitary : Matrix (Fin n) (Fin n) ℝ) *
      star (hA.eigenvectorUnitary : Matrix (Fin n) (Fin n) ℝ) = 1 := Unitary.coe_mul_star_self hA.eigenvectorUnitary
  calc _ = (star (hA.eigenvectorUnitary : Matrix (Fin n) (Fin n) ℝ) *ᵥ u) ⬝ᵥ
        (star (hA.eigenvectorUnitary : Matrix (Fin n) (Fin n) ℝ) *ᵥ u) := by
        simp only [dotProduct, pow_two]
    _ = u ⬝ᵥ u := by
        rw [dotProduct_mulVec, hst, vecMul_transpose, mulVec_mulVec, ← hst, h2, one_mulVec]

theorem cfc_self_eq {A : Matrix (Fin n) (Fin n) ℝ} (hA : A.IsHermitian) : cfc (fun x : ℝ => x) A = A :=
  cfc_id' ℝ A hA

/-- Jensen's inequality for a unit vector. -/
theorem peierls {A : Matrix (Fin n) (Fin n) ℝ} (hA : A.PosDef) {f : ℝ → ℝ} (hf : ConvexOn ℝ (Set.Ioi 0) f)
    {u : Fin n → ℝ} (hu : u ⬝ᵥ u = 1) : f (u ⬝ᵥ (A *ᵥ u)) ≤ u ⬝ᵥ (cfc f A *ᵥ u) := by
  have h1 := quad_cfc hA.1 (fun x => x) u
  rw [cfc_self_eq hA.1] at h1
  rw [h1, quad_cfc hA.1 f u]
  exact hf.map_sum_le (fun i _ => sq_nonneg _) (by rw [weights_sum, hu])
    (fun i _ => hA.eigenvalues_pos i)

/-- The trace of a convex function is convex. -/
theorem trace_convex {A B : Matrix (Fin n) (Fin n) ℝ} (hA : A.PosDef) (hB : B.PosDef) {f : ℝ → ℝ}
    (hf : ConvexOn ℝ (Set.Ioi 0) f) {a b : ℝ} (ha : 0 < a) (hb : 0 < b) (hab : a + b = 1) :
    (cfc f (a • A + b • B)).trace ≤ a * (cfc f A).trace + b * (cfc f B).trace := by
  have hX : (a • A + b • B).PosDef := (hA.smul ha).add (hB.smul hb)
  set X := a • A + b • B
  set U := (hX.1.eigenvectorUnitary : Matrix (Fin n) (Fin n) ℝ)
  have hst : star U = Uᵀ := by
    rw [star_eq_conjTranspose, conjTranspose_eq_transpose_of_trivial]
  have h1 : Uᵀ * U = 1 := by rw [← hst]; exact Unitary.coe_star_mul_self hX.1.eigenvectorUnitary
  have h2 : U * Uᵀ = 1 := by rw [← hst]; exact Unitary.coe_mul_star_self hX.1.eigenvectorUnitary
  -- the sum of a quadratic form over the eigenvectors is the trace
  have htr : ∀ M : Matrix (Fin n) (Fin n) ℝ, M.trace = ∑ k, U.col k ⬝ᵥ (M *ᵥ U.col k) := by
    intro M
    have : M.trace = (Uᵀ * M * U).trace := by
      rw [trace_mul_comm, ← Matrix.mul_assoc, h2, Matrix.one_mul]
    rw [this]
    simp only [Matrix.trace, diag_apply]
    refine sum_congr rfl fun k _ => ?_
    rw [Matrix.mul_assoc]
    simp only [mul_apply, dotProduct, mulVec, transpose_apply, col_apply]
  have hunit : ∀ k, U.col k ⬝ᵥ U.col k = 1 := by
    intro k
    have := congrFun (congrFun h1 k) k
    simpa [mul_apply, dotProduct] using this
  have hw : ∀ k, star U *ᵥ U.col k = Pi.single k 1 := by
    intro k
    rw [hst]
    funext i
    have := congrFun (congrFun h1 i) k
    simp only [mul_apply, transpose_apply] at this
    simp only [mulVec, dotProduct, transpose_apply, col_apply, this]
    rw [Matrix.one_apply, Pi.single_apply]
  have heig : ∀ g : ℝ → ℝ, ∀ k, U.col k ⬝ᵥ (cfc g X *ᵥ U.col k) = g (hX.1.eigenvalues k) := by
    intro g k
    rw [quad_cfc hX.1, hw k]
    simp [Pi.single_apply]
  rw [htr, htr (cfc f A), htr (cfc f B), mul_sum, mul_sum, ← sum_add_distrib]
  refine sum_le_sum fun k _ => ?_
  rw [heig]
  have hk : hX.1.eigenvalues k = a * (U.col k ⬝ᵥ (A *ᵥ U.col k)) + b * (U.col k ⬝ᵥ (B *ᵥ U.col k)) := by
    have := heig (fun x => x) k
    rw [cfc_self_eq hX.1] at this
    rw [← this]
    simp only [X, add_mulVec, smul_mulVec, dotProduct_add, dotProduct_smul, smul_eq_mul]
  have hne : U.col k ≠ 0 := fun h => by
    have := hunit k
    rw [h] at this
    simp at this
  have hpos : ∀ {M : Matrix (Fin n) (Fin n) ℝ}, M.PosDef → U.col k ⬝ᵥ (M *ᵥ U.col k) ∈ Set.Ioi (0 : ℝ) := by
    intro M hM
    have := hM.dotProduct_mulVec_pos hne
    simpa using this
  rw [hk]
  refine (hf.2 (hpos hA) (hpos hB) ha.le hb.le hab).trans ?_
  simp only [smul_eq_mul]
  have := peierls hA hf (hunit k)
  have := peierls hB hf (hunit k)
  gcongr

end Imate.Interp
