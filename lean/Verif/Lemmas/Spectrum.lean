import Mathlib.LinearAlgebra.Matrix.Charpoly.Eigs
import Mathlib.LinearAlgebra.Matrix.ZPow
import Mathlib.Analysis.Complex.Polynomial.Basic
import Mathlib.Analysis.Matrix.HermitianFunctionalCalculus

/-!
# Eigenvalues of powers and of functions of a matrix
-/

namespace Imate.Eigen

open Matrix Polynomial

variable {n : ℕ} {K : Type} [Field K] [IsAlgClosed K]

theorem det_sub (A : Matrix (Fin n) (Fin n) K) (μ : K) :
    (scalar (Fin n) μ - A).det = (A.charpoly.roots.map fun l => μ - l).prod := by
  rw [← eval_charpoly]
  conv_lhs => rw [(IsAlgClosed.splits A.charpoly).eq_prod_roots, A.charpoly_monic]
  rw [C_1, one_mul, eval_multiset_prod, Multiset.map_map]
  simp

/-- The determinant of a polynomial of a matrix. -/
theorem det_aeval (A : Matrix (Fin n) (Fin n) K) (q : K[X]) :
    (aeval A q).det = (A.charpoly.roots.map q.eval).prod := by
  have hcard : Multiset.card A.charpoly.roots = n := by
    rw [← (IsAlgClosed.splits A.charpoly).natDegree_eq_card_roots, charpoly_natDegree_eq_dim,
      Fintype.card_fin]
  have hfac : ∀ s : Multiset K, (aeval A (s.map fun a => X - C a).prod).det =
      (A.charpoly.roots.map ((s.map fun a => X - C a).prod).eval).prod := by
    intro s
    induction s using Multiset.induction with
    | empty => simp
    | cons a s ih =>
      rw [Multiset.map_cons, Multiset.prod_cons, map_mul, det_mul, ih]
      simp only [eval_mul, Multiset.prod_map_mul]
      congr 1
      have : aeval A (X - C a) = -(scalar (Fin n) a - A) := by
        simp [Algebra.algebraMap_eq_smul_one, smul_one_eq_diagonal]
      rw [this, det_neg, det_sub, Fintype.card_fin]
      have hp : (-1 : K) ^ n = (A.charpoly.roots.map fun _ => (-1 : K)).prod := by
        rw [Multiset.map_const', Multiset.prod_replicate, hcard]
      rw [hp, ← Multiset.prod_map_mul]
      congr 1
      apply Multiset.map_congr rfl
      intro l _
      simp
  rw [(IsAlgClosed.splits q).eq_prod_roots, map_mul, det_mul, hfac, aeval_C]
  simp only [eval_mul, eval_C, Multiset.prod_map_mul]
  congr 1
  rw [Multiset.map_const', Multiset.prod_replicate, hcard, Algebra.algebraMap_eq_smul_one, det_smul]
  simp

/-- The eigenvalues of a polynomial of a matrix. -/
theorem charpoly_aeval (A : Matrix (Fin n) (Fin n) K) (q : K[X]) :
    (aeval A q).charpoly = (A.charpoly.roots.map fun l => X - C (q.eval l)).prod := by
  apply Polynomial.funext
  intro x
  rw [eval_charpoly, eval_multiset_prod, Multiset.map_map]
  have : scalar (Fin n) x - aeval A q = aeval A (C x - q) := by
    simp [Algebra.algebraMap_eq_smul_one, smul_one_eq_diagonal]
  rw [this, det_aeval]
  simp [Function.comp_def]

theorem trace_of_charpoly {A : Matrix (Fin n) (Fin n) K} {s : Multiset K}
    (h : A.charpoly = (s.map fun l => X - C l).prod) : A.trace = s.sum := by
  rw [trace_eq_sum_roots_charpoly, h, roots_multiset_prod_X_sub_C]

theorem trace_pow (A : Matrix (Fin n) (Fin n) K) (k : ℕ) :
    (A ^ k).trace = (A.charpoly.roots.map (· ^ k)).sum := by
  have := charpoly_aeval A (X ^ k)
  rw [aeval_X_pow] at this
  refine trace_of_charpoly ?_
  rw [this, Multiset.map_map]
  simp [Function.comp_def]

theorem roots_ne_zero {A : Matrix (Fin n) (Fin n) K} (hA : IsUnit A.det) {l : K}
    (hl : l ∈ A.charpoly.roots) : l ≠ 0 := by
  rintro rfl
  rw [det_eq_prod_roots_charpoly] at hA
  exact hA.ne_zero (Multiset.prod_eq_zero hl)

theorem trace_inv_pow (A : Matrix (Fin n) (Fin n) K) (hA : IsUnit A.det) (k : ℕ) :
    ((A ^ k)⁻¹).trace = (A.charpoly.roots.map fun l => (l ^ k)⁻¹).sum := by
  have hk : IsUnit (A ^ k).det := by rw [det_pow]; exact hA.pow k
  have h0 : ∀ l ∈ A.charpoly.roots, l ^ k ≠ 0 := fun l hl => pow_ne_zero _ (roots_ne_zero hA hl)
  refine trace_of_charpoly ?_
  apply Polynomial.funext
  intro x
  rw [eval_charpoly, eval_multiset_prod, Multiset.map_map, Multiset.map_map]
  have h1 : (scalar (Fin n) x - (A ^ k)⁻¹) * A ^ k = aeval A (C x * X ^ k - 1) := by
    rw [Matrix.sub_mul, nonsing_inv_mul _ hk]
    simp [Algebra.algebraMap_eq_smul_one, smul_one_eq_diagonal]
  have h2 := congrArg det h1
  have hpow : A.charpoly.roots.prod ^ k = (A.charpoly.roots.map fun l => l ^ k).prod := by
    have := Multiset.prod_map_pow (m := A.charpoly.roots) (f := fun l => l) (n := k)
    simpa using this.symm
  rw [det_mul, det_aeval, det_pow, det_eq_prod_roots_charpoly A, hpow] at h2
  have h3 : (A.charpoly.roots.map fun l => l ^ k).prod ≠ 0 := by
    rw [Ne, Multiset.prod_eq_zero_iff, Multiset.mem_map]
    rintro ⟨l, hl, e⟩
    exact h0 l hl e
  apply mul_right_cancel₀ h3
  rw [h2, ← Multiset.prod_map_mul]
  congr 1
  apply Multiset.map_congr rfl
  intro l hl
  have := h0 l hl
  simp
  field_simp

/-- The trace of a real function of a symmetric matrix. -/
theorem trace_cfc {A : Matrix (Fin n) (Fin n) ℝ} (hA : A.IsHermitian) (f : ℝ → ℝ) :
    (cfc f A).trace = (A.charpoly.roots.map f).sum := by
  have hr : A.charpoly.roots = Multiset.map hA.eigenvalues Finset.univ.val := by
    rw [hA.roots_charpoly_eq_eigenvalues]
    simp
  rw [hr, Multiset.map_map, hA.cfc_eq, IsHermitian.cfc, Unitary.conjStarAlgAut_apply, trace_mul_comm,
    ← Matrix.mul_assoc]
  simp [Matrix.trace, Finset.sum]

end Imate.Eigen
