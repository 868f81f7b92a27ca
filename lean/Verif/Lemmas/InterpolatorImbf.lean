import Verif.Lemmas.Interpolator
import Mathlib.LinearAlgebra.Matrix.Block

/-! The inverse monomial method: its systems can be solved. -/

namespace Imate.Interp

open Imate.Spec Matrix Finset

variable {n : ℕ} {P : Problem n}

theorem phi_injective {k : ℕ} (c : ℕ) : Function.Injective fun j : Fin k => 1 / (((j : ℕ) + c + 1 : ℕ) : ℝ) := by
  intro i j hij
  simp only [one_div, _root_.inv_inj, Nat.cast_inj] at hij
  exact Fin.ext (by omega)

theorem det_phi_ne_zero {k : ℕ} (c : ℕ) {t : Fin k → ℝ} (ht : Function.Injective t) (hpos : ∀ i, 0 < t i)
    {v : Fin k → ℝ} (h : ∀ i, ∑ j, v j * phi ((j : ℕ) + c + 1) (t i) = 0) : v = 0 :=
  rpowSum_eq_zero (phi_injective c) ht hpos h

/-- A triangular table has no left kernel. -/
theorem table_kernel {a : List (List ℤ)} {alpha : ℕ → ℝ} (hu : ∀ j < 9, ∀ i < 9, j < i → tableGet a j i = 0)
    (hd : ∀ j < 9, tableGet a j j ≠ 0) (ha : ∀ j, alpha j ≠ 0) {k : ℕ} (hk : k ≤ 9) {v : Fin k → ℝ}
    (h : ∀ m : Fin k, ∑ j, v j * (alpha j * (tableGet a j m : ℝ)) = 0) : v = 0 := by
  classical
  by_contra hv
  have hdet : (Matrix.of fun j m : Fin k => alpha j * (tableGet a j m : ℝ)).det = 0 := by
    refine Matrix.exists_vecMul_eq_zero_iff.1 ⟨v, hv, ?_⟩
    funext m
    simp only [vecMul, dotProduct, of_apply, Pi.zero_apply]
    exact h m
  rw [Matrix.det_of_isLowerTriangular, prod_eq_zero_iff] at hdet
  · obtain ⟨j, -, hj⟩ := hdet
    simp only [of_apply, mul_eq_zero, Int.cast_eq_zero] at hj
    rcases hj with hj | hj
    · exact ha _ hj
    · exact hd j (by omega) hj
  · intro i j hij
    have hij : i < j := hij
    rw [of_apply, hu i (by omega) j (by omega) hij]
    simp

theorem alphaOrtho_ne (j : ℕ) : alphaOrtho j ≠ 0 := by
  unfold alphaOrtho
  have : 0 < Real.sqrt (2 / ((j : ℝ) + 1)) := Real.sqrt_pos.2 (by positivity)
  exact mul_ne_zero (pow_ne_zero _ (by norm_num)) this.ne'

theorem alphaOrtho2_ne (j : ℕ) : alphaOrtho2 j ≠ 0 := by
  unfold alphaOrtho2
  have : 0 < Real.sqrt (2 / ((j : ℝ) + 2)) := Real.sqrt_pos.2 (by positivity)
  exact mul_ne_zero (pow_ne_zero _ (by norm_num)) this.ne'

theorem tableOrtho_upper : ∀ j < 9, ∀ i < 9, j < i → tableGet tableOrtho j i = 0 := by decide +kernel
theorem tableOrtho_diag : ∀ j < 9, tableGet tableOrtho j j ≠ 0 := by decide +kernel
theorem tableOrtho2_upper : ∀ j < 9, ∀ i < 9, j < i → tableGet tableOrtho2 j i = 0 := by decide +kernel
theorem tableOrtho2_diag : ∀ j < 9, tableGet tableOrtho2 j j ≠ 0 := by decide +kernel

/-- A combination of basis functions, sorted by the monomials. -/
theorem basis_regroup {a : List (List ℤ)} (alpha : ℕ → ℝ)
    (hu : ∀ j < 9, ∀ i < 9, j < i → tableGet a j i = 0) {k : ℕ} (hk : k ≤ 9) (v : Fin k → ℝ) (g : ℕ → ℝ) :
    ∑ j : Fin k, v j * ∑ i ∈ range 9, alpha j * (tableGet a j i : ℝ) * g i =
      ∑ m : Fin k, (∑ j : Fin k, v j * (alpha j * (tableGet a j m : ℝ))) * g m := by
  have h1 : ∀ j : Fin k, ∑ i ∈ range 9, alpha j * (tableGet a j i : ℝ) * g i =
      ∑ m : Fin k, alpha j * (tableGet a j m : ℝ) * g m := by
    intro j
    rw [← sum_range (fun m => alpha j * (tableGet a j m : ℝ) * g m)]
    symm
    refine sum_subset (range_subset_range.2 hk) fun i hi hi' => ?_
    simp only [mem_range, not_lt] at hi hi'
    rw [hu j (by omega) i hi (by omega)]
    simp
  simp only [h1, mul_sum, sum_mul]
  rw [sum_comm]
  exact sum_congr rfl fun m _ => sum_congr rfl fun j _ => by ring

theorem imbf_some {b : Base} {l : List ℝ} (hb : BaseOf P l b) (hl : ∀ t ∈ l, 0 < t) (hnd : l.Nodup) {basis : Basis}
    (h1 : basis = .ortho → l.length ≤ 8) (h2 : basis = .ortho2 → l.length ≤ 9) :
    ∃ m, imbfInit basis b = .ok m := by
  classical
  have hinj := hb.t_injective hnd
  have hpos : ∀ i, 0 < b.t i := fun i => hl _ (hb.t_mem i)
  have hs : 0 < scaleT b.nodes := lt_of_lt_of_le one_pos (scaleT_pos _)
  have hlen := hb.length
  have hinj' : Function.Injective fun i => b.t i / scaleT b.nodes := fun i j hij => hinj (by
    simpa [div_left_inj' hs.ne'] using hij)
  have hpos' : ∀ i, 0 < b.t i / scaleT b.nodes := fun i => div_pos (hpos i) hs
  unfold imbfInit
  cases basis with
  | nonOrtho =>
    obtain ⟨w, hw⟩ := solve_some (C := imbfMatrix .nonOrtho b 1) (by
      intro hdet
      obtain ⟨v, hv, h⟩ := Matrix.exists_mulVec_eq_zero_iff.2 hdet
      refine hv (det_phi_ne_zero 1 hinj hpos fun i => ?_)
      have := congrFun h i
      simp only [mulVec, dotProduct, imbfMatrix, of_apply, Pi.zero_apply, div_one, basisFun] at this
      rw [← this]
      exact sum_congr rfl fun j _ => mul_comm _ _) (fun i => b.tau i - b.tau0 - b.t i)
    simp only [hw, bind, Except.bind]
    exact ⟨_, rfl⟩
  | ortho =>
    have h8 := h1 rfl
    simp only
    rw [if_neg (by omega), if_neg (by omega)]
    obtain ⟨w, hw⟩ := solve_some (C := imbfMatrixOrtho b) (by
      intro hdet
      obtain ⟨v, hv, h⟩ := Matrix.exists_mulVec_eq_zero_iff.2 hdet
      refine hv (table_kernel tableOrtho_upper tableOrtho_diag alphaOrtho_ne (by omega) ?_)
      -- the last row: no multiple of `t`
      have hlast : ∑ j : Fin (b.nodes.length + 1), v j * (alphaOrtho j * (tableGet tableOrtho j 0 : ℝ)) = 0 := by
        have := congrFun h (Fin.last _)
        simp only [mulVec, dotProduct, imbfMatrixOrtho, of_apply, Pi.zero_apply, Fin.val_last, lt_irrefl,
          dite_false] at this
        rw [← this]
        exact sum_congr rfl fun j _ => mul_comm _ _
      have hrest : (fun m : Fin b.nodes.length => ∑ j : Fin (b.nodes.length + 1),
          v j * (alphaOrtho j * (tableGet tableOrtho j (m + 1) : ℝ))) = 0 := by
        refine det_phi_ne_zero 1 hinj' hpos' fun i => ?_
        have := congrFun h i.castSucc
        simp only [mulVec, dotProduct, imbfMatrixOrtho, of_apply, Pi.zero_apply, Fin.val_castSucc, i.isLt, dif_pos,
          Fin.eta, basisFun] at this
        have h3 := (basis_regroup alphaOrtho tableOrtho_upper (k := b.nodes.length + 1) (by omega) v
          (fun m => phi (m + 1) (b.t i / scaleT b.nodes))).trans (Fin.sum_univ_succ _)
        simp only [Fin.val_zero, hlast, zero_mul, zero_add, Fin.val_succ] at h3
        refine h3.symm.trans ?_
        rw [← this]
        exact sum_congr rfl fun j _ => mul_comm _ _
      intro m
      refine Fin.cases ?_ (fun m => ?_) m
      · simpa using hlast
      · simpa using congrFun hrest m) (imbfRhsOrtho b)
    simp only [hw, bind, Except.bind]
    exact ⟨_, rfl⟩
  | ortho2 =>
    have h9 := h2 rfl
    simp only
    rw [if_neg (by omega)]
    obtain ⟨w, hw⟩ := solve_some (C := imbfMatrix .ortho2 b (scaleT b.nodes)) (by
      intro hdet
      obtain ⟨v, hv, h⟩ := Matrix.exists_mulVec_eq_zero_iff.2 hdet
      refine hv (table_kernel tableOrtho2_upper tableOrtho2_diag alphaOrtho2_ne (by omega) ?_)
      have : (fun m : Fin b.nodes.length => ∑ j : Fin b.nodes.length,
          v j * (alphaOrtho2 j * (tableGet tableOrtho2 j m : ℝ))) = 0 := by
        refine det_phi_ne_zero 1 hinj' hpos' fun i => ?_
        have := congrFun h i
        simp only [mulVec, dotProduct, imbfMatrix, of_apply, Pi.zero_apply, basisFun] at this
        have h3 := basis_regroup alphaOrtho2 tableOrtho2_upper (k := b.nodes.length) (by omega) v
          (fun m => phi (m + 2) (b.t i / scaleT b.nodes))
        refine h3.symm.trans ?_
        rw [← this]
        exact sum_congr rfl fun j _ => mul_comm _ _
      exact fun m => congrFun this m) (fun i => b.tau i - b.tau0 - b.t i)
    simp only [hw, bind, Except.bind]
    exact ⟨_, rfl⟩
  | other => exact ⟨_, rfl⟩

end Imate.Interp
