import Verif.Spec.Lapack
import Verif.Lemmas.KrylovGram
import Mathlib.Analysis.Matrix.Spectrum
import Mathlib.LinearAlgebra.Matrix.Block
import Mathlib.LinearAlgebra.Matrix.NonsingularInverse

/-! Functions with the specification of the LAPACK drivers exist (non-vacuity of the hypotheses). -/

namespace Imate.Lanczos

open Matrix Imate.Spec

variable {k : Nat}

/-- Every symmetric matrix has a spectral decomposition. -/
theorem exists_spectral {M : Matrix (Fin k) (Fin k) ℝ} (hM : M.IsSymm) :
    ∃ Q lam, Spectral M Q lam := by
  have hH : M.IsHermitian := by
    rw [IsHermitian, conjTranspose_eq_transpose_of_trivial]; exact hM
  have hst : star (hH.eigenvectorUnitary : Matrix (Fin k) (Fin k) ℝ) =
      (hH.eigenvectorUnitary : Matrix (Fin k) (Fin k) ℝ)ᵀ := by
    rw [star_eq_conjTranspose, conjTranspose_eq_transpose_of_trivial]
  have h1 := Unitary.coe_star_mul_self hH.eigenvectorUnitary
  have h2 := Unitary.coe_mul_star_self hH.eigenvectorUnitary
  have h3 := hH.spectral_theorem
  rw [Unitary.conjStarAlgAut_apply] at h3
  rw [Unitary.coe_star] at h2
  rw [hst] at h1 h2 h3
  exact ⟨_, hH.eigenvalues, h1, h2, h3⟩

theorem tridiagonal_symm (a b : Nat → ℝ) : (tridiagonal k a b).IsSymm := by
  ext i j
  rw [transpose_apply]
  unfold tridiagonal
  by_cases h : i = j
  · subst h; simp
  · rw [if_neg (Ne.symm h), if_neg h]
    by_cases h1 : j.1 + 1 = i.1
    · rw [if_pos h1, if_neg (by omega), if_pos h1]
    · rw [if_neg h1]
      by_cases h2 : i.1 + 1 = j.1
      · rw [if_pos h2, if_pos h2]
      · rw [if_neg h2, if_neg h2, if_neg h1]

/-- Every invertible matrix has a singular value decomposition. -/
theorem exists_singular {B : Matrix (Fin k) (Fin k) ℝ} (hB : Function.Injective B.mulVec) :
    ∃ U W s, SingularValues B U W s := by
  obtain ⟨W, lam, hs⟩ := exists_spectral (M := Bᵀ * B) (by
    rw [Matrix.IsSymm, transpose_mul, transpose_transpose])
  have hdiag : Wᵀ * (Bᵀ * B) * W = diagonal lam := by
    rw [hs.eq]
    rw [show Wᵀ * (W * diagonal lam * Wᵀ) * W = (Wᵀ * W) * diagonal lam * (Wᵀ * W) by
      simp only [Matrix.mul_assoc], hs.left, Matrix.one_mul, Matrix.mul_one]
  have hlam : ∀ i, lam i = (B * W)ᵀ i ⬝ᵥ (B * W)ᵀ i := by
    intro i
    have := congrFun (congrFun hdiag i) i
    rw [diagonal_apply_eq] at this
    rw [← this, show Wᵀ * (Bᵀ * B) * W = (B * W)ᵀ * (B * W) by
      rw [transpose_mul]; simp only [Matrix.mul_assoc]]
    rfl
  have hpos : ∀ i, 0 < lam i := by
    intro i
    rcases lt_or_eq_of_le (show 0 ≤ lam i by
      rw [hlam]; exact Finset.sum_nonneg (fun _ _ => mul_self_nonneg _)) with h | h
    · exact h
    · exfalso
      have h0 : (B * W)ᵀ i = 0 := dotProduct_self_eq_zero.1 ((hlam i).symm.trans h.symm)
      have h1 : B *ᵥ (Wᵀ i) = 0 := by
        rw [← h0]; ext j; rfl
      have h2 : Wᵀ i = 0 := hB (by rw [h1, mulVec_zero])
      have h3 := congrFun (congrFun hs.left i) i
      rw [Matrix.mul_apply, one_apply_eq] at h3
      have h4 : ∀ j, W j i = 0 := fun j => congrFun h2 j
      simp [h4] at h3
  refine ⟨B * W * diagonal (fun i => (Real.sqrt (lam i))⁻¹), W, fun i => Real.sqrt (lam i), ?_,
    hs.left, hs.right, fun i => Real.sqrt_nonneg _, ?_⟩
  · rw [transpose_mul, diagonal_transpose,
      show diagonal (fun i => (Real.sqrt (lam i))⁻¹) * (B * W)ᵀ *
        (B * W * diagonal (fun i => (Real.sqrt (lam i))⁻¹)) =
        diagonal (fun i => (Real.sqrt (lam i))⁻¹) * (Wᵀ * (Bᵀ * B) * W) *
          diagonal (fun i => (Real.sqrt (lam i))⁻¹) by
        rw [transpose_mul]; simp only [Matrix.mul_assoc], hdiag, diagonal_mul_diagonal,
      diagonal_mul_diagonal, ← diagonal_one]
    congr 1
    funext i
    have : Real.sqrt (lam i) ≠ 0 := (Real.sqrt_pos.2 (hpos i)).ne'
    field_simp
    exact (Real.sq_sqrt (hpos i).le).symm
  · rw [Matrix.mul_assoc (B * W), diagonal_mul_diagonal]
    rw [show (fun i => (Real.sqrt (lam i))⁻¹ * Real.sqrt (lam i)) = fun _ => (1 : ℝ) by
      funext i; exact inv_mul_cancel₀ (Real.sqrt_pos.2 (hpos i)).ne', diagonal_one, Matrix.mul_one,
      Matrix.mul_assoc, hs.right, Matrix.mul_one]

theorem bidiagonal_injective {a b : Nat → ℝ} (ha : ∀ i < k, 0 < a i) :
    Function.Injective (bidiagonal k a b).mulVec := by
  have hdet : (bidiagonal k a b).det ≠ 0 := by
    rw [det_of_isUpperTriangular (by
      intro i j h
      have h' : j.1 < i.1 := h
      unfold bidiagonal
      rw [if_neg (fun e => by subst e; omega), if_neg (by omega)])]
    refine Finset.prod_ne_zero_iff.2 (fun i _ => ?_)
    unfold bidiagonal
    rw [if_pos rfl]
    exact (ha i.1 i.2).ne'
  intro x y hxy
  have h1 := congrArg (fun v => (bidiagonal k a b)⁻¹ *ᵥ v) hxy
  simpa [mulVec_mulVec, nonsing_inv_mul _ (isUnit_iff_ne_zero.2 hdet)] using h1

/-- Store a vector in the first entries of an array. -/
noncomputable def storeVec (alpha : Array ℝ) (x : Fin k → ℝ) : Array ℝ :=
  Array.ofFn (fun i : Fin alpha.size => if h : i.1 < k then x ⟨i.1, h⟩ else 0)

theorem storeVec_getD {alpha : Array ℝ} {x : Fin k → ℝ} (h : k ≤ alpha.size) (i : Fin k) :
    (storeVec alpha x).getD i.1 0 = x i := by
  rw [Array.getD_eq_getD_getElem?]
  unfold storeVec
  rw [Array.getElem?_ofFn, dif_pos (by omega)]
  simp

theorem ofFn_getD (g : Nat → ℝ) (i j : Fin k) :
    (Array.ofFn (fun q : Fin (k * k) => g q.1)).getD (i.1 + j.1 * k) 0 = g (i.1 + j.1 * k) := by
  have : i.1 + j.1 * k < k * k := by
    have h1 : (j.1 + 1) * k ≤ k * k := Nat.mul_le_mul_right k j.2
    have h2 := i.2
    rw [Nat.add_mul, Nat.one_mul] at h1
    omega
  rw [Array.getD_eq_getD_getElem?, Array.getElem?_ofFn, dif_pos this]
  rfl

/-- Column-major storage. -/
noncomputable def storeMat (Q : Matrix (Fin k) (Fin k) ℝ) : Array ℝ :=
  Array.ofFn (fun q : Fin (k * k) =>
    if h : q.1 % k < k ∧ q.1 / k < k then Q ⟨q.1 % k, h.1⟩ ⟨q.1 / k, h.2⟩ else 0)

theorem storeMat_getD {Q : Matrix (Fin k) (Fin k) ℝ} (i j : Fin k) :
    (storeMat Q).getD (i.1 + j.1 * k) 0 = Q i j := by
  have hk : 0 < k := by have := i.2; omega
  unfold storeMat
  rw [ofFn_getD (fun q => if h : q % k < k ∧ q / k < k then Q ⟨q % k, h.1⟩ ⟨q / k, h.2⟩ else 0)]
  have h1 : (i.1 + j.1 * k) % k = i.1 := by
    rw [Nat.add_mul_mod_self_right, Nat.mod_eq_of_lt i.2]
  have h2 : (i.1 + j.1 * k) / k = j.1 := by
    rw [Nat.add_mul_div_right _ _ hk, Nat.div_eq_of_lt i.2, Nat.zero_add]
  simp only [h1, h2]
  rw [dif_pos ⟨i.2, j.2⟩]

theorem exists_eigh : ∃ eigh, EighSpec eigh := by
  have h : ∀ (k : Nat) (alpha beta : Array ℝ), ∃ r : Array ℝ × Array ℝ, 1 ≤ k → k ≤ alpha.size →
      k ≤ beta.size → r.1.size = alpha.size ∧ r.2.size = k * k ∧
      Spectral (tridiagonal k (fun i => alpha.getD i 0) (fun i => beta.getD i 0))
        (fun i j => r.2.getD (i.1 + j.1 * k) 0) (fun i => r.1.getD i.1 0) := by
    intro k alpha beta
    obtain ⟨Q, lam, hs⟩ := exists_spectral
      (tridiagonal_symm (k := k) (fun i => alpha.getD i 0) (fun i => beta.getD i 0))
    refine ⟨(storeVec alpha lam, storeMat Q), fun _ h1 _ => ⟨by simp [storeVec], by simp [storeMat], ?_⟩⟩
    rw [show (fun i j => (storeMat Q).getD (i.1 + j.1 * k) 0) = Q from by
        funext i j; exact storeMat_getD i j,
      show (fun i : Fin k => (storeVec alpha lam).getD i.1 0) = lam from by
        funext i; exact storeVec_getD h1 i]
    exact hs
  choose eigh heigh using h
  exact ⟨eigh, heigh⟩

theorem exists_svd : ∃ svd, SvdSpec svd := by
  have h : ∀ (k : Nat) (alpha beta : Array ℝ), ∃ r : Array ℝ × Array ℝ, 1 ≤ k → k ≤ alpha.size →
      k ≤ beta.size → (∀ i < k, 0 < alpha.getD i 0) →
      r.1.size = alpha.size ∧ r.2.size = k * k ∧
      ∃ U, SingularValues (bidiagonal k (fun i => alpha.getD i 0) (fun i => beta.getD i 0)) U
        (fun i j => r.2.getD (j.1 + i.1 * k) 0) (fun i => r.1.getD i.1 0) := by
    intro k alpha beta
    by_cases hp : ∀ i < k, 0 < alpha.getD i 0
    · obtain ⟨U, W, s, hs⟩ := exists_singular (bidiagonal_injective (k := k)
        (a := fun i => alpha.getD i 0) (b := fun i => beta.getD i 0) hp)
      refine ⟨(storeVec alpha s, storeMat Wᵀ), fun _ h1 _ _ =>
        ⟨by simp [storeVec], by simp [storeMat], U, ?_⟩⟩
      rw [show (fun i j => (storeMat Wᵀ).getD (j.1 + i.1 * k) 0) = W from by
          funext i j; exact storeMat_getD j i,
        show (fun i : Fin k => (storeVec alpha s).getD i.1 0) = s from by
          funext i; exact storeVec_getD h1 i]
      exact hs
    · exact ⟨(#[], #[]), fun _ _ _ h => absurd h hp⟩
  choose svd hsvd using h
  exact ⟨svd, hsvd⟩

end Imate.Lanczos
