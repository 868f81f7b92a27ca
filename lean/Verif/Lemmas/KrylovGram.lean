import Verif.Lemmas.Krylov

/-! Matrix form of the Golub-Kahn recurrence. -/

namespace Imate.Lanczos

open Matrix Spec Polynomial

variable {n k : Nat} {A : Matrix (Fin n) (Fin n) ℝ} {z : Fin n → ℝ}

theorem cols_mul_bidiagonal (u : Nat → Fin n → ℝ) (a b : Nat → ℝ) (x : Fin n) (j : Fin k) :
    (cols k u * bidiagonal k a b) x j =
      a j * u j x + (if 0 < j.1 then b (j.1 - 1) * u (j.1 - 1) x else 0) := by
  rw [Matrix.mul_apply]
  have hsplit : ∀ i : Fin k, cols k u x i * bidiagonal k a b i j =
      cols k u x i * (if i.1 = j.1 then a i else 0) +
      (if i.1 + 1 = j.1 then cols k u x i * b i else 0) := by
    intro i
    unfold bidiagonal
    by_cases h1 : i = j
    · subst h1; simp
    · have h1' : i.1 ≠ j.1 := fun h => h1 (Fin.ext h)
      by_cases h2 : i.1 + 1 = j.1
      · rw [if_neg h1, if_pos h2, if_neg h1', if_pos h2]; ring
      · rw [if_neg h1, if_neg h2, if_neg h1', if_neg h2]; ring
  simp only [hsplit, Finset.sum_add_distrib]
  rw [sum_fin_eq (fun i => cols k u x i) j.1 j.2 (fun i => a i)]
  congr 1
  · simp [cols, mul_comm]
  · by_cases h : 0 < j.1
    · rw [if_pos h, Finset.sum_eq_single ⟨j.1 - 1, by omega⟩]
      · rw [if_pos (by simp; omega)]
        simp [cols, mul_comm]
      · intro c _ hne
        rw [if_neg]
        intro hc
        apply hne
        apply Fin.ext
        simp only; omega
      · simp
    · rw [if_neg h]
      apply Finset.sum_eq_zero
      intro i _
      rw [if_neg (by omega)]

theorem cols_mul_bidiagonal_transpose (v : Nat → Fin n → ℝ) (a b : Nat → ℝ) (x : Fin n)
    (j : Fin k) :
    (cols k v * (bidiagonal k a b)ᵀ) x j =
      a j * v j x + (if j.1 + 1 < k then b j * v (j.1 + 1) x else 0) := by
  rw [Matrix.mul_apply]
  have hsplit : ∀ i : Fin k, cols k v x i * (bidiagonal k a b)ᵀ i j =
      cols k v x i * (if i.1 = j.1 then a j else 0) +
      cols k v x i * (if i.1 = j.1 + 1 then b j else 0) := by
    intro i
    rw [transpose_apply]
    unfold bidiagonal
    by_cases h1 : j = i
    · subst h1; simp
    · have h1' : i.1 ≠ j.1 := fun h => h1 (Fin.ext h.symm)
      by_cases h2 : j.1 + 1 = i.1
      · rw [if_neg h1, if_pos h2, if_neg h1', if_pos h2.symm]; ring
      · rw [if_neg h1, if_neg h2, if_neg h1', if_neg (by omega)]; ring
  simp only [hsplit, Finset.sum_add_distrib]
  rw [sum_fin_eq (fun i => cols k v x i) j.1 j.2 (fun _ => a j)]
  congr 1
  · simp [cols, mul_comm]
  · by_cases h : j.1 + 1 < k
    · rw [if_pos h, sum_fin_eq (fun i => cols k v x i) (j.1 + 1) h (fun _ => b j)]
      simp [cols, mul_comm]
    · rw [if_neg h]
      apply Finset.sum_eq_zero
      intro i _
      rw [if_neg (by omega), mul_zero]

theorem golubKahn_factor (hk : 0 < k) (hb : ∀ i < k, gb A z i ≠ 0) (ha : ∀ i < k, ga A z i ≠ 0) :
    Bidiagonalisation A z (cols k (gu A z)) (cols k (gv A z))
      (bidiagonal k (ga A z) (fun i => gb A z (i + 1))) (gq A z k) := by
  obtain ⟨hv, hu⟩ := orthonormal_gref (k - 1) (fun i hi => hb i (by omega))
    (fun i hi => ha i (by omega))
  have hq := gq_orth hv hu (fun i hi => ha i (by omega))
  rw [Nat.sub_add_cancel hk] at hq
  refine ⟨cols_orthonormal (fun i hi j hj => hu i (by omega) j (by omega)),
    cols_orthonormal (fun i hi j hj => hv i (by omega) j (by omega)), ?_, ?_, ?_, ?_⟩
  · rw [cols_mulVec_first _ hk]
    show gq A z 0 = gb A z 0 • gv A z 0
    exact gq_eq_smul (hb 0 hk)
  · ext x j
    rw [cols_mul_bidiagonal]
    show (A *ᵥ gv A z j.1) x = _
    rcases Nat.eq_zero_or_pos j.1 with h0 | hp
    · rw [if_neg (by omega), h0, mulVec_gv_zero (ha 0 hk)]
      simp
    · rw [if_pos hp]
      obtain ⟨l, hl⟩ : ∃ l, j.1 = l + 1 := ⟨j.1 - 1, by omega⟩
      rw [hl, mulVec_gv_succ (ha (l + 1) (by omega))]
      simp
  · ext x j
    rw [Matrix.add_apply, cols_mul_bidiagonal_transpose, vecMulVec_apply]
    show (Aᵀ *ᵥ gu A z j.1) x = _
    rw [transpose_mulVec_gu]
    unfold lastRow
    by_cases h : j.1 + 1 = k
    · rw [if_neg (by omega), if_pos h, h]
      simp; ring
    · rw [if_pos (by omega), if_neg h, gq_eq_smul (hb (j.1 + 1) (by omega))]
      simp; ring
  · funext i
    show ∑ x, gv A z i x * gq A z k x = 0
    have := hq i.1 (by omega)
    rw [dotProduct_comm] at this
    exact this

/-- A bidiagonalisation of `A` is a Lanczos factorisation of `AᵀA`. -/
theorem bidiagonalisation_krylov {U V : Matrix (Fin n) (Fin k) ℝ} {a b : Nat → ℝ} {q : Fin n → ℝ}
    (h : Bidiagonalisation A z U V (bidiagonal k a b) q) :
    KrylovFactorisation (Aᵀ * A) z V ((bidiagonal k a b)ᵀ * bidiagonal k a b) (a (k - 1) • q) := by
  have hfac : Aᵀ * A * V = V * ((bidiagonal k a b)ᵀ * bidiagonal k a b) +
      vecMulVec (a (k - 1) • q) (lastRow k) := by
    rw [Matrix.mul_assoc, h.factor, ← Matrix.mul_assoc, h.cofactor, Matrix.add_mul, Matrix.mul_assoc]
    congr 1
    ext x j
    rw [Matrix.mul_apply, vecMulVec_apply]
    simp only [vecMulVec_apply, Pi.smul_apply, smul_eq_mul]
    rcases Nat.eq_zero_or_pos k with h0 | hk
    · subst h0; exact j.elim0
    rw [Finset.sum_eq_single ⟨k - 1, by omega⟩]
    · unfold lastRow bidiagonal
      rw [if_pos (by simp; omega)]
      by_cases hj : j.1 + 1 = k
      · rw [if_pos hj, if_pos (Fin.ext (by simp; omega))]
        ring
      · rw [if_neg hj, if_neg (by intro hc; rw [← hc] at hj; simp at hj; omega),
          if_neg (by simp; omega)]
        ring
    · intro i _ hi
      unfold lastRow
      rw [if_neg (by intro hc; apply hi; apply Fin.ext; simp; omega)]
      ring
    · simp
  have hres : Vᵀ *ᵥ (a (k - 1) • q) = 0 := by rw [mulVec_smul, h.residual, smul_zero]
  refine ⟨h.vorthonormal, h.start, hfac, hres, ?_⟩
  rw [Matrix.mul_assoc, hfac, Matrix.mul_add, ← Matrix.mul_assoc Vᵀ V, h.vorthonormal,
    Matrix.one_mul]
  rw [show Vᵀ * vecMulVec (a (k - 1) • q) (lastRow k) =
    vecMulVec (Vᵀ *ᵥ (a (k - 1) • q)) (lastRow k) from ?_]
  · rw [hres]
    ext i j
    simp
  · ext i j
    simp [vecMulVec_apply, Matrix.mul_apply, mulVec, dotProduct, Finset.sum_mul, mul_assoc]

theorem bidiagonal_gram_hessenberg (a b : Nat → ℝ) :
    Hessenberg ((bidiagonal k a b)ᵀ * bidiagonal k a b) := by
  intro i j h
  rw [Matrix.mul_apply]
  apply Finset.sum_eq_zero
  intro l _
  rw [transpose_apply]
  unfold bidiagonal
  by_cases h1 : l = j
  · subst h1
    rw [if_neg (fun h' => by subst h'; omega), if_neg (by omega), zero_mul]
  · by_cases h2 : l.1 + 1 = j.1
    · rw [if_neg (fun h' => by subst h'; omega), if_neg (by omega), zero_mul]
    · rw [if_neg h1, if_neg h2, mul_zero]

/-- Singular values of `B` give a spectral decomposition of `BᵀB`. -/
theorem spectral_of_singular {B U W : Matrix (Fin k) (Fin k) ℝ} {s : Fin k → ℝ}
    (h : SingularValues B U W s) : Spectral (Bᵀ * B) W (fun i => s i * s i) := by
  refine ⟨h.wleft, h.wright, ?_⟩
  rw [h.eq]
  simp only [transpose_mul, transpose_transpose, diagonal_transpose]
  rw [show W * (diagonal s * Uᵀ) * (U * diagonal s * Wᵀ) =
    W * diagonal s * (Uᵀ * U) * diagonal s * Wᵀ by simp only [Matrix.mul_assoc], h.uleft,
    Matrix.mul_one, Matrix.mul_assoc W, diagonal_mul_diagonal]

end Imate.Lanczos
