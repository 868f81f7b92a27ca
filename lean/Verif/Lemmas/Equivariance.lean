import Verif.Lemmas.SlqConvergence
import Verif.Lemmas.Convergence

/-!
# The iterations under scaling, rotation and shift
-/

namespace Imate.Lanczos

open Matrix Spec

variable {n : Nat} {A P U : Matrix (Fin n) (Fin n) ℝ} {z : Fin n → ℝ} {c : ℝ}

theorem dot_rotate (hP : Pᵀ * P = 1) (x y : Fin n → ℝ) : (P *ᵥ x) ⬝ᵥ (P *ᵥ y) = x ⬝ᵥ y := by
  rw [mulVec_dot, mulVec_mulVec, hP, one_mulVec]

theorem norm_rotate (hP : Pᵀ * P = 1) (x : Fin n → ℝ) : norm Real.sqrt (P *ᵥ x) = norm Real.sqrt x := by
  unfold norm
  rw [dot_rotate hP]

theorem norm_smul (hc : 0 < c) (x : Fin n → ℝ) : norm Real.sqrt (c • x) = c * norm Real.sqrt x := by
  unfold norm
  rw [smul_dotProduct, dotProduct_smul, smul_eq_mul, smul_eq_mul, ← mul_assoc, Real.sqrt_mul (mul_self_nonneg c),
    Real.sqrt_mul_self hc.le]

theorem norm_scaled (hP : Pᵀ * P = 1) (hc : 0 < c) (x : Fin n → ℝ) :
    norm Real.sqrt (c • (P *ᵥ x)) = c * norm Real.sqrt x := by
  rw [norm_smul hc, norm_rotate hP]

theorem scaled_mulVec (hP : Pᵀ * P = 1) (x : Fin n → ℝ) : (c • (U * A * Pᵀ)) *ᵥ (P *ᵥ x) = c • (U *ᵥ (A *ᵥ x)) := by
  rw [smul_mulVec, mulVec_mulVec, Matrix.mul_assoc, Matrix.mul_assoc, hP, Matrix.mul_one, ← mulVec_mulVec]

/-! ### Lanczos -/

theorem vv_scaled_of (hP : Pᵀ * P = 1) (hc : 0 < c) {A' : Matrix (Fin n) (Fin n) ℝ} {z' : Fin n → ℝ} {j : Nat}
    (h : rr A' z' j = c • (P *ᵥ rr A z j)) : vv A' z' j = P *ᵥ vv A z j := by
  rw [vv_eq, vv_eq, bb, bb, h, norm_scaled hP hc, mulVec_smul, smul_smul, mul_inv, mul_comm c⁻¹, mul_assoc,
    inv_mul_cancel₀ hc.ne', mul_one]

theorem rr_scaled (hP : Pᵀ * P = 1) (hc : 0 < c) (j : Nat) :
    vv (c • (P * A * Pᵀ)) (P *ᵥ z) j = P *ᵥ vv A z j ∧
    rr (c • (P * A * Pᵀ)) (P *ᵥ z) (j + 1) = c • (P *ᵥ rr A z (j + 1)) := by
  have haa : ∀ j, vv (c • (P * A * Pᵀ)) (P *ᵥ z) j = P *ᵥ vv A z j →
      aa (c • (P * A * Pᵀ)) (P *ᵥ z) j = c * aa A z j := by
    intro j h
    rw [aa, aa, h, scaled_mulVec hP, dotProduct_smul, dot_rotate hP, smul_eq_mul]
  induction j with
  | zero =>
    have h0 : vv (c • (P * A * Pᵀ)) (P *ᵥ z) 0 = P *ᵥ vv A z 0 := by
      rw [vv_eq, vv_eq, bb, bb, rr_zero, rr_zero, norm_rotate hP, mulVec_smul]
    refine ⟨h0, ?_⟩
    rw [rr_one, rr_one, haa 0 h0, h0, scaled_mulVec hP, mulVec_sub, mulVec_smul, smul_sub, smul_smul]
  | succ j ih =>
    have h1 := vv_scaled_of hP hc ih.2
    refine ⟨h1, ?_⟩
    rw [rr_succ, rr_succ, haa (j + 1) h1, h1, ih.1, scaled_mulVec hP, bb, bb, ih.2, norm_scaled hP hc, mulVec_sub,
      mulVec_sub, mulVec_smul, mulVec_smul, smul_sub, smul_sub, smul_smul, smul_smul]

theorem bb_scaled (hP : Pᵀ * P = 1) (hc : 0 < c) (j : Nat) :
    bb (c • (P * A * Pᵀ)) (P *ᵥ z) (j + 1) = c * bb A z (j + 1) := by
  rw [bb, bb, (rr_scaled hP hc j).2, norm_scaled hP hc]

theorem aa_scaled (hP : Pᵀ * P = 1) (hc : 0 < c) (j : Nat) :
    aa (c • (P * A * Pᵀ)) (P *ᵥ z) j = c * aa A z j := by
  rw [aa, aa, (rr_scaled hP hc j).1, scaled_mulVec hP, dotProduct_smul, dot_rotate hP, smul_eq_mul]

theorem lanczosT_scaled (hP : Pᵀ * P = 1) (hc : 0 < c) (k : Nat) :
    lanczosT (c • (P * A * Pᵀ)) (P *ᵥ z) k = c • lanczosT A z k := by
  ext i j
  rw [Matrix.smul_apply, smul_eq_mul]
  unfold lanczosT tridiagonal
  simp only [aa_scaled hP hc, bb_scaled hP hc]
  split
  · rfl
  · split
    · rfl
    · split
      · rfl
      · rw [mul_zero]

/-! ### Golub-Kahn -/

theorem gq_scaled (hP : Pᵀ * P = 1) (hU : Uᵀ * U = 1) (hc : 0 < c) (j : Nat) :
    gv (c • (U * A * Pᵀ)) (P *ᵥ z) j = P *ᵥ gv A z j ∧
    gp (c • (U * A * Pᵀ)) (P *ᵥ z) j = c • (U *ᵥ gp A z j) ∧
    gq (c • (U * A * Pᵀ)) (P *ᵥ z) (j + 1) = c • (P *ᵥ gq A z (j + 1)) := by
  have hT : (c • (U * A * Pᵀ))ᵀ = c • (P * Aᵀ * Uᵀ) := by
    rw [transpose_smul, transpose_mul, transpose_mul, transpose_transpose, Matrix.mul_assoc]
  have hgu : ∀ j, gp (c • (U * A * Pᵀ)) (P *ᵥ z) j = c • (U *ᵥ gp A z j) →
      ga (c • (U * A * Pᵀ)) (P *ᵥ z) j = c * ga A z j ∧ gu (c • (U * A * Pᵀ)) (P *ᵥ z) j = U *ᵥ gu A z j := by
    intro j h
    have h1 : ga (c • (U * A * Pᵀ)) (P *ᵥ z) j = c * ga A z j := by rw [ga, ga, h, norm_scaled hU hc]
    refine ⟨h1, ?_⟩
    rw [gu, gu, h1, h, mulVec_smul, smul_smul, mul_inv, mul_comm c⁻¹, mul_assoc, inv_mul_cancel₀ hc.ne', mul_one]
  have hq : ∀ j, gv (c • (U * A * Pᵀ)) (P *ᵥ z) j = P *ᵥ gv A z j →
      gp (c • (U * A * Pᵀ)) (P *ᵥ z) j = c • (U *ᵥ gp A z j) →
      gq (c • (U * A * Pᵀ)) (P *ᵥ z) (j + 1) = c • (P *ᵥ gq A z (j + 1)) := by
    intro j h1 h2
    obtain ⟨h3, h4⟩ := hgu j h2
    rw [gq_succ, gq_succ, h1, h3, h4, hT, scaled_mulVec hU, mulVec_sub, mulVec_smul, smul_sub, smul_smul]
  induction j with
  | zero =>
    have h0 : gv (c • (U * A * Pᵀ)) (P *ᵥ z) 0 = P *ᵥ gv A z 0 := by
      show (norm Real.sqrt (P *ᵥ z))⁻¹ • (P *ᵥ z) = P *ᵥ ((norm Real.sqrt z)⁻¹ • z)
      rw [norm_rotate hP, mulVec_smul]
    have h1 : gp (c • (U * A * Pᵀ)) (P *ᵥ z) 0 = c • (U *ᵥ gp A z 0) := by
      rw [gp_zero, gp_zero, h0, scaled_mulVec hP]
    exact ⟨h0, h1, hq 0 h0 h1⟩
  | succ j ih =>
    obtain ⟨i1, i2, i3⟩ := ih
    have hb : gb (c • (U * A * Pᵀ)) (P *ᵥ z) (j + 1) = c * gb A z (j + 1) := by
      rw [gb, gb, i3, norm_scaled hP hc]
    have h0 : gv (c • (U * A * Pᵀ)) (P *ᵥ z) (j + 1) = P *ᵥ gv A z (j + 1) := by
      rw [gv, gv, hb, i3, mulVec_smul, smul_smul, mul_inv, mul_comm c⁻¹, mul_assoc, inv_mul_cancel₀ hc.ne', mul_one]
    have h1 : gp (c • (U * A * Pᵀ)) (P *ᵥ z) (j + 1) = c • (U *ᵥ gp A z (j + 1)) := by
      rw [gp_succ, gp_succ, h0, hb, (hgu j i2).2, scaled_mulVec hP, mulVec_sub, mulVec_smul, smul_sub, smul_smul]
    exact ⟨h0, h1, hq (j + 1) h0 h1⟩

theorem gb_scaled (hP : Pᵀ * P = 1) (hU : Uᵀ * U = 1) (hc : 0 < c) (j : Nat) :
    gb (c • (U * A * Pᵀ)) (P *ᵥ z) (j + 1) = c * gb A z (j + 1) := by
  rw [gb, gb, (gq_scaled hP hU hc j).2.2, norm_scaled hP hc]

theorem ga_scaled (hP : Pᵀ * P = 1) (hU : Uᵀ * U = 1) (hc : 0 < c) (j : Nat) :
    ga (c • (U * A * Pᵀ)) (P *ᵥ z) j = c * ga A z j := by
  rw [ga, ga, (gq_scaled hP hU hc j).2.1, norm_scaled hU hc]

theorem gramT_scaled (hP : Pᵀ * P = 1) (hU : Uᵀ * U = 1) (hc : 0 < c) (k : Nat) :
    gramT (c • (U * A * Pᵀ)) (P *ᵥ z) k = c ^ 2 • gramT A z k := by
  have h : bidiagonal k (ga (c • (U * A * Pᵀ)) (P *ᵥ z)) (fun i => gb (c • (U * A * Pᵀ)) (P *ᵥ z) (i + 1)) =
      c • bidiagonal k (ga A z) (fun i => gb A z (i + 1)) := by
    ext i j
    rw [Matrix.smul_apply, smul_eq_mul]
    unfold bidiagonal
    simp only [ga_scaled hP hU hc, gb_scaled hP hU hc]
    split
    · rfl
    · split
      · rfl
      · rw [mul_zero]
  unfold gramT
  rw [h, transpose_smul, Matrix.smul_mul, Matrix.mul_smul, smul_smul, pow_two]

/-! ### The size of the iteration -/

/-- The size is determined by the off-diagonal entries and the threshold. -/
theorem size_determined {b b' : Nat → ℝ} {m s s' : Nat} {thr thr' : ℝ} (hc : 0 < c) (hthr : thr' = c * thr)
    (hb : ∀ i, b' (i + 1) = c * b (i + 1)) (hp : 0 < s) (hp' : 0 < s') (hle : s ≤ m) (hle' : s' ≤ m)
    (hbig : ∀ i, i + 1 < s → thr ≤ b (i + 1)) (hbig' : ∀ i, i + 1 < s' → thr' ≤ b' (i + 1))
    (hearly : s < m → b s < thr) (hearly' : s' < m → b' s' < thr') : s = s' := by
  rcases Nat.lt_trichotomy s s' with h | h | h
  · have h1 := hearly (by omega)
    have h2 := hbig' (s - 1) (by omega)
    rw [hb, Nat.sub_add_cancel hp, hthr] at h2
    exact absurd h1 (not_lt.2 (le_of_mul_le_mul_left h2 hc))
  · exact h
  · have h1 := hearly' (by omega)
    have h2 := hbig (s' - 1) (by omega)
    rw [Nat.sub_add_cancel hp'] at h2
    obtain ⟨r, rfl⟩ : ∃ r, s' = r + 1 := ⟨s' - 1, by omega⟩
    rw [hb, hthr] at h1
    exact absurd (lt_of_mul_lt_mul_left h1 hc.le) (not_lt.2 h2)

/-! ### Nodes -/

/-- The nodes of `c T + t`. -/
theorem Diagonalises.affine {k : Nat} {T : Matrix (Fin k) (Fin k) ℝ} {l : Nodes ℝ} (h : Diagonalises T l) (c t : ℝ) :
    Diagonalises (c • T + t • 1) (l.map (fun p => (c * p.1 + t, p.2))) := by
  have h1 : Diagonalises (c • T) (l.map (fun p => (c * p.1, p.2))) := by
    obtain ⟨hk, Q, lam, hs, rfl⟩ := h
    refine ⟨hk, Q, fun i => c * lam i, ⟨hs.left, hs.right, ?_⟩, ?_⟩
    · rw [show diagonal (fun i => c * lam i) = c • diagonal lam by rw [← diagonal_smul]; rfl, Matrix.mul_smul,
        Matrix.smul_mul, ← hs.eq]
    · rw [List.map_ofFn]; rfl
  have h2 := h1.shift t
  rw [List.map_map] at h2
  exact h2

/-- The quadrature sum is affine in the function where the nodes lie. -/
theorem Diagonalises.sum_affine {k : Nat} {T : Matrix (Fin k) (Fin k) ℝ} {l : Nodes ℝ} (h : Diagonalises T l)
    (pow : ℝ → ℝ → ℝ) (e : ℝ) {f f' : ℝ → ℝ} {c t a b : ℝ}
    (hf : ∀ Q lam, Spectral T Q lam → ∀ i, f' (pow (c * lam i + t) e) = a * f (pow (lam i) e) + b) :
    quadratureSum pow f' e (l.map (fun p => (c * p.1 + t, p.2))) = a * quadratureSum pow f e l + b := by
  obtain ⟨hk, Q, lam, hs, rfl⟩ := h
  have h1 : ∑ i, Q ⟨0, hk⟩ i * Q ⟨0, hk⟩ i = 1 := by
    have := congrFun (congrFun hs.right ⟨0, hk⟩) ⟨0, hk⟩
    rw [Matrix.mul_apply, Matrix.one_apply_eq] at this
    exact this
  rw [List.map_ofFn, show ((fun p : ℝ × ℝ => (c * p.1 + t, p.2)) ∘ fun i => (lam i, Q ⟨0, hk⟩ i)) =
    fun i => (c * lam i + t, Q ⟨0, hk⟩ i) from rfl, quadratureSum_ofFn, quadratureSum_ofFn, Finset.mul_sum]
  conv_rhs => rw [← mul_one b, ← h1, Finset.mul_sum, ← Finset.sum_add_distrib]
  refine Finset.sum_congr rfl fun i _ => ?_
  rw [hf Q lam hs i]
  ring

end Imate.Lanczos
