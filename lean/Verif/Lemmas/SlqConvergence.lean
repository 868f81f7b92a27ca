import Verif.Lemmas.GaussQuadrature
import Verif.Lemmas.SlqExact
import Verif.Spec.SlqConvergence
import Mathlib.Analysis.Complex.Exponential

/-!
# A Krylov factorisation gives a Gauss rule
-/

namespace Imate.Spec

open Matrix Imate.Gauss Imate.Lanczos Polynomial

variable {n k : Nat} {M Q : Matrix (Fin n) (Fin n) ℝ} {z w : Fin n → ℝ} {V : Matrix (Fin n) (Fin k) ℝ}
  {T P : Matrix (Fin k) (Fin k) ℝ} {lam : Fin n → ℝ} {th : Fin k → ℝ} {a b : ℝ}

theorem mulVec_dot {m : Nat} (B : Matrix (Fin n) (Fin m) ℝ) (x : Fin m → ℝ) (y : Fin n → ℝ) :
    (B *ᵥ x) ⬝ᵥ y = x ⬝ᵥ (Bᵀ *ᵥ y) := by
  rw [← vecMul_transpose, ← dotProduct_mulVec]

/-- The weights of a vector in an orthonormal basis. -/
def weights (Q : Matrix (Fin n) (Fin n) ℝ) (z : Fin n → ℝ) : Fin n → ℝ := fun i => (Qᵀ *ᵥ z) i ^ 2

theorem matrixFunction_form (f : ℝ → ℝ) (x : Fin n → ℝ) :
    x ⬝ᵥ (matrixFunction f Q lam *ᵥ x) = wsum (weights Q x) lam f := by
  unfold matrixFunction
  rw [← mulVec_mulVec, ← mulVec_mulVec, dotProduct_mulVec, ← mulVec_transpose]
  show ∑ i, (Qᵀ *ᵥ x) i * (diagonal (fun i => f (lam i)) *ᵥ (Qᵀ *ᵥ x)) i = _
  refine Finset.sum_congr rfl fun i _ => ?_
  rw [mulVec_diagonal]
  unfold weights
  ring

theorem Spectral.form (h : Spectral M Q lam) (x : Fin n → ℝ) : x ⬝ᵥ (M *ᵥ x) = wsum (weights Q x) lam id := by
  rw [← matrixFunction_form]
  unfold matrixFunction
  rw [show (fun i => id (lam i)) = lam from rfl, ← h.eq]

theorem Spectral.weights_sum (h : Spectral M Q lam) (x : Fin n → ℝ) : ∑ i, weights Q x i = x ⬝ᵥ x := by
  have h1 := matrixFunction_form (Q := Q) (lam := lam) (fun _ => 1) x
  unfold matrixFunction at h1
  rw [show diagonal (fun _ : Fin n => (1 : ℝ)) = 1 from diagonal_one, Matrix.mul_one, h.right, one_mulVec, wsum_const,
    one_mul] at h1
  exact h1.symm

theorem weights_nonneg (x : Fin n → ℝ) (i : Fin n) : 0 ≤ weights Q x i := sq_nonneg _

/-- The quadratic form of a unit vector lies in the range of the eigenvalues. -/
theorem Spectral.form_mem (h : Spectral M Q lam) (hl : ∀ i, lam i ∈ Set.Icc a b) {x : Fin n → ℝ} (hx : x ⬝ᵥ x = 1) :
    x ⬝ᵥ (M *ᵥ x) ∈ Set.Icc a b := by
  have h1 := h.weights_sum x
  rw [hx] at h1
  rw [h.form]
  constructor
  · calc a = wsum (weights Q x) lam (fun _ => a) := by rw [wsum_const, h1, mul_one]
      _ ≤ _ := wsum_mono (weights_nonneg x) fun i => (hl i).1
  · calc _ ≤ wsum (weights Q x) lam (fun _ => b) := wsum_mono (weights_nonneg x) fun i => (hl i).2
      _ = b := by rw [wsum_const, h1, mul_one]

theorem Spectral.shift (h : Spectral M Q lam) (t : ℝ) : Spectral (M + t • 1) Q fun i => lam i + t := by
  refine ⟨h.left, h.right, ?_⟩
  rw [← diagonal_add (d₁ := lam) (d₂ := fun _ => t), Matrix.mul_add, Matrix.add_mul, ← h.eq]
  congr 1
  rw [show diagonal (fun _ : Fin n => t) = t • 1 by rw [← diagonal_one, ← diagonal_smul]; congr 1; funext i; simp,
    Matrix.mul_smul, Matrix.mul_one, Matrix.smul_mul, h.right]

/-- The inverse of a matrix without zero eigenvalues. -/
theorem Spectral.mul_inv (h : Spectral M Q lam) (hl : ∀ i, lam i ≠ 0) : M * matrixFunction (fun x => x⁻¹) Q lam = 1 := by
  have h1 : diagonal lam * diagonal (fun i => (lam i)⁻¹) = 1 := by
    rw [diagonal_mul_diagonal, ← diagonal_one]
    congr 1
    funext i
    exact mul_inv_cancel₀ (hl i)
  unfold matrixFunction
  conv_lhs => rw [h.eq]
  calc Q * diagonal lam * Qᵀ * (Q * diagonal (fun i => (lam i)⁻¹) * Qᵀ)
      = Q * diagonal lam * (Qᵀ * Q) * diagonal (fun i => (lam i)⁻¹) * Qᵀ := by simp only [Matrix.mul_assoc]
    _ = Q * (diagonal lam * diagonal (fun i => (lam i)⁻¹)) * Qᵀ := by rw [h.left]; simp only [Matrix.mul_assoc, Matrix.mul_one, Matrix.one_mul]
    _ = 1 := by rw [h1, Matrix.mul_one, h.right]

theorem matrixFunction_mul (hQ : Qᵀ * Q = 1) (f g : ℝ → ℝ) :
    matrixFunction f Q lam * matrixFunction g Q lam = matrixFunction (fun x => f x * g x) Q lam := by
  unfold matrixFunction
  calc Q * diagonal (fun i => f (lam i)) * Qᵀ * (Q * diagonal (fun i => g (lam i)) * Qᵀ)
      = Q * diagonal (fun i => f (lam i)) * (Qᵀ * Q) * diagonal (fun i => g (lam i)) * Qᵀ := by
        simp only [Matrix.mul_assoc]
    _ = Q * (diagonal (fun i => f (lam i)) * diagonal fun i => g (lam i)) * Qᵀ := by
        rw [hQ]; simp only [Matrix.mul_assoc, Matrix.one_mul]
    _ = _ := by rw [diagonal_mul_diagonal]

theorem matrixFunction_symm (f : ℝ → ℝ) : (matrixFunction f Q lam).IsSymm := by
  unfold matrixFunction
  rw [Matrix.IsSymm, transpose_mul, transpose_mul, transpose_transpose, diagonal_transpose, Matrix.mul_assoc]

theorem Spectral.symm (h : Spectral M Q lam) : M.IsSymm := by
  have := matrixFunction_symm (Q := Q) (lam := lam) id
  unfold matrixFunction at this
  rwa [show (fun i => id (lam i)) = lam from rfl, ← h.eq] at this

theorem KrylovFactorisation.shift (h : KrylovFactorisation M z V T w) (t : ℝ) :
    KrylovFactorisation (M + t • 1) z V (T + t • 1) w := by
  refine ⟨h.orthonormal, h.start, ?_, h.residual, ?_⟩
  · rw [Matrix.add_mul, Matrix.mul_add, h.factor, Matrix.smul_mul, Matrix.mul_smul, Matrix.one_mul, Matrix.mul_one]
    abel
  · rw [Matrix.mul_add, Matrix.add_mul, ← h.projected, Matrix.mul_smul, Matrix.smul_mul, Matrix.mul_one, h.orthonormal]

theorem KrylovFactorisation.dot (h : KrylovFactorisation M z V T w) (x y : Fin k → ℝ) :
    (V *ᵥ x) ⬝ᵥ (V *ᵥ y) = x ⬝ᵥ y := by
  rw [← vecMul_transpose, ← dotProduct_mulVec, mulVec_mulVec, h.orthonormal, one_mulVec]

theorem KrylovFactorisation.form (h : KrylovFactorisation M z V T w) (x y : Fin k → ℝ) :
    (V *ᵥ x) ⬝ᵥ (M *ᵥ (V *ᵥ y)) = x ⬝ᵥ (T *ᵥ y) := by
  rw [← vecMul_transpose, ← dotProduct_mulVec, mulVec_mulVec, mulVec_mulVec, h.projected]

/-- The eigenvalues of the projection lie in the range of the eigenvalues of the matrix. -/
theorem KrylovFactorisation.ritz_mem (h : KrylovFactorisation M z V T w) (hM : Spectral M Q lam) (hT : Spectral T P th)
    (hl : ∀ i, lam i ∈ Set.Icc a b) (i : Fin k) : th i ∈ Set.Icc a b := by
  have e0 : Pᵀ *ᵥ (P *ᵥ Pi.single i 1) = Pi.single i 1 := by rw [mulVec_mulVec, hT.left, one_mulVec]
  have e1 : P *ᵥ Pi.single i 1 ⬝ᵥ P *ᵥ Pi.single i 1 = 1 := by
    rw [mulVec_dot, e0]
    simp
  have e2 : (V *ᵥ (P *ᵥ Pi.single i 1)) ⬝ᵥ (M *ᵥ (V *ᵥ (P *ᵥ Pi.single i 1))) = th i := by
    rw [h.form, hT.form]
    unfold wsum weights
    rw [e0, Finset.sum_eq_single i (fun j _ hj => by rw [Pi.single_eq_of_ne hj]; ring) (by simp)]
    simp
  rw [← e2]
  exact hM.form_mem hl (by rw [h.dot, e1])

theorem firstCol_weights (hk : 0 < k) (i : Fin k) : weights P (firstCol k) i = P ⟨0, hk⟩ i * P ⟨0, hk⟩ i := by
  unfold weights
  have : (Pᵀ *ᵥ firstCol k) i = P ⟨0, hk⟩ i := by
    show ∑ j, P j i * (if j.1 = 0 then 1 else 0) = _
    rw [Finset.sum_eq_single ⟨0, hk⟩ (fun j _ hj => by
      rw [if_neg fun h => hj (Fin.ext h), mul_zero]) (by simp)]
    simp
  rw [this]
  ring

/-- The Gauss rule of a Krylov factorisation. -/
theorem KrylovFactorisation.rule (h : KrylovFactorisation M z V T w) (hM : Spectral M Q lam) (hT : Spectral T P th)
    (hH : Hessenberg T) (hk : 0 < k) (hl : ∀ i, lam i ∈ Set.Icc a b) :
    Rule a b th (fun i => (z ⬝ᵥ z) * weights P (firstCol k) i) lam (weights Q z) := by
  have hz : 0 ≤ z ⬝ᵥ z := Finset.sum_nonneg fun i _ => mul_self_nonneg (z i)
  refine ⟨fun p hp => ?_, fun i => mul_nonneg hz (weights_nonneg _ i), weights_nonneg z, h.ritz_mem hM hT hl, hl, hk⟩
  have h1 := quadratic_forms h hM.symm hH p (Or.inl hp)
  rw [Spectral.aeval hM, Spectral.aeval hT, matrixFunction_form, matrixFunction_form] at h1
  rw [h1]
  unfold wsum
  rw [Finset.mul_sum]
  exact Finset.sum_congr rfl fun i _ => by ring

/-- The error for the inverse, by the residual of the factorisation. -/
theorem KrylovFactorisation.gap_le (h : KrylovFactorisation M z V T w) (hM : Spectral M Q lam) (hT : Spectral T P th)
    (hk : 0 < k) (ha : 0 < a) (hl : ∀ i, lam i ∈ Set.Icc a b) :
    wsum (weights Q z) lam (fun x => x⁻¹) - wsum (fun i => (z ⬝ᵥ z) * weights P (firstCol k) i) th (fun x => x⁻¹) ≤
      (z ⬝ᵥ z) * (w ⬝ᵥ w) / a ^ 3 := by
  have hz : 0 ≤ z ⬝ᵥ z := Finset.sum_nonneg fun i _ => mul_self_nonneg (z i)
  have hw : 0 ≤ w ⬝ᵥ w := Finset.sum_nonneg fun i _ => mul_self_nonneg (w i)
  have hth := h.ritz_mem hM hT hl
  set u := V *ᵥ firstCol k with hu
  set Mi := matrixFunction (fun x => x⁻¹) Q lam with hMi
  set y := matrixFunction (fun x => x⁻¹) P th *ᵥ firstCol k with hy
  set c := lastRow k ⬝ᵥ y with hc
  have hMM : M * Mi = 1 := hM.mul_inv fun i => (ha.trans_le (hl i).1).ne'
  have hTy : T *ᵥ y = firstCol k := by
    rw [hy, mulVec_mulVec, hT.mul_inv fun i => (ha.trans_le (hth i).1).ne', one_mulVec]
  have hMV : M *ᵥ (V *ᵥ y) = u + c • w := by
    rw [mulVec_mulVec, h.factor, Matrix.add_mulVec, ← mulVec_mulVec, hTy]
    congr 1
    funext i
    show ∑ j, w i * lastRow k j * y j = c * w i
    rw [hc]
    show _ = (∑ j, lastRow k j * y j) * w i
    rw [Finset.sum_mul]
    exact Finset.sum_congr rfl fun j _ => by ring
  have hadj : ∀ x x' : Fin n → ℝ, (M *ᵥ x) ⬝ᵥ (Mi *ᵥ x') = x ⬝ᵥ x' := by
    intro x x'
    conv_lhs => rw [show M = Mᵀ from hM.symm.symm, ← vecMul_transpose, transpose_transpose, ← dotProduct_mulVec,
      mulVec_mulVec, hMM, one_mulVec]
  have hVw : ∀ x, (V *ᵥ x) ⬝ᵥ w = 0 := by
    intro x
    rw [← vecMul_transpose, ← dotProduct_mulVec, h.residual, dotProduct_zero]
  have hu' : u = M *ᵥ (V *ᵥ y) - c • w := by rw [hMV]; simp
  have h1 : u ⬝ᵥ (Mi *ᵥ w) = -(c * (w ⬝ᵥ (Mi *ᵥ w))) := by
    conv_lhs => rw [hu']
    rw [sub_dotProduct, hadj, hVw, smul_dotProduct, smul_eq_mul]
    ring
  have h2 : u ⬝ᵥ (Mi *ᵥ u) = firstCol k ⬝ᵥ y - c * (u ⬝ᵥ (Mi *ᵥ w)) := by
    have hsym : ∀ x x' : Fin n → ℝ, x ⬝ᵥ (Mi *ᵥ x') = x' ⬝ᵥ (Mi *ᵥ x) := by
      intro x x'
      rw [dotProduct_comm, ← vecMul_transpose, show Miᵀ = Mi from matrixFunction_symm _, ← dotProduct_mulVec]
    have : u ⬝ᵥ (Mi *ᵥ u) = (M *ᵥ (V *ᵥ y) - c • w) ⬝ᵥ (Mi *ᵥ u) := by rw [← hu']
    rw [this, sub_dotProduct, hadj, smul_dotProduct, smul_eq_mul, hsym w u, hu, h.dot, dotProduct_comm]
  have h3 : u ⬝ᵥ (Mi *ᵥ u) - firstCol k ⬝ᵥ y = c ^ 2 * (w ⬝ᵥ (Mi *ᵥ w)) := by
    rw [h2, h1]
    ring
  have h4 : w ⬝ᵥ (Mi *ᵥ w) ≤ (w ⬝ᵥ w) / a := by
    rw [hMi, matrixFunction_form, div_eq_inv_mul, ← hM.weights_sum w, ← wsum_const _ lam]
    exact wsum_mono (weights_nonneg w) fun i => inv_anti₀ ha (hl i).1
  have h5 : c ^ 2 ≤ y ⬝ᵥ y := by
    have : c = y ⟨k - 1, by omega⟩ := by
      rw [hc]
      show ∑ j, lastRow k j * y j = _
      rw [Finset.sum_eq_single ⟨k - 1, by omega⟩ (fun j _ hj => by
        have : ¬ (j.1 + 1 = k) := fun h => hj (Fin.ext (by simp; omega))
        simp [lastRow, this]) (by simp)]
      have : k - 1 + 1 = k := by omega
      simp [lastRow, this]
    rw [this, sq]
    exact Finset.single_le_sum (f := fun i => y i * y i) (fun i _ => mul_self_nonneg _) (Finset.mem_univ _)
  have h6 : y ⬝ᵥ y ≤ 1 / a ^ 2 := by
    have e1 : y ⬝ᵥ y = firstCol k ⬝ᵥ (matrixFunction (fun x => (x ^ 2)⁻¹) P th *ᵥ firstCol k) := by
      rw [hy, mulVec_dot, show (matrixFunction (fun x => x⁻¹) P th)ᵀ = _ from matrixFunction_symm _, mulVec_mulVec,
        matrixFunction_mul hT.left]
      congr 3
      funext x
      rw [sq, mul_inv]
    have e2 : firstCol k ⬝ᵥ firstCol k = 1 := by
      show ∑ i : Fin k, (if i.1 = 0 then (1 : ℝ) else 0) * (if i.1 = 0 then 1 else 0) = 1
      rw [Finset.sum_eq_single ⟨0, hk⟩ (fun j _ hj => by
        rw [if_neg fun h => hj (Fin.ext h), mul_zero]) (by simp)]
      simp
    rw [e1, matrixFunction_form, one_div, ← mul_one (a ^ 2)⁻¹, ← e2, ← hT.weights_sum, ← wsum_const _ th]
    exact wsum_mono (weights_nonneg _) fun i => inv_anti₀ (by positivity) (pow_le_pow_left₀ ha.le (hth i).1 2)
  have h7 : 0 ≤ w ⬝ᵥ (Mi *ᵥ w) := by
    rw [hMi, matrixFunction_form]
    exact wsum_nonneg (weights_nonneg w) fun i => inv_nonneg.2 (ha.le.trans (hl i).1)
  have h8 : wsum (weights Q z) lam (fun x => x⁻¹) = (z ⬝ᵥ z) * (u ⬝ᵥ (Mi *ᵥ u)) := by
    rw [← matrixFunction_form]
    conv_lhs => rw [h.start]
    rw [mulVec_smul, smul_dotProduct, dotProduct_smul, smul_eq_mul, smul_eq_mul, ← mul_assoc, Real.mul_self_sqrt hz]
  have h9 : wsum (fun i => (z ⬝ᵥ z) * weights P (firstCol k) i) th (fun x => x⁻¹) = (z ⬝ᵥ z) * (firstCol k ⬝ᵥ y) := by
    rw [hy, matrixFunction_form]
    unfold wsum
    rw [Finset.mul_sum]
    exact Finset.sum_congr rfl fun i _ => by ring
  rw [h8, h9, ← mul_sub, h3, mul_div_assoc]
  refine mul_le_mul_of_nonneg_left ?_ hz
  calc c ^ 2 * (w ⬝ᵥ (Mi *ᵥ w)) ≤ 1 / a ^ 2 * ((w ⬝ᵥ w) / a) :=
        mul_le_mul (h5.trans h6) h4 h7 (by positivity)
    _ = _ := by field_simp

/-- The error for the logarithm, by the residual of the factorisation. -/
theorem KrylovFactorisation.log_le (h : KrylovFactorisation M z V T w) (hM : Spectral M Q lam) (hT : Spectral T P th)
    (hH : Hessenberg T) (hk : 0 < k) (ha : 0 < a) (hl : ∀ i, lam i ∈ Set.Icc a b) :
    wsum (fun i => (z ⬝ᵥ z) * weights P (firstCol k) i) th (fun x => Real.log x) -
      wsum (weights Q z) lam (fun x => Real.log x) ≤ (z ⬝ᵥ z) * (w ⬝ᵥ w) / (2 * a ^ 2) := by
  have hz : 0 ≤ z ⬝ᵥ z := Finset.sum_nonneg fun i _ => mul_self_nonneg (z i)
  have hw : 0 ≤ w ⬝ᵥ w := Finset.sum_nonneg fun i _ => mul_self_nonneg (w i)
  have key := (h.rule hM hT hH hk hl).log_sub_le ha
    (G := fun t => (z ⬝ᵥ z) * (w ⬝ᵥ w) / 2 * ((a + t) ^ 2)⁻¹)
    (g := fun t => (z ⬝ᵥ z) * (w ⬝ᵥ w) / 2 * (-((2 : ℕ) * (a + t) ^ (2 - 1) * 1) / ((a + t) ^ 2) ^ 2))
    (fun t ht => ((((hasDerivAt_id t).const_add a).fun_pow 2).fun_inv (by simp; positivity)).const_mul _)
    (fun t ht => by positivity) ?_
  · simp only [add_zero] at key
    refine key.trans (le_of_eq ?_)
    field_simp
  · intro t ht
    have hat : 0 < a + t := by linarith
    have h1 := (h.shift t).gap_le (hM.shift t) (hT.shift t) hk hat (b := b + t)
      fun i => ⟨by linarith [(hl i).1], by linarith [(hl i).2]⟩
    refine h1.trans (le_of_eq ?_)
    push_cast
    field_simp

/-! ### Early stop, for polynomials -/

theorem dot_abs_le {m : Nat} (x y : Fin m → ℝ) {c d : ℝ} (hc : x ⬝ᵥ x ≤ c ^ 2) (hd : y ⬝ᵥ y ≤ d ^ 2) (hc0 : 0 ≤ c)
    (hd0 : 0 ≤ d) : |x ⬝ᵥ y| ≤ c * d := by
  apply abs_le_of_sq_le_sq _ (mul_nonneg hc0 hd0)
  have h1 := Finset.sum_mul_sq_le_sq_mul_sq Finset.univ x y
  have h2 : ∑ i, x i ^ 2 = x ⬝ᵥ x := Finset.sum_congr rfl fun i _ => sq (x i)
  have h3 : ∑ i, y i ^ 2 = y ⬝ᵥ y := Finset.sum_congr rfl fun i _ => sq (y i)
  rw [h2, h3] at h1
  have h4 : 0 ≤ y ⬝ᵥ y := Finset.sum_nonneg fun i _ => mul_self_nonneg (y i)
  refine h1.trans ?_
  rw [mul_pow]
  exact mul_le_mul hc hd h4 (by positivity)

theorem Spectral.pow_dot_le (h : Spectral M Q lam) {R : ℝ} (hl : ∀ i, |lam i| ≤ R) (j : Nat) (x : Fin n → ℝ) :
    (M ^ j *ᵥ x) ⬝ᵥ (M ^ j *ᵥ x) ≤ (R ^ j) ^ 2 * (x ⬝ᵥ x) := by
  have hs : (M ^ j)ᵀ = M ^ j := by rw [transpose_pow, show Mᵀ = M from h.symm]
  rw [mulVec_dot, hs, mulVec_mulVec, ← pow_add, Spectral.pow h, ← two_mul]
  have := matrixFunction_form (Q := Q) (lam := lam) (fun y => y ^ (2 * j)) x
  unfold matrixFunction at this
  rw [this, ← h.weights_sum x, ← wsum_const _ lam]
  refine wsum_mono (weights_nonneg x) fun i => ?_
  rw [← pow_mul, mul_comm j 2, pow_mul, pow_mul]
  refine pow_le_pow_left₀ (sq_nonneg _) ?_ j
  rw [sq_le_sq]
  exact (hl i).trans (le_abs_self R)

theorem firstCol_dot (hk : 0 < k) : firstCol k ⬝ᵥ firstCol k = 1 := by
  show ∑ i : Fin k, (if i.1 = 0 then (1 : ℝ) else 0) * (if i.1 = 0 then 1 else 0) = 1
  rw [Finset.sum_eq_single ⟨0, hk⟩ (fun j _ hj => by
    rw [if_neg fun h => hj (Fin.ext h), mul_zero]) (by simp)]
  simp

theorem lastRow_dot_self : lastRow k ⬝ᵥ lastRow k ≤ 1 := by
  show ∑ i : Fin k, (if i.1 + 1 = k then (1 : ℝ) else 0) * (if i.1 + 1 = k then 1 else 0) ≤ 1
  rcases Nat.eq_zero_or_pos k with rfl | hk
  · simp
  · rw [Finset.sum_eq_single ⟨k - 1, by omega⟩ (fun j _ hj => by
      rw [if_neg fun h => hj (Fin.ext (by simp; omega)), mul_zero]) (by simp)]
    split <;> simp

theorem abs_le_of_mem {x R : ℝ} (h : x ∈ Set.Icc (-R) R) : |x| ≤ R := abs_le.2 h

/-- The powers of a matrix and of its projection. -/
theorem KrylovFactorisation.pow_le (h : KrylovFactorisation M z V T w) (hM : Spectral M Q lam) (hT : Spectral T P th)
    (hk : 0 < k) {R : ℝ} (hR : 1 ≤ R) (hl : ∀ i, lam i ∈ Set.Icc (-R) R) (j q : Nat) :
    |(V *ᵥ firstCol k) ⬝ᵥ (M ^ q *ᵥ (M ^ j *ᵥ (V *ᵥ firstCol k) - V *ᵥ (T ^ j *ᵥ firstCol k)))| ≤
      j * R ^ (q + j) * √(w ⬝ᵥ w) := by
  have hR0 : 0 ≤ R := by linarith
  have hw : 0 ≤ w ⬝ᵥ w := Finset.sum_nonneg fun i _ => mul_self_nonneg (w i)
  have hth := h.ritz_mem hM hT hl
  set u := V *ᵥ firstCol k with hu
  have huu : u ⬝ᵥ u = 1 := by rw [hu, h.dot, firstCol_dot hk]
  induction j generalizing q with
  | zero => simp [hu]
  | succ j ih =>
    have hstep : M ^ q *ᵥ (M ^ (j + 1) *ᵥ u - V *ᵥ (T ^ (j + 1) *ᵥ firstCol k)) =
        M ^ (q + 1) *ᵥ (M ^ j *ᵥ u - V *ᵥ (T ^ j *ᵥ firstCol k)) +
          (lastRow k ⬝ᵥ (T ^ j *ᵥ firstCol k)) • (M ^ q *ᵥ w) := by
      have e1 : V *ᵥ (T ^ (j + 1) *ᵥ firstCol k) = M *ᵥ (V *ᵥ (T ^ j *ᵥ firstCol k)) -
          (lastRow k ⬝ᵥ (T ^ j *ᵥ firstCol k)) • w := by
        rw [pow_succ', ← mulVec_mulVec, mulVec_mulVec _ V T, mulVec_mulVec _ M V, h.factor, Matrix.add_mulVec]
        have e2 : vecMulVec w (lastRow k) *ᵥ (T ^ j *ᵥ firstCol k) =
            (lastRow k ⬝ᵥ (T ^ j *ᵥ firstCol k)) • w := by
          funext i
          show ∑ l, w i * lastRow k l * (T ^ j *ᵥ firstCol k) l = (∑ l, lastRow k l * (T ^ j *ᵥ firstCol k) l) * w i
          rw [Finset.sum_mul]
          exact Finset.sum_congr rfl fun l _ => by ring
        rw [e2]
        abel
      rw [e1, pow_succ' M j, ← mulVec_mulVec, pow_succ M q, ← mulVec_mulVec, ← mulVec_smul, ← mulVec_add, mulVec_sub M]
      congr 1
      abel
    rw [hstep, dotProduct_add, dotProduct_smul, smul_eq_mul]
    have h1 := ih (q + 1)
    have h2 : |lastRow k ⬝ᵥ (T ^ j *ᵥ firstCol k)| ≤ 1 * R ^ j := by
      apply dot_abs_le _ _ (by rw [one_pow]; exact lastRow_dot_self) _ (by norm_num) (by positivity)
      have := hT.pow_dot_le (fun i => abs_le_of_mem (hth i)) j (firstCol k)
      rwa [firstCol_dot hk, mul_one] at this
    have h3 : |u ⬝ᵥ (M ^ q *ᵥ w)| ≤ R ^ q * √(w ⬝ᵥ w) := by
      have hs : (M ^ q)ᵀ = M ^ q := by rw [transpose_pow, show Mᵀ = M from hM.symm]
      rw [← hs, ← mulVec_dot]
      apply dot_abs_le _ _ _ (by rw [Real.sq_sqrt hw]) (by positivity) (Real.sqrt_nonneg _)
      have := hM.pow_dot_le (fun i => abs_le_of_mem (hl i)) q u
      rwa [huu, mul_one] at this
    have hsw := Real.sqrt_nonneg (w ⬝ᵥ w)
    refine (abs_add_le _ _).trans ?_
    rw [abs_mul]
    have h4 : |lastRow k ⬝ᵥ (T ^ j *ᵥ firstCol k)| * |u ⬝ᵥ (M ^ q *ᵥ w)| ≤ (1 * R ^ j) * (R ^ q * √(w ⬝ᵥ w)) :=
      mul_le_mul h2 h3 (abs_nonneg _) (by positivity)
    have h5 : (1 * R ^ j) * (R ^ q * √(w ⬝ᵥ w)) ≤ R ^ (q + (j + 1)) * √(w ⬝ᵥ w) := by
      have e1 : (1 * R ^ j) * (R ^ q * √(w ⬝ᵥ w)) = R ^ (q + j) * √(w ⬝ᵥ w) := by rw [pow_add]; ring
      rw [e1]
      exact mul_le_mul_of_nonneg_right (pow_le_pow_right₀ hR (by omega)) hsw
    have e3 : q + 1 + j = q + (j + 1) := by omega
    rw [e3] at h1
    push_cast
    linarith

/-- The size of a polynomial on `[-R, R]`, with derivatives. -/
noncomputable def polySlope (p : ℝ[X]) (R : ℝ) : ℝ :=
  ∑ j ∈ Finset.range (p.natDegree + 1), |p.coeff j| * (j * R ^ j)

theorem polySlope_nonneg (p : ℝ[X]) {R : ℝ} (hR : 0 ≤ R) : 0 ≤ polySlope p R :=
  Finset.sum_nonneg fun j _ => by positivity

/-- A polynomial of a matrix and of its projection. -/
theorem KrylovFactorisation.poly_le (h : KrylovFactorisation M z V T w) (hM : Spectral M Q lam) (hT : Spectral T P th)
    (hk : 0 < k) {R : ℝ} (hR : 1 ≤ R) (hl : ∀ i, lam i ∈ Set.Icc (-R) R) (p : ℝ[X]) :
    |wsum (fun i => (z ⬝ᵥ z) * weights P (firstCol k) i) th (fun x => p.eval x) -
      wsum (weights Q z) lam (fun x => p.eval x)| ≤ (z ⬝ᵥ z) * (polySlope p R * √(w ⬝ᵥ w)) := by
  have hz : 0 ≤ z ⬝ᵥ z := Finset.sum_nonneg fun i _ => mul_self_nonneg (z i)
  set u := V *ᵥ firstCol k with hu
  have h8 : wsum (weights Q z) lam (fun x => p.eval x) = (z ⬝ᵥ z) * (u ⬝ᵥ (Polynomial.aeval M p *ᵥ u)) := by
    rw [← matrixFunction_form, ← Spectral.aeval hM]
    conv_lhs => rw [h.start]
    rw [mulVec_smul, smul_dotProduct, dotProduct_smul, smul_eq_mul, smul_eq_mul, ← mul_assoc, Real.mul_self_sqrt hz]
  have h9 : wsum (fun i => (z ⬝ᵥ z) * weights P (firstCol k) i) th (fun x => p.eval x) =
      (z ⬝ᵥ z) * (firstCol k ⬝ᵥ (Polynomial.aeval T p *ᵥ firstCol k)) := by
    rw [Spectral.aeval hT, matrixFunction_form]
    unfold wsum
    rw [Finset.mul_sum]
    exact Finset.sum_congr rfl fun i _ => by ring
  rw [h8, h9, ← mul_sub, abs_mul, abs_of_nonneg hz]
  refine mul_le_mul_of_nonneg_left ?_ hz
  rw [aeval_eq_sum_range, aeval_eq_sum_range, Matrix.sum_mulVec, Matrix.sum_mulVec, dotProduct_sum, dotProduct_sum,
    ← Finset.sum_sub_distrib, polySlope, Finset.sum_mul]
  refine (Finset.abs_sum_le_sum_abs _ _).trans (Finset.sum_le_sum fun j _ => ?_)
  rw [Matrix.smul_mulVec, Matrix.smul_mulVec, dotProduct_smul, dotProduct_smul, smul_eq_mul, smul_eq_mul, ← mul_sub,
    abs_mul, mul_assoc]
  refine mul_le_mul_of_nonneg_left ?_ (abs_nonneg _)
  have h1 := h.pow_le hM hT hk hR hl j 0
  rw [pow_zero, one_mulVec, dotProduct_sub, zero_add, h.dot, abs_sub_comm] at h1
  exact h1

end Imate.Spec

namespace Imate.Lanczos

open Matrix Imate.Spec Imate.Gauss Polynomial

variable {n : Nat} {z : Fin n → ℝ} {ext : External ℝ} {opt : Options ℝ} {op : Operator ℝ n}
  {parameters junkAlpha junkBeta estimate : Array ℝ} {converged : Array Bool} {num : Nat}
  {f : ℝ → ℝ} {M : ℝ → Matrix (Fin n) (Fin n) ℝ}

/-- What one sample reports. -/
def SampleRule (N : Matrix (Fin n) (Fin n) ℝ) (z : Fin n → ℝ) (m : Nat) (delta : ℝ → ℝ) (g : ℝ → ℝ) (value : ℝ) : Prop :=
  ∃ (k : Nat) (V : Matrix (Fin n) (Fin k) ℝ) (T P : Matrix (Fin k) (Fin k) ℝ) (w : Fin n → ℝ) (th : Fin k → ℝ),
    0 < k ∧ k ≤ m ∧ KrylovFactorisation N z V T w ∧ Hessenberg T ∧ Spectral T P th ∧
    (∀ Q lam b, Spectral N Q lam → (∀ i, lam i ≤ b) → k < m → w ⬝ᵥ w ≤ delta b) ∧
    value = wsum (fun i => (z ⬝ᵥ z) * weights P (firstCol k) i) th g

theorem norm_lt_dot {x : Fin n → ℝ} {c : ℝ} (h : Lanczos.norm Real.sqrt x < c) : x ⬝ᵥ x ≤ c ^ 2 := by
  have hx : 0 ≤ x ⬝ᵥ x := Finset.sum_nonneg fun i _ => mul_self_nonneg (x i)
  have h0 := Real.sqrt_nonneg (x ⬝ᵥ x)
  have h1 : √(x ⬝ᵥ x) < c := h
  have h2 := Real.sq_sqrt hx
  nlinarith

theorem quadratureSum_rule {k : Nat} (hk : 0 < k) (P : Matrix (Fin k) (Fin k) ℝ) (th : Fin k → ℝ) (pow : ℝ → ℝ → ℝ) (e : ℝ)
    (hz : Rademacher z) :
    n * quadratureSum pow f e (List.ofFn fun i => (th i, P ⟨0, hk⟩ i)) =
      wsum (fun i => (z ⬝ᵥ z) * weights P (firstCol k) i) th fun x => f (pow x e) := by
  rw [quadratureSum_ofFn, rademacher_dot hz, Finset.mul_sum]
  unfold wsum
  refine Finset.sum_congr rfl fun i _ => ?_
  beta_reduce
  rw [firstCol_weights hk]
  ring

theorem gramT_last {A : Matrix (Fin n) (Fin n) ℝ} {k : Nat} (hk : 0 < k) :
    ga A z (k - 1) ^ 2 ≤ gramT A z k ⟨k - 1, by omega⟩ ⟨k - 1, by omega⟩ := by
  unfold gramT
  rw [Matrix.mul_apply]
  have h1 := Finset.single_le_sum (f := fun j => (bidiagonal k (ga A z) (fun i => gb A z (i + 1)))ᵀ ⟨k - 1, by omega⟩ j *
    bidiagonal k (ga A z) (fun i => gb A z (i + 1)) j ⟨k - 1, by omega⟩) (s := Finset.univ)
    (fun i _ => by rw [transpose_apply]; exact mul_self_nonneg _) (Finset.mem_univ ⟨k - 1, by omega⟩)
  refine le_trans (le_of_eq ?_) h1
  simp only [transpose_apply, bidiagonal, if_true]
  ring

/-- Samples in which every inquiry is iterated on its own. -/
theorem slqSample_rule (hr : ExactRun ext opt op M parameters) (hop : op.relationKnown = false ∨ num = 1) (hn : 0 < n)
    (hz : Rademacher z)
    (hpar : parameters.size = num) (hconv : converged.size = num) (hest : estimate.size = num)
    (hja : junkAlpha.size = opt.degree) (hjb : junkBeta.size = opt.degree) :
    ∃ e, slqSample ext opt op f parameters num z junkAlpha junkBeta converged estimate =
        .ok (converged, e) ∧ e.size = num ∧
      ∀ j < num, ∀ t, parameters[j]? = some t →
        (converged[j]? = some true → e[j]? = estimate[j]?) ∧
        (converged[j]? = some false → ∃ value, e[j]? = some value ∧
          SampleRule (target opt.gram (M t)) z opt.degree (stopped n opt.gram opt.tol)
            (fun x => f (ext.pow x opt.exponent)) value) := by
  have hz0 := rademacher_ne_zero hz hn
  have hthr := threshold_pos hz0 hr.tol
  have hsq : (opt.tol * Real.sqrt n) ^ 2 = opt.tol ^ 2 * n := by
    rw [mul_pow, Real.sq_sqrt (Nat.cast_nonneg n)]
  obtain ⟨e, he, hs, hres⟩ := slqSample_separate (ext := ext) (opt := opt) (op := op) (z := z)
    (f := f) hop hpar hconv hest hja hjb
    (fun t l => SampleRule (target opt.gram (M t)) z opt.degree (stopped n opt.gram opt.tol)
      (fun x => f (ext.pow x opt.exponent)) (n * quadratureSum ext.pow f opt.exponent l))
    (by
      intro t alpha beta ha hb ht
      by_cases hg : opt.gram = true
      · obtain ⟨hsvd, hinj⟩ := hr.invertible hg
        obtain ⟨l, a, b, h1, h2, h3, c, h4, h5, h6, h7⟩ := golubKahnNodes_ok hr.sqrt hsvd (hr.dot t)
          (hr.transposeDot t) (hinj t ht) hz0 hr.tol hr.degree ha hb
        refine ⟨l, a, b, by unfold inquiryNodes; rw [if_pos hg]; exact h1, h2, h3, ?_⟩
        obtain ⟨hk, P, th, hs, rfl⟩ := h7
        have hkry := gram_krylov h5
        refine ⟨c.size, _, _, P, _, th, hk, h5.le, by rw [target, if_pos hg]; exact hkry, bidiagonal_gram_hessenberg _ _, hs, ?_,
          quadratureSum_rule hk P th ext.pow opt.exponent hz⟩
        intro Q lam b hQ hl hlt
        rw [target, if_pos hg] at hQ
        obtain ⟨c', hc', hr'⟩ := golubKahn_result (hr.dot t) (hr.transposeDot t)
          (fun j hj => ga_ne_zero (hinj t ht) j hj) hz0 ext.eps opt.tol hr.tol opt.degree opt.orthogonalize
          (by omega) ha hb
        rw [hr.sqrt] at h4
        obtain rfl : c = c' := by
          have : (Except.ok c : Except Fault (Coefficients ℝ)) = .ok c' := h4.symm.trans hc'
          simpa using this
        have hlast := norm_lt_dot (hr'.early hlt)
        rw [hsq] at hlast
        have hq : 0 ≤ gq (M t) z c.size ⬝ᵥ gq (M t) z c.size := Finset.sum_nonneg fun i _ => mul_self_nonneg _
        have hb2 : ga (M t) z (c.size - 1) ^ 2 ≤ b := by
          refine (gramT_last hk).trans ?_
          have e1 := hkry.form (Pi.single ⟨c.size - 1, by omega⟩ 1) (Pi.single ⟨c.size - 1, by omega⟩ 1)
          have e2 := hkry.dot (Pi.single ⟨c.size - 1, by omega⟩ 1) (Pi.single ⟨c.size - 1, by omega⟩ 1)
          simp only [mulVec_single_one, single_one_dotProduct] at e1 e2
          have e4 : (Pi.single (⟨c.size - 1, by omega⟩ : Fin c.size) (1 : ℝ) : Fin c.size → ℝ) ⟨c.size - 1, by omega⟩ = 1 := by simp
          rw [e4] at e2
          have e3 := (hQ.form_mem (a := (Finset.univ.image lam).min' ⟨lam ⟨0, hn⟩, by simp⟩) (b := b)
            (fun i => ⟨Finset.min'_le _ _ (by simp), hl i⟩) e2).2
          rw [e1] at e3
          exact e3
        rw [stopped, if_pos hg, smul_dotProduct, dotProduct_smul, smul_eq_mul, smul_eq_mul, ← mul_assoc, ← sq]
        exact mul_le_mul hb2 hlast hq ((sq_nonneg _).trans hb2)
      · have hg' : opt.gram = false := by simpa using hg
        obtain ⟨heig, hsym⟩ := hr.symmetric hg'
        obtain ⟨l, a, b, h1, h2, h3, c, h4, h5, h6⟩ := lanczosNodes_ok hr.sqrt heig (hr.dot t) (hsym t) hz0
          hr.tol hr.degree ha hb
        refine ⟨l, a, b, by unfold inquiryNodes; rw [if_neg hg]; exact h1, h2, h3, ?_⟩
        obtain ⟨hk, P, th, hs, rfl⟩ := h6
        refine ⟨c.size, _, _, P, _, th, hk, h5.le, by rw [target, if_neg hg]; exact lanczos_krylov h5 (hsym t) hz0 hthr (by have := hr.degree; omega),
          tridiagonal_hessenberg _ _, hs, ?_, quadratureSum_rule hk P th ext.pow opt.exponent hz⟩
        intro Q lam b _ _ hlt
        have := norm_lt_dot (h5.early hlt)
        rw [hsq] at this
        rw [stopped, if_neg hg]
        exact this)
  refine ⟨e, he, hs, ?_⟩
  intro j hj t ht
  obtain ⟨h1, h2⟩ := hres j hj
  refine ⟨h1, fun hc => ?_⟩
  obtain ⟨t', l, h3, h4, h5⟩ := h2 hc
  rw [ht] at h3
  obtain rfl : t = t' := by simpa using h3
  exact ⟨_, h5, h4⟩

/-! ### Consequences for single samples -/

variable {N Q : Matrix (Fin n) (Fin n) ℝ} {lam : Fin n → ℝ} {a b value : ℝ} {m : Nat} {delta : ℝ → ℝ} {g : ℝ → ℝ}

theorem SampleRule.inverse (h : SampleRule N z m delta g value) (hQ : Spectral N Q lam) (ha : 0 < a)
    (hl : ∀ i, lam i ∈ Set.Icc a b) (hg : ∀ x, 0 < x → g x = x⁻¹) :
    value ≤ z ⬝ᵥ (N⁻¹ *ᵥ z) ∧ z ⬝ᵥ (N⁻¹ *ᵥ z) - value ≤
      max (4 * rate a b ^ (2 * m) * z ⬝ᵥ (N⁻¹ *ᵥ z)) ((z ⬝ᵥ z) * delta b / a ^ 3) := by
  obtain ⟨k, V, T, P, w, th, hk, hkm, hkry, hT, hP, hst, rfl⟩ := h
  have hth := hkry.ritz_mem hQ hP hl
  have hz : 0 ≤ z ⬝ᵥ z := Finset.sum_nonneg fun i _ => mul_self_nonneg (z i)
  have hinv : N⁻¹ = matrixFunction (fun x => x⁻¹) Q lam :=
    Matrix.inv_eq_right_inv (hQ.mul_inv fun i => (ha.trans_le (hl i).1).ne')
  rw [hinv, matrixFunction_form, wsum_congr (x := th) (g := fun x => x⁻¹) fun i _ => hg _ (ha.trans_le (hth i).1)]
  have hrule := hkry.rule hQ hP hT hk hl
  refine ⟨hrule.inv_le ha, ?_⟩
  rcases hkm.eq_or_lt with rfl | hlt
  · exact (hrule.inv_sub_le ha).trans (le_max_left _ _)
  · refine (hkry.gap_le hQ hP hk ha hl).trans (le_trans ?_ (le_max_right _ _))
    exact div_le_div_of_nonneg_right (mul_le_mul_of_nonneg_left (hst Q lam b hQ (fun i => (hl i).2) hlt) hz)
      (by positivity)

theorem SampleRule.logarithm (h : SampleRule N z m delta g value) (hQ : Spectral N Q lam) (ha : 0 < a)
    (hl : ∀ i, lam i ∈ Set.Icc a b) {q : ℝ} (hq : 0 ≤ q) (hg : ∀ x, 0 < x → g x = q * Real.log x) :
    q * z ⬝ᵥ (matrixFunction Real.log Q lam *ᵥ z) ≤ value ∧ value - q * z ⬝ᵥ (matrixFunction Real.log Q lam *ᵥ z) ≤
      q * ((z ⬝ᵥ z) * max (2 * √(b / a) / m * rate a b ^ (2 * m)) (delta b / (2 * a ^ 2))) := by
  obtain ⟨k, V, T, P, w, th, hk, hkm, hkry, hT, hP, hst, rfl⟩ := h
  have hth := hkry.ritz_mem hQ hP hl
  have hz : 0 ≤ z ⬝ᵥ z := Finset.sum_nonneg fun i _ => mul_self_nonneg (z i)
  rw [matrixFunction_form, wsum_congr (x := th) (g := fun x => q * Real.log x) fun i _ => hg _ (ha.trans_le (hth i).1),
    wsum_mul]
  have hrule := hkry.rule hQ hP hT hk hl
  refine ⟨mul_le_mul_of_nonneg_left (hrule.log_le ha) hq, ?_⟩
  rw [← mul_sub]
  refine mul_le_mul_of_nonneg_left ?_ hq
  rcases hkm.eq_or_lt with rfl | hlt
  · refine (hrule.log_rate ha).trans ?_
    rw [hQ.weights_sum, mul_comm]
    exact mul_le_mul_of_nonneg_left (le_max_left _ _) hz
  · refine (hkry.log_le hQ hP hT hk ha hl).trans ?_
    rw [mul_div_assoc]
    refine mul_le_mul_of_nonneg_left (le_trans ?_ (le_max_right _ _)) hz
    exact div_le_div_of_nonneg_right (hst Q lam b hQ (fun i => (hl i).2) hlt) (by positivity)

/-- A polynomial that approximates the function gives a bound, whether or not the iteration stops early. -/
theorem SampleRule.near (h : SampleRule N z m delta g value) (hQ : Spectral N Q lam) (hl : ∀ i, lam i ∈ Set.Icc a b)
    {p : ℝ[X]} {e R : ℝ} (hp : p.natDegree < 2 * m) (hR : 1 ≤ R) (haR : -R ≤ a) (hbR : b ≤ R)
    (he : ∀ x ∈ Set.Icc a b, |g x - p.eval x| ≤ e) :
    |value - z ⬝ᵥ (matrixFunction g Q lam *ᵥ z)| ≤ (z ⬝ᵥ z) * (2 * e + polySlope p R * √(delta b)) := by
  obtain ⟨k, V, T, P, w, th, hk, hkm, hkry, hT, hP, hst, rfl⟩ := h
  have hth := hkry.ritz_mem hQ hP hl
  have hz : 0 ≤ z ⬝ᵥ z := Finset.sum_nonneg fun i _ => mul_self_nonneg (z i)
  have hrule := hkry.rule hQ hP hT hk hl
  have hsl := polySlope_nonneg p (by linarith : 0 ≤ R)
  have hsd := Real.sqrt_nonneg (delta b)
  rw [matrixFunction_form]
  rcases hkm.eq_or_lt with rfl | hlt
  · have h1 := hrule.best hp he
    rw [hQ.weights_sum] at h1
    refine h1.trans ?_
    rw [mul_comm]
    exact mul_le_mul_of_nonneg_left (by nlinarith [mul_nonneg hsl hsd]) hz
  · have h1 := hkry.poly_le hQ hP hk hR (fun i => ⟨haR.trans (hl i).1, (hl i).2.trans hbR⟩) p
    have h2 := wsum_abs_le hrule.tau_nonneg (f := fun x => g x - p.eval x) (x := th) fun i => he _ (hth i)
    have h3 := wsum_abs_le hrule.w_nonneg (f := fun x => g x - p.eval x) (x := lam) fun i => he _ (hl i)
    rw [hrule.mass, hQ.weights_sum, ← wsum_sub] at h2
    rw [hQ.weights_sum, ← wsum_sub] at h3
    have h4 : √(w ⬝ᵥ w) ≤ √(delta b) := Real.sqrt_le_sqrt (hst Q lam b hQ (fun i => (hl i).2) hlt)
    have h5 : (z ⬝ᵥ z) * (polySlope p R * √(w ⬝ᵥ w)) ≤ (z ⬝ᵥ z) * (polySlope p R * √(delta b)) :=
      mul_le_mul_of_nonneg_left (mul_le_mul_of_nonneg_left h4 hsl) hz
    rw [abs_le] at h1 h2 h3 ⊢
    constructor <;> linarith [h1.1, h1.2, h2.1, h2.2, h3.1, h3.2]

/-- The Taylor polynomial of `exp (c x)` with `m` terms. -/
noncomputable def taylorExp (c : ℝ) (m : ℕ) : ℝ[X] := ∑ j ∈ Finset.range m, C (c ^ j / j.factorial) * X ^ j

theorem taylorExp_coeff (c : ℝ) (m j : ℕ) : (taylorExp c m).coeff j = if j < m then c ^ j / j.factorial else 0 := by
  unfold taylorExp
  rw [finset_sum_coeff]
  simp only [coeff_C_mul_X_pow]
  by_cases h : j < m
  · rw [if_pos h, Finset.sum_eq_single j (fun i _ hi => by rw [if_neg (Ne.symm hi)]) (by simp [h]), if_pos rfl]
  · rw [if_neg h]
    refine Finset.sum_eq_zero fun i hi => ?_
    rw [Finset.mem_range] at hi
    rw [if_neg (by omega)]

theorem taylorExp_natDegree (c : ℝ) {m : ℕ} (hm : 0 < m) : (taylorExp c m).natDegree < m := by
  by_contra h
  have h1 : (taylorExp c m).coeff (taylorExp c m).natDegree = 0 := by
    rw [taylorExp_coeff, if_neg h]
  rw [coeff_natDegree, leadingCoeff_eq_zero] at h1
  rw [h1, natDegree_zero] at h
  exact h hm

theorem taylorExp_eval (c x : ℝ) (m : ℕ) : (taylorExp c m).eval x = ∑ j ∈ Finset.range m, (c * x) ^ j / j.factorial := by
  unfold taylorExp
  rw [eval_finset_sum]
  refine Finset.sum_congr rfl fun j _ => ?_
  simp only [eval_mul, eval_C, eval_pow, eval_X]
  ring

theorem sum_range_le_exp {y : ℝ} (hy : 0 ≤ y) (m : ℕ) : ∑ j ∈ Finset.range m, y ^ j / j.factorial ≤ Real.exp y :=
  Real.sum_le_exp_of_nonneg hy m

theorem taylorExp_polySlope (c : ℝ) (m : ℕ) {R : ℝ} (hR : 0 ≤ R) : polySlope (taylorExp c m) R ≤ |c| * R * Real.exp (|c| * R) := by
  unfold polySlope
  have h1 : ∀ j ∈ Finset.range ((taylorExp c m).natDegree + 1), |(taylorExp c m).coeff j| * (j * R ^ j) ≤
      j * ((|c| * R) ^ j / j.factorial) := by
    intro j _
    rw [taylorExp_coeff]
    split
    · rw [abs_div, abs_pow, abs_of_nonneg (Nat.cast_nonneg (α := ℝ) j.factorial)]
      apply le_of_eq
      ring
    · rw [abs_zero, zero_mul]
      positivity
  refine (Finset.sum_le_sum h1).trans ?_
  rw [Finset.sum_range_succ']
  simp only [Nat.cast_zero, zero_mul, add_zero]
  have h2 : ∀ j ∈ Finset.range (taylorExp c m).natDegree, ((j + 1 : ℕ) : ℝ) * ((|c| * R) ^ (j + 1) / (j + 1).factorial) =
      |c| * R * ((|c| * R) ^ j / j.factorial) := by
    intro j _
    rw [Nat.factorial_succ]
    push_cast
    have : (j.factorial : ℝ) ≠ 0 := by exact_mod_cast j.factorial_ne_zero
    field_simp
    ring
  rw [Finset.sum_congr rfl h2, ← Finset.mul_sum]
  exact mul_le_mul_of_nonneg_left (sum_range_le_exp (by positivity) _) (by positivity)

theorem taylorExp_near (c : ℝ) (m : ℕ) {R x : ℝ} (hx : |x| ≤ R) : |Real.exp (c * x) - (taylorExp c m).eval x| ≤
    Real.exp (|c| * R) - ∑ j ∈ Finset.range m, (|c| * R) ^ j / j.factorial := by
  have h1 := Complex.norm_exp_sub_sum_le_exp_norm_sub_sum ((c * x : ℝ) : ℂ) m
  rw [taylorExp_eval]
  have h2 : Complex.exp ((c * x : ℝ) : ℂ) - ∑ j ∈ Finset.range m, ((c * x : ℝ) : ℂ) ^ j / j.factorial =
      ((Real.exp (c * x) - ∑ j ∈ Finset.range m, (c * x) ^ j / j.factorial : ℝ) : ℂ) := by
    push_cast
    rfl
  rw [h2, Complex.norm_real, Complex.norm_real, Real.norm_eq_abs, Real.norm_eq_abs, abs_mul] at h1
  refine h1.trans ?_
  -- the tail of the series is monotone
  have hmono : ∀ m : ℕ, MonotoneOn (fun y => Real.exp y - ∑ j ∈ Finset.range m, y ^ j / j.factorial) (Set.Ici 0) := by
    intro m
    induction m with
    | zero => intro u _ v _ huv; simpa using huv
    | succ m ih =>
      have hd : ∀ y, HasDerivAt (fun y => Real.exp y - ∑ j ∈ Finset.range (m + 1), y ^ j / (j.factorial : ℝ))
          (Real.exp y - ∑ j ∈ Finset.range m, y ^ j / (j.factorial : ℝ)) y := by
        intro y
        refine (Real.hasDerivAt_exp y).sub ?_
        have h3 : HasDerivAt (fun y : ℝ => ∑ j ∈ Finset.range (m + 1), y ^ j / (j.factorial : ℝ))
            (∑ j ∈ Finset.range (m + 1), (j : ℝ) * y ^ (j - 1) / (j.factorial : ℝ)) y :=
          HasDerivAt.fun_sum fun j _ => (hasDerivAt_pow j y).div_const _
        refine h3.congr_deriv ?_
        rw [Finset.sum_range_succ']
        simp only [Nat.cast_zero, zero_mul, zero_div, add_zero, Nat.add_sub_cancel]
        refine Finset.sum_congr rfl fun j _ => ?_
        rw [Nat.factorial_succ]
        push_cast
        have : (j.factorial : ℝ) ≠ 0 := by exact_mod_cast j.factorial_ne_zero
        field_simp
      refine monotoneOn_of_deriv_nonneg (convex_Ici 0) (fun y _ => (hd y).continuousAt.continuousWithinAt)
        (fun y _ => (hd y).differentiableAt.differentiableWithinAt) fun y hy => ?_
      rw [interior_Ici] at hy
      rw [(hd y).deriv]
      linarith [sum_range_le_exp (le_of_lt hy) m]
  exact hmono m (by positivity : (0:ℝ) ≤ |c| * |x|) (by have := abs_nonneg x; exact mul_nonneg (abs_nonneg c) (this.trans hx))
    (mul_le_mul_of_nonneg_left hx (abs_nonneg c))

theorem SampleRule.exponential (h : SampleRule N z m delta g value) (hQ : Spectral N Q lam) (hm : 0 < m) {R : ℝ} (hR : 1 ≤ R)
    (hl : ∀ i, lam i ∈ Set.Icc (-R) R) {c : ℝ} (hg : ∀ x, g x = Real.exp (c * x)) :
    |value - z ⬝ᵥ (matrixFunction (fun x => Real.exp (c * x)) Q lam *ᵥ z)| ≤ (z ⬝ᵥ z) *
      (2 * (Real.exp (|c| * R) - ∑ j ∈ Finset.range (2 * m), (|c| * R) ^ j / j.factorial) +
        |c| * R * Real.exp (|c| * R) * √(delta R)) := by
  have hz : 0 ≤ z ⬝ᵥ z := Finset.sum_nonneg fun i _ => mul_self_nonneg (z i)
  have h1 := h.near hQ hl (p := taylorExp c (2 * m)) (R := R) (taylorExp_natDegree c (by omega)) hR le_rfl le_rfl
    fun x hx => by
      rw [hg]
      exact taylorExp_near c (2 * m) (abs_le.2 hx)
  rw [show g = fun x => Real.exp (c * x) from funext hg] at h1
  refine h1.trans (mul_le_mul_of_nonneg_left ?_ hz)
  have := mul_le_mul_of_nonneg_right (taylorExp_polySlope c (2 * m) (by linarith : 0 ≤ R)) (Real.sqrt_nonneg (delta R))
  linarith

/-- A sign of the derivative of order `2 k` for all `k` gives the sign of the error. -/
theorem SampleRule.lower (h : SampleRule N z m delta g value) (hQ : Spectral N Q lam) (hl : ∀ i, lam i ∈ Set.Icc a b)
    {F : ℕ → ℝ → ℝ} (hF0 : ∀ x ∈ Set.Icc a b, g x = F 0 x) (hF : ∀ k, ∀ x ∈ Set.Icc a b, HasDerivAt (F k) (F (k + 1) x) x)
    (h0 : ∀ k, ∀ x ∈ Set.Icc a b, 0 ≤ F (2 * k) x) :
    value ≤ z ⬝ᵥ (matrixFunction g Q lam *ᵥ z) := by
  obtain ⟨k, V, T, P, w, th, hk, hkm, hkry, hT, hP, hst, rfl⟩ := h
  have hth := hkry.ritz_mem hQ hP hl
  rw [matrixFunction_form, wsum_congr (x := th) (g := F 0) fun i _ => hF0 _ (hth i),
    wsum_congr (x := lam) (g := F 0) fun i _ => hF0 _ (hl i)]
  exact (hkry.rule hQ hP hT hk hl).le_of_deriv (fun k _ => hF k) (h0 _)

end Imate.Lanczos

namespace Imate.Spec

open Matrix Imate.Lanczos

variable {n : Nat} {M Q : Matrix (Fin n) (Fin n) ℝ} {lam : Fin n → ℝ}

theorem Spectral.orthogonal_left (h : Spectral M Q lam) : Qᵀ * Q = 1 := h.1

theorem Spectral.log_det (h : Spectral M Q lam) (hl : ∀ i, 0 < lam i) :
    Real.log M.det = (matrixFunction Real.log Q lam).trace := by
  have hQ := h.orthogonal_left
  have h1 : M.det = ∏ i, lam i := by
    have e : M = Q * Matrix.diagonal lam * Qᵀ := h.eq
    rw [e, Matrix.det_mul, Matrix.det_mul, Matrix.det_diagonal, mul_right_comm, mul_comm Q.det, ← Matrix.det_mul, hQ,
      Matrix.det_one, one_mul]
  rw [h1, Real.log_prod fun i _ => (hl i).ne', matrixFunction, Matrix.trace_mul_comm, ← Matrix.mul_assoc, hQ,
    Matrix.one_mul, Matrix.trace_diagonal]

/-- The derivatives of `x ^ (-q)`. -/
noncomputable def negPow (q k : ℕ) (x : ℝ) : ℝ := (-1) ^ k * q.ascFactorial k * (x ^ (q + k))⁻¹

theorem negPow_nonneg (q k : ℕ) {x : ℝ} (hx : 0 ≤ x) : 0 ≤ negPow q (2 * k) x := by
  unfold negPow
  rw [pow_mul]
  norm_num
  positivity

theorem negPow_deriv (q k : ℕ) {x : ℝ} (hx : x ≠ 0) : HasDerivAt (negPow q k) (negPow q (k + 1) x) x := by
  have h1 : HasDerivAt (fun y : ℝ => (y ^ (q + k))⁻¹) (-((q + k : ℕ) * x ^ (q + k - 1)) / (x ^ (q + k)) ^ 2) x :=
    (hasDerivAt_pow (q + k) x).fun_inv (pow_ne_zero _ hx)
  have h2 := h1.const_mul ((-1 : ℝ) ^ k * q.ascFactorial k)
  refine HasDerivAt.congr_deriv (f := negPow q k) h2 ?_
  symm
  unfold negPow
  rw [Nat.ascFactorial_succ, pow_succ, ← add_assoc, pow_succ x]
  push_cast
  rcases Nat.eq_zero_or_pos (q + k) with h | h
  · obtain ⟨rfl, rfl⟩ := Nat.add_eq_zero_iff.1 h
    simp
  · obtain ⟨d, hd⟩ := Nat.exists_eq_add_of_lt h
    rw [show q + k = d + 1 by omega, show ((q : ℝ) + k) = d + 1 by exact_mod_cast (by omega : q + k = d + 1)]
    rw [Nat.add_sub_cancel]
    field_simp
    ring

end Imate.Spec
