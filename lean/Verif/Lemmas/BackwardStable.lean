import Verif.Lemmas.RoundedMoments

/-! # Powers of a perturbed matrix -/

namespace Imate.Rounded

open Matrix Spec

variable {n : ℕ}

/-- The power of a perturbed matrix. -/
theorem pow_perturb {T E : Matrix (Fin n) (Fin n) ℝ} {R d : ℝ} (hR : 0 ≤ R) (hd : 0 ≤ d)
    (hT : ∀ x : Fin n → ℝ, len (T *ᵥ x) ≤ R * len x) (hE : ∀ x : Fin n → ℝ, len (E *ᵥ x) ≤ d * len x) (k : ℕ)
    (x : Fin n → ℝ) : len ((T + E) ^ k *ᵥ x - T ^ k *ᵥ x) ≤ ((R + d) ^ k - R ^ k) * len x := by
  induction k with
  | zero => simp [len]
  | succ k ih =>
    have e : (T + E) ^ (k + 1) *ᵥ x - T ^ (k + 1) *ᵥ x =
        (T *ᵥ ((T + E) ^ k *ᵥ x - T ^ k *ᵥ x) + E *ᵥ ((T + E) ^ k *ᵥ x - T ^ k *ᵥ x)) + E *ᵥ (T ^ k *ᵥ x) := by
      rw [pow_succ', pow_succ', ← mulVec_mulVec, ← mulVec_mulVec, add_mulVec, mulVec_sub, mulVec_sub]
      abel
    rw [e]
    have h1 := len_add_le (T *ᵥ ((T + E) ^ k *ᵥ x - T ^ k *ᵥ x) + E *ᵥ ((T + E) ^ k *ᵥ x - T ^ k *ᵥ x)) (E *ᵥ (T ^ k *ᵥ x))
    have h2 := len_add_le (T *ᵥ ((T + E) ^ k *ᵥ x - T ^ k *ᵥ x)) (E *ᵥ ((T + E) ^ k *ᵥ x - T ^ k *ᵥ x))
    have h3 := (hT ((T + E) ^ k *ᵥ x - T ^ k *ᵥ x)).trans (mul_le_mul_of_nonneg_left ih hR)
    have h4 := (hE ((T + E) ^ k *ᵥ x - T ^ k *ᵥ x)).trans (mul_le_mul_of_nonneg_left ih hd)
    have h5 := (hE (T ^ k *ᵥ x)).trans (mul_le_mul_of_nonneg_left (pow_len hT hR k x) hd)
    have e2 : ((R + d) ^ (k + 1) - R ^ (k + 1)) * len x =
        R * (((R + d) ^ k - R ^ k) * len x) + d * (((R + d) ^ k - R ^ k) * len x) + d * (R ^ k * len x) := by ring
    rw [e2]
    linarith

/-- Squares of perturbed weights. -/
theorem weights_perturb {k : ℕ} {q t f : Fin k → ℝ} {η F : ℝ} (hη : 0 ≤ η) (hq : ∑ i, q i * q i = 1)
    (ht : ∀ i, |t i - q i| ≤ η) (hf : ∀ i, |f i| ≤ F) :
    |∑ i, t i ^ 2 * f i - ∑ i, q i * q i * f i| ≤ F * (2 * Real.sqrt k * η + k * η ^ 2) := by
  have hlen : len q = 1 := by
    have : q ⬝ᵥ q = 1 := hq
    unfold len
    rw [this, Real.sqrt_one]
  have hs := sum_abs_le_len q
  rw [hlen, mul_one] at hs
  rw [← Finset.sum_sub_distrib]
  refine (Finset.abs_sum_le_sum_abs _ _).trans ?_
  have h1 : ∀ i, |t i ^ 2 * f i - q i * q i * f i| ≤ F * (2 * |q i| * η + η ^ 2) := fun i => by
    have e : t i ^ 2 * f i - q i * q i * f i = ((t i - q i) * ((t i - q i) + 2 * q i)) * f i := by ring
    rw [e, abs_mul, abs_mul, mul_comm F]
    have h2 : |(t i - q i) + 2 * q i| ≤ η + 2 * |q i| := by
      refine (abs_add_le _ _).trans ?_
      rw [abs_mul, abs_two]
      linarith [ht i]
    have h3 := mul_le_mul (ht i) h2 (abs_nonneg _) hη
    have h4 : η * (η + 2 * |q i|) = 2 * |q i| * η + η ^ 2 := by ring
    rw [h4] at h3
    exact mul_le_mul h3 (hf i) (abs_nonneg _) (by positivity)
  refine (Finset.sum_le_sum fun i _ => h1 i).trans ?_
  rw [← Finset.mul_sum, Finset.sum_add_distrib, ← Finset.sum_mul, ← Finset.mul_sum, Finset.sum_const, Finset.card_univ,
    Fintype.card_fin, nsmul_eq_mul]
  rcases Nat.eq_zero_or_pos k with rfl | hk
  · simp at hq
  have hF : 0 ≤ F := (abs_nonneg _).trans (hf ⟨0, hk⟩)
  refine mul_le_mul_of_nonneg_left ?_ hF
  have := mul_le_mul_of_nonneg_right hs hη
  linarith

end Imate.Rounded
