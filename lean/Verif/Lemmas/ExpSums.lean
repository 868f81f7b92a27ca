import Mathlib.Analysis.SpecialFunctions.ExpDeriv
import Mathlib.Analysis.SpecialFunctions.Pow.Real
import Mathlib.Analysis.Calculus.LocalExtr.Rolle
import Mathlib.LinearAlgebra.Matrix.ToLinearEquiv
import Mathlib.Order.Fin.Basic
import Mathlib.Data.Finset.Sort

/-! Exponential sums with `k` terms have at most `k - 1` zeros, and generalised Vandermonde matrices are not
singular. -/

namespace Imate

open Finset

/-- Between the zeros of a differentiable function there are zeros of its derivative. -/
theorem rolle_many {f f' : ℝ → ℝ} (hf : ∀ x, HasDerivAt f (f' x) x) {k : ℕ} {y : Fin (k + 1) → ℝ}
    (hy : StrictMono y) (h0 : ∀ i, f (y i) = 0) :
    ∃ z : Fin k → ℝ, StrictMono z ∧ ∀ i, f' (z i) = 0 := by
  have key : ∀ i : Fin k, ∃ c ∈ Set.Ioo (y i.castSucc) (y i.succ), f' c = 0 := by
    intro i
    obtain ⟨c, hc, hd⟩ := exists_hasDerivAt_eq_zero (hy (Fin.castSucc_lt_succ (i := i)))
      (fun x _ => (hf x).continuousAt.continuousWithinAt) (by rw [h0, h0]) (fun x _ => hf x)
    exact ⟨c, hc, hd⟩
  choose z hz hz0 using key
  refine ⟨z, ?_, hz0⟩
  intro i j hij
  have h1 := (hz i).2
  have h2 := (hz j).1
  have h3 : y i.succ ≤ y j.castSucc := hy.monotone (by
    rw [Fin.le_def]
    simp only [Fin.val_succ, Fin.val_castSucc]
    exact hij)
  linarith

/-- An exponential sum with `k` different exponents that vanishes at `k` different points has no terms. -/
theorem expSum_eq_zero : ∀ {k : ℕ} {a c y : Fin k → ℝ}, Function.Injective a → StrictMono y →
    (∀ i, ∑ j, c j * Real.exp (a j * y i) = 0) → c = 0 := by
  intro k
  induction k with
  | zero => intro a c y _ _ _; exact Subsingleton.elim _ _
  | succ k ih =>
    intro a c y ha hy h0
    -- divide by the first exponential and differentiate
    have hf : ∀ x, HasDerivAt (fun x => c 0 + ∑ j : Fin k, c j.succ * Real.exp ((a j.succ - a 0) * x))
        (∑ j : Fin k, (c j.succ * (a j.succ - a 0)) * Real.exp ((a j.succ - a 0) * x)) x := by
      intro x
      have : HasDerivAt (fun x => ∑ j : Fin k, c j.succ * Real.exp ((a j.succ - a 0) * x))
          (∑ j : Fin k, (c j.succ * (a j.succ - a 0)) * Real.exp ((a j.succ - a 0) * x)) x := by
        refine HasDerivAt.fun_sum fun j _ => ?_
        have h1 : HasDerivAt (fun x => (a j.succ - a 0) * x) (a j.succ - a 0) x := by
          simpa using (hasDerivAt_id x).const_mul (a j.succ - a 0)
        have h2 := (h1.exp).const_mul (c j.succ)
        exact h2.congr_deriv (by ring)
      exact this.const_add _
    have hz : ∀ i, c 0 + ∑ j : Fin k, c j.succ * Real.exp ((a j.succ - a 0) * y i) = 0 := by
      intro i
      have h1 := h0 i
      rw [Fin.sum_univ_succ] at h1
      have h2 : (c 0 * Real.exp (a 0 * y i) + ∑ j : Fin k, c j.succ * Real.exp (a j.succ * y i)) *
          Real.exp (-(a 0 * y i)) = 0 := by rw [h1, zero_mul]
      rw [add_mul, mul_assoc, ← Real.exp_add, add_neg_cancel, Real.exp_zero, mul_one, sum_mul] at h2
      rw [← h2]
      congr 1
      refine sum_congr rfl fun j _ => ?_
      rw [mul_assoc, ← Real.exp_add]
      congr 2
      ring
    obtain ⟨z, hzm, hz0⟩ := rolle_many hf hy hz
    have hc := ih (a := fun j => a j.succ - a 0) (c := fun j => c j.succ * (a j.succ - a 0)) (y := z)
      (fun i j hij => Fin.succ_injective _ (ha (by simpa using hij))) hzm hz0
    have hs : ∀ j : Fin k, c j.succ = 0 := by
      intro j
      have h1 := congrFun hc j
      simp only [Pi.zero_apply, mul_eq_zero] at h1
      rcases h1 with h1 | h1
      · exact h1
      · exact absurd (ha (sub_eq_zero.1 h1)) (Fin.succ_ne_zero j)
    have h00 : c 0 = 0 := by
      have := hz 0
      simpa [hs] using this
    funext j
    refine Fin.cases h00 hs j

/-- The same for points in any order. -/
theorem expSum_eq_zero' {k : ℕ} {a c y : Fin k → ℝ} (ha : Function.Injective a) (hy : Function.Injective y)
    (h0 : ∀ i, ∑ j, c j * Real.exp (a j * y i) = 0) : c = 0 := by
  classical
  have hcard : (univ.image y).card = k := by rw [card_image_of_injective _ hy, card_univ, Fintype.card_fin]
  refine expSum_eq_zero (y := (univ.image y).orderEmbOfFin hcard) ha (OrderEmbedding.strictMono _) fun i => ?_
  have := (univ.image y).orderEmbOfFin_mem hcard i
  obtain ⟨i', -, hi'⟩ := mem_image.1 this
  rw [← hi']
  exact h0 i'

/-- A generalised Vandermonde matrix with different exponents and different points is not singular. -/
theorem det_exp_ne_zero {k : ℕ} {a y : Fin k → ℝ} (ha : Function.Injective a) (hy : Function.Injective y) :
    (Matrix.of fun i j => Real.exp (a j * y i)).det ≠ 0 := by
  intro hdet
  obtain ⟨v, hv, h⟩ := Matrix.exists_mulVec_eq_zero_iff.2 hdet
  refine hv (expSum_eq_zero' ha hy fun i => ?_)
  have := congrFun h i
  simp only [Matrix.mulVec, dotProduct, Matrix.of_apply, Pi.zero_apply] at this
  rw [← this]
  exact sum_congr rfl fun j _ => mul_comm _ _

/-- Sums of different powers of positive numbers. -/
theorem rpowSum_eq_zero {k : ℕ} {a c t : Fin k → ℝ} (ha : Function.Injective a) (ht : Function.Injective t)
    (hpos : ∀ i, 0 < t i) (h0 : ∀ i, ∑ j, c j * t i ^ a j = 0) : c = 0 := by
  refine expSum_eq_zero' (y := fun i => Real.log (t i)) ha
    (fun i j hij => ht (Real.log_injOn_pos (hpos i) (hpos j) hij)) fun i => ?_
  rw [← h0 i]
  refine sum_congr rfl fun j _ => ?_
  rw [Real.rpow_def_of_pos (hpos i), mul_comm (a j)]

/-- The Gaussian matrix of different points is not singular. -/
theorem det_gauss_ne_zero {k : ℕ} {x : Fin k → ℝ} (hx : Function.Injective x) {eps : ℝ} (he : eps ≠ 0) :
    (Matrix.of fun i j => Real.exp (-((|x i - x j| / eps) ^ 2))).det ≠ 0 := by
  intro hdet
  obtain ⟨v, hv, h⟩ := Matrix.exists_mulVec_eq_zero_iff.2 hdet
  have h1 : (fun j => v j * Real.exp (-(x j / eps) ^ 2)) = 0 := by
    refine expSum_eq_zero' (a := fun j => 2 * x j / eps ^ 2) (y := x)
      (fun i j hij => hx ?_) hx fun i => ?_
    · have : (2 : ℝ) / eps ^ 2 ≠ 0 := by positivity
      have h2 : 2 / eps ^ 2 * x i = 2 / eps ^ 2 * x j := by
        have := hij
        simp only at this
        rw [show 2 / eps ^ 2 * x i = 2 * x i / eps ^ 2 by ring, this]
        ring
      exact mul_left_cancel₀ this h2
    · have h3 := congrFun h i
      simp only [Matrix.mulVec, dotProduct, Matrix.of_apply, Pi.zero_apply] at h3
      have h4 : Real.exp ((x i / eps) ^ 2) *
          ∑ j, Real.exp (-((|x i - x j| / eps) ^ 2)) * v j = 0 := by rw [h3, mul_zero]
      rw [← h4, mul_sum]
      refine sum_congr rfl fun j _ => ?_
      rw [← mul_assoc, ← Real.exp_add, mul_assoc, ← Real.exp_add, mul_comm]
      congr 2
      rw [div_pow, div_pow, div_pow, sq_abs]
      field_simp
      ring
  refine hv (funext fun j => ?_)
  have := congrFun h1 j
  simpa using this

end Imate
