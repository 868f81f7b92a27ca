import Verif.Lemmas.Bessel
import Mathlib.Analysis.SpecialFunctions.Gaussian.FourierTransform
import Mathlib.LinearAlgebra.LinearIndependent.Lemmas
import Mathlib.LinearAlgebra.LinearIndependent.Basic
import Mathlib.Analysis.InnerProductSpace.PiL2
import Mathlib.Analysis.InnerProductSpace.EuclideanDist

/-! The Gaussian and the Matern kernels are positive definite. -/

namespace Imate.Bessel

open Real MeasureTheory Set

variable {d n : ℕ}

local notation "E" d => EuclideanSpace ℝ (Fin d)

theorem norm_split (x y z : E d) :
    ‖x - z‖ ^ 2 + ‖y - z‖ ^ 2 = 2 * ‖z - (1 / 2 : ℝ) • (x + y)‖ ^ 2 + ‖x - y‖ ^ 2 / 2 := by
  simp only [← real_inner_self_eq_norm_sq, inner_sub_left, inner_sub_right, inner_add_left, inner_add_right,
    real_inner_smul_left, real_inner_smul_right]
  rw [real_inner_comm x z, real_inner_comm y z, real_inner_comm x y]
  ring

theorem integrable_gauss {b : ℝ} (hb : 0 < b) : Integrable fun z : E d => exp (-b * ‖z‖ ^ 2) := by
  have h := GaussianFourier.integrable_cexp_neg_mul_sq_norm_add (V := E d) (b := (b : ℂ)) (by simpa using hb) 0 0
  have h2 := h.re
  refine h2.congr (Filter.Eventually.of_forall fun z => ?_)
  simp only [zero_mul, add_zero]
  norm_cast

theorem gauss_prod {b : ℝ} (x y z : E d) :
    exp (-(2 * b) * ‖x - z‖ ^ 2) * exp (-(2 * b) * ‖y - z‖ ^ 2) =
      exp (-b * ‖x - y‖ ^ 2) * exp (-(4 * b) * ‖z - (1 / 2 : ℝ) • (x + y)‖ ^ 2) := by
  rw [← Real.exp_add, ← Real.exp_add]
  congr 1
  linear_combination (-2 * b) * norm_split x y z

theorem integrable_prod {b : ℝ} (hb : 0 < b) (x y : E d) :
    Integrable fun z : E d => exp (-(2 * b) * ‖x - z‖ ^ 2) * exp (-(2 * b) * ‖y - z‖ ^ 2) := by
  simp only [gauss_prod]
  exact ((integrable_gauss (d := d) (b := 4 * b) (by positivity)).comp_sub_right _).const_mul _

theorem integral_prod {b : ℝ} (x y : E d) :
    ∫ z : E d, exp (-(2 * b) * ‖x - z‖ ^ 2) * exp (-(2 * b) * ‖y - z‖ ^ 2) =
      exp (-b * ‖x - y‖ ^ 2) * ∫ z : E d, exp (-(4 * b) * ‖z‖ ^ 2) := by
  simp only [gauss_prod]
  rw [integral_const_mul, integral_sub_right_eq_self fun z : E d => exp (-(4 * b) * ‖z‖ ^ 2)]

theorem integral_gauss_pos {b : ℝ} (hb : 0 < b) : 0 < ∫ z : E d, exp (-b * ‖z‖ ^ 2) :=
  integral_exp_pos (integrable_gauss hb)

/-- Gaussian functions around distinct points are linearly independent. -/
theorem gauss_independent {b : ℝ} (hb : 0 < b) {x : Fin n → E d} (hx : Function.Injective x) {v : Fin n → ℝ}
    (h : ∀ z : E d, ∑ i, v i * exp (-(2 * b) * ‖x i - z‖ ^ 2) = 0) : v = 0 := by
  let f : Fin n → (Multiplicative (E d) →* ℝ) := fun i =>
    { toFun := fun z => exp (4 * b * inner ℝ (x i) (Multiplicative.toAdd z))
      map_one' := by simp
      map_mul' := fun z w => by rw [toAdd_mul, inner_add_right, mul_add, Real.exp_add] }
  have hf : Function.Injective f := by
    intro i j hij
    apply hx
    refine ext_inner_right ℝ fun z => ?_
    have h1 := DFunLike.congr_fun hij (Multiplicative.ofAdd z)
    have h2 : exp (4 * b * inner ℝ (x i) z) = exp (4 * b * inner ℝ (x j) z) := h1
    rw [Real.exp_eq_exp] at h2
    exact mul_left_cancel₀ (by positivity) h2
  have hli := (linearIndependent_monoidHom (Multiplicative (E d)) ℝ).comp f hf
  rw [Fintype.linearIndependent_iff] at hli
  have hz := hli (fun i => v i * exp (-(2 * b) * ‖x i‖ ^ 2)) (by
    funext z
    have hh := h (Multiplicative.toAdd z)
    simp only [Finset.sum_apply, Pi.smul_apply, smul_eq_mul, Pi.zero_apply, Function.comp]
    have key : ∀ i, v i * exp (-(2 * b) * ‖x i - Multiplicative.toAdd z‖ ^ 2) =
        exp (-(2 * b) * ‖Multiplicative.toAdd z‖ ^ 2) * (v i * exp (-(2 * b) * ‖x i‖ ^ 2) * f i z) := by
      intro i
      show _ = _ * (_ * exp (4 * b * inner ℝ (x i) (Multiplicative.toAdd z)))
      rw [mul_assoc (v i), mul_left_comm, ← Real.exp_add, ← Real.exp_add, norm_sub_sq_real]
      congr 2
      ring
    simp only [key] at hh
    rw [← Finset.mul_sum] at hh
    exact (mul_eq_zero.1 hh).resolve_left (Real.exp_pos _).ne')
  funext i
  exact (mul_eq_zero.1 (hz i)).resolve_right (Real.exp_pos _).ne'

/-- The Gaussian kernel is positive definite. -/
theorem gauss_posDef {b : ℝ} (hb : 0 < b) {x : Fin n → E d} (hx : Function.Injective x) {v : Fin n → ℝ} (hv : v ≠ 0) :
    0 < ∑ i, ∑ j, v i * v j * exp (-b * ‖x i - x j‖ ^ 2) := by
  have hC := integral_gauss_pos (d := d) (b := 4 * b) (by positivity)
  set C := ∫ z : E d, exp (-(4 * b) * ‖z‖ ^ 2)
  have hsq : ∀ z : E d, (∑ i, v i * exp (-(2 * b) * ‖x i - z‖ ^ 2)) ^ 2 =
      ∑ i, ∑ j, v i * v j * (exp (-(2 * b) * ‖x i - z‖ ^ 2) * exp (-(2 * b) * ‖x j - z‖ ^ 2)) := by
    intro z
    rw [sq, Finset.sum_mul_sum]
    refine Finset.sum_congr rfl fun i _ => Finset.sum_congr rfl fun j _ => by ring
  have hint : Integrable fun z : E d => (∑ i, v i * exp (-(2 * b) * ‖x i - z‖ ^ 2)) ^ 2 := by
    simp only [hsq]
    exact integrable_finset_sum _ fun i _ => integrable_finset_sum _ fun j _ =>
      (integrable_prod hb (x i) (x j)).const_mul _
  have hval : ∫ z : E d, (∑ i, v i * exp (-(2 * b) * ‖x i - z‖ ^ 2)) ^ 2 =
      (∑ i, ∑ j, v i * v j * exp (-b * ‖x i - x j‖ ^ 2)) * C := by
    simp only [hsq]
    rw [integral_finset_sum _ fun i _ => integrable_finset_sum _ fun j _ =>
      (integrable_prod hb (x i) (x j)).const_mul _, Finset.sum_mul]
    refine Finset.sum_congr rfl fun i _ => ?_
    rw [integral_finset_sum _ fun j _ => (integrable_prod hb (x i) (x j)).const_mul _, Finset.sum_mul]
    refine Finset.sum_congr rfl fun j _ => ?_
    rw [integral_const_mul, integral_prod]
    ring
  have hnn : 0 ≤ ∫ z : E d, (∑ i, v i * exp (-(2 * b) * ‖x i - z‖ ^ 2)) ^ 2 :=
    integral_nonneg fun z => sq_nonneg _
  have hne : ∫ z : E d, (∑ i, v i * exp (-(2 * b) * ‖x i - z‖ ^ 2)) ^ 2 ≠ 0 := by
    intro h0
    rw [integral_eq_zero_iff_of_nonneg (fun z => sq_nonneg _) hint] at h0
    have hcont : Continuous fun z : E d => (∑ i, v i * exp (-(2 * b) * ‖x i - z‖ ^ 2)) ^ 2 := by fun_prop
    have h1 := (hcont.ae_eq_iff_eq (μ := volume) (g := fun _ => (0 : ℝ)) continuous_const).1 h0
    exact hv (gauss_independent hb hx fun z => by
      have := congrFun h1 z
      exact pow_eq_zero_iff (two_ne_zero) |>.1 this)
  have hpos : 0 < (∑ i, ∑ j, v i * v j * exp (-b * ‖x i - x j‖ ^ 2)) * C := by
    rw [← hval]; exact lt_of_le_of_ne hnn hne.symm
  exact (mul_pos_iff_of_pos_right hC).1 hpos

/-- The Matern kernel is positive definite. -/
theorem mix_posDef {nu c : ℝ} (hnu : 0 < nu) (hc : 0 < c) {x : Fin n → E d} (hx : Function.Injective x)
    {v : Fin n → ℝ} (hv : v ≠ 0) :
    0 < ∑ i, ∑ j, v i * v j * mix nu (c * ‖x i - x j‖ ^ 2) := by
  have hint : ∀ i j, Integrable (fun s : ℝ => s ^ (nu - 1) * exp (-s - c * ‖x i - x j‖ ^ 2 / s))
      (volume.restrict (Ioi 0)) := fun i j => integrable_mix hnu (by positivity)
  have hval : ∑ i, ∑ j, v i * v j * mix nu (c * ‖x i - x j‖ ^ 2) =
      ∫ s in Ioi (0 : ℝ), ∑ i, ∑ j, v i * v j * (s ^ (nu - 1) * exp (-s - c * ‖x i - x j‖ ^ 2 / s)) := by
    rw [integral_finset_sum _ fun i _ => integrable_finset_sum _ fun j _ => (hint i j).const_mul _]
    refine Finset.sum_congr rfl fun i _ => ?_
    rw [integral_finset_sum _ fun j _ => (hint i j).const_mul _]
    refine Finset.sum_congr rfl fun j _ => ?_
    rw [integral_const_mul]
    rfl
  have hpos : ∀ s : ℝ, 0 < s →
      0 < ∑ i, ∑ j, v i * v j * (s ^ (nu - 1) * exp (-s - c * ‖x i - x j‖ ^ 2 / s)) := by
    intro s hs
    have h := gauss_posDef (b := c / s) (by positivity) hx hv
    have he : ∑ i, ∑ j, v i * v j * (s ^ (nu - 1) * exp (-s - c * ‖x i - x j‖ ^ 2 / s)) =
        s ^ (nu - 1) * exp (-s) * ∑ i, ∑ j, v i * v j * exp (-(c / s) * ‖x i - x j‖ ^ 2) := by
      rw [Finset.mul_sum]
      refine Finset.sum_congr rfl fun i _ => ?_
      rw [Finset.mul_sum]
      refine Finset.sum_congr rfl fun j _ => ?_
      rw [sub_eq_add_neg (-s), Real.exp_add, show -(c * ‖x i - x j‖ ^ 2 / s) = -(c / s) * ‖x i - x j‖ ^ 2 by ring]
      ring
    rw [he]
    positivity
  rw [hval, setIntegral_pos_iff_support_of_nonneg_ae]
  · have hsupp : (Function.support fun s : ℝ => ∑ i, ∑ j, v i * v j *
        (s ^ (nu - 1) * exp (-s - c * ‖x i - x j‖ ^ 2 / s))) ∩ Ioi 0 = Ioi 0 :=
      inter_eq_right.2 fun s hs => ne_of_gt (hpos s hs)
    rw [hsupp]
    simp
  · exact (ae_restrict_iff' measurableSet_Ioi).2 (Filter.Eventually.of_forall fun s hs => (hpos s hs).le)
  · exact integrable_finset_sum _ fun i _ => integrable_finset_sum _ fun j _ => (hint i j).const_mul _

end Imate.Bessel
