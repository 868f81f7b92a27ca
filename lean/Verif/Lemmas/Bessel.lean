import Verif.Spec.Bessel
import Mathlib.MeasureTheory.Integral.IntegralEqImproper
import Mathlib.MeasureTheory.Function.Jacobian
import Mathlib.Analysis.SpecialFunctions.Gaussian.GaussianIntegral
import Mathlib.Analysis.SpecialFunctions.Gamma.Basic
import Mathlib.Tactic.FieldSimp

/-! The Matern correlation as a mixture of Gaussian functions. -/

namespace Imate.Bessel

open Real MeasureTheory Set Imate.Spec

/-- `∫ s^(ν-1) exp(-s - c/s) ds` -/
noncomputable def mix (nu c : ℝ) : ℝ := ∫ s in Ioi (0 : ℝ), s ^ (nu - 1) * exp (-s - c / s)

theorem integrable_mix {nu c : ℝ} (hnu : 0 < nu) (hc : 0 ≤ c) :
    IntegrableOn (fun s : ℝ => s ^ (nu - 1) * exp (-s - c / s)) (Ioi 0) := by
  have h := Real.GammaIntegral_convergent hnu
  refine Integrable.mono h ?_ ?_
  · refine ContinuousOn.aestronglyMeasurable ?_ measurableSet_Ioi
    refine ContinuousOn.mul ?_ ?_
    · exact fun s hs => (Real.continuousAt_rpow_const s _ (Or.inl (ne_of_gt hs))).continuousWithinAt
    · refine ContinuousOn.rexp ?_
      exact (continuousOn_id.neg).sub (continuousOn_const.div continuousOn_id fun s hs => ne_of_gt hs)
  · refine (ae_restrict_iff' measurableSet_Ioi).2 (Filter.Eventually.of_forall fun s hs => ?_)
    have hs' : 0 < s := hs
    rw [Real.norm_of_nonneg (by positivity), Real.norm_of_nonneg (by positivity), mul_comm]
    gcongr
    have : 0 ≤ c / s := by positivity
    linarith

theorem mix_zero (nu : ℝ) (hnu : 0 < nu) : mix nu 0 = Gamma nu := by
  rw [mix, Gamma_eq_integral hnu]
  refine setIntegral_congr_fun measurableSet_Ioi fun s _ => ?_
  simp [mul_comm]

theorem mix_antitone {nu c c' : ℝ} (hnu : 0 < nu) (hc : 0 ≤ c) (h : c ≤ c') : mix nu c' ≤ mix nu c := by
  refine setIntegral_mono_on (integrable_mix hnu (hc.trans h)) (integrable_mix hnu hc) measurableSet_Ioi fun s hs => ?_
  have hs' : 0 < s := hs
  gcongr

theorem mix_pos {nu c : ℝ} (hnu : 0 < nu) (hc : 0 ≤ c) : 0 < mix nu c := by
  rw [mix, setIntegral_pos_iff_support_of_nonneg_ae]
  · have : Function.support (fun s : ℝ => s ^ (nu - 1) * exp (-s - c / s)) ∩ Ioi 0 = Ioi 0 := by
      refine inter_eq_right.2 fun s hs => ?_
      have hs' : 0 < s := hs
      exact ne_of_gt (by positivity)
    rw [this]
    simp
  · refine (ae_restrict_iff' measurableSet_Ioi).2 (Filter.Eventually.of_forall fun s hs => ?_)
    have hs' : 0 < s := hs
    simp only [Pi.zero_apply]
    positivity
  · exact integrable_mix hnu hc

/-- The substitution `t = c/s`. -/
theorem mix_neg {c : ℝ} (hc : 0 < c) (nu : ℝ) : mix (-nu) c = c ^ (-nu) * mix nu c := by
  have h1 := integral_comp_rpow_Ioi (fun s : ℝ => s ^ (-nu - 1) * exp (-s - 1 / s * c)) (p := -1) (by norm_num)
  have h2 := integral_comp_mul_left_Ioi (fun s : ℝ => s ^ (nu - 1) * exp (-s - c / s)) 0 hc
  have e0 : mix (-nu) c = ∫ s in Ioi (0 : ℝ), s ^ (-nu - 1) * exp (-s - 1 / s * c) := by
    refine setIntegral_congr_fun measurableSet_Ioi fun s _ => ?_
    simp only [one_div_mul_eq_div]
  rw [e0, ← h1]
  rw [mul_zero] at h2
  have e1 : ∀ s ∈ Ioi (0 : ℝ), (|(-1 : ℝ)| * s ^ ((-1 : ℝ) - 1)) •
      ((s ^ (-1 : ℝ)) ^ (-nu - 1) * exp (-s ^ (-1 : ℝ) - 1 / s ^ (-1 : ℝ) * c)) =
      c ^ (1 - nu) * ((c * s) ^ (nu - 1) * exp (-(c * s) - c / (c * s))) := by
    intro s hs
    have hs' : 0 < s := hs
    rw [abs_neg, abs_one, one_mul, smul_eq_mul, rpow_neg_one, Real.inv_rpow hs'.le, ← Real.rpow_neg hs'.le,
      ← mul_assoc, ← Real.rpow_add hs', Real.mul_rpow hc.le hs'.le, ← mul_assoc, ← mul_assoc, ← Real.rpow_add hc]
    rw [show (1 - nu) + (nu - 1) = 0 by ring, Real.rpow_zero, one_mul]
    congr 1
    · congr 1; ring
    · congr 1
      field_simp
      ring
  rw [setIntegral_congr_fun measurableSet_Ioi e1, integral_const_mul, h2, smul_eq_mul, ← mul_assoc]
  congr 1
  rw [Real.rpow_sub hc, Real.rpow_one, Real.rpow_neg hc.le]
  field_simp

/-- The documented Matern correlation is a mixture of Gaussian functions of the distance. -/
theorem matern_eq_mix {nu r : ℝ} (hnu : 0 < nu) (hr : 0 < r) :
    matern nu r = mix nu (nu * r ^ 2 / 2) / Gamma nu := by
  have hs : 0 < √(2 * nu) := Real.sqrt_pos.2 (by positivity)
  set y := √(2 * nu) * r with hy
  have hy0 : 0 < y := by positivity
  have hy2 : y ^ 2 / 4 = nu * r ^ 2 / 2 := by
    rw [hy, mul_pow, Real.sq_sqrt (by positivity)]
    ring
  have hb : besselK nu y = 1 / 2 * (y / 2) ^ nu * mix (-nu) (y ^ 2 / 4) := by
    unfold besselK mix
    congr 1
    refine setIntegral_congr_fun measurableSet_Ioi fun s hs => ?_
    have hs' : s ≠ 0 := ne_of_gt hs
    rw [mul_comm, div_div]
  rw [matern, ← hy, hb, mix_neg (by positivity), ← hy2]
  have h4 : (y ^ 2 / 4) ^ (-nu) = (y / 2) ^ (-nu) * (y / 2) ^ (-nu) := by
    rw [← Real.mul_rpow (by positivity) (by positivity)]
    congr 1
    ring
  rw [h4]
  have h5 : (y / 2) ^ nu * (y / 2) ^ (-nu) = 1 := by
    rw [← Real.rpow_add (by positivity), add_neg_cancel, Real.rpow_zero]
  have h6 : y ^ nu * (y / 2) ^ (-nu) = 2 ^ nu := by
    rw [Real.rpow_neg (by positivity), Real.div_rpow hy0.le (by norm_num)]
    have : y ^ nu ≠ 0 := (Real.rpow_pos_of_pos hy0 _).ne'
    field_simp
  have h7 : (2 : ℝ) ^ (1 - nu) = 2 / 2 ^ nu := by rw [Real.rpow_sub (by norm_num), Real.rpow_one]
  have h8 : (2 : ℝ) ^ nu ≠ 0 := (Real.rpow_pos_of_pos (by norm_num) _).ne'
  rw [h7]
  calc 2 / 2 ^ nu / Gamma nu * y ^ nu * (1 / 2 * (y / 2) ^ nu * ((y / 2) ^ (-nu) * (y / 2) ^ (-nu) * mix nu (y ^ 2 / 4)))
      = 2 / 2 ^ nu / Gamma nu * (1 / 2) * (y ^ nu * (y / 2) ^ (-nu)) * ((y / 2) ^ nu * (y / 2) ^ (-nu)) *
          mix nu (y ^ 2 / 4) := by ring
    _ = mix nu (y ^ 2 / 4) / Gamma nu := by rw [h5, h6]; field_simp

theorem hasDerivAt_sub_div {b u : ℝ} (hu : u ≠ 0) : HasDerivAt (fun u : ℝ => u - b / u) (1 + b / u ^ 2) u := by
  have h := (hasDerivAt_id u).sub ((hasDerivAt_const u b).div (hasDerivAt_id u) hu)
  refine h.congr_deriv ?_
  simp only [id]
  field_simp
  ring

/-- The map `u ↦ u - b/u` takes the positive numbers to all numbers, one to one. -/
theorem glasser {b : ℝ} (hb : 0 < b) : ∫ u in Ioi (0 : ℝ), (1 + b / u ^ 2) * exp (-(u - b / u) ^ 2) = √π := by
  have hinj : InjOn (fun u : ℝ => u - b / u) (Ioi 0) := by
    intro u hu v hv h
    have hu' : 0 < u := hu
    have hv' : 0 < v := hv
    simp only at h
    field_simp at h
    have : (u - v) * (u * v + b) = 0 := by linear_combination h
    rcases mul_eq_zero.1 this with h' | h'
    · linarith
    · have : 0 < u * v + b := by positivity
      linarith
  have himg : (fun u : ℝ => u - b / u) '' Ioi 0 = univ := by
    refine eq_univ_of_forall fun w => ?_
    have h0 : 0 ≤ w ^ 2 + 4 * b := by positivity
    have hlt : |w| < √(w ^ 2 + 4 * b) := by
      rw [← Real.sqrt_sq_eq_abs]
      exact Real.sqrt_lt_sqrt (by positivity) (by linarith)
    have hpos : 0 < (w + √(w ^ 2 + 4 * b)) / 2 := by
      have := neg_abs_le w
      linarith
    refine ⟨(w + √(w ^ 2 + 4 * b)) / 2, hpos, ?_⟩
    have hsq := Real.sq_sqrt h0
    simp only
    rw [sub_eq_iff_eq_add, eq_comm, ← eq_sub_iff_add_eq', div_eq_iff hpos.ne']
    linear_combination (-1 / 4 : ℝ) * hsq
  have h := integral_image_eq_integral_abs_deriv_smul (measurableSet_Ioi (a := (0 : ℝ)))
    (fun u hu => (hasDerivAt_sub_div (b := b) (ne_of_gt hu)).hasDerivWithinAt) hinj (fun w => exp (-w ^ 2))
  rw [himg, setIntegral_univ] at h
  have hg := integral_gaussian 1
  simp only [one_mul, div_one, neg_mul] at hg
  rw [hg] at h
  rw [h]
  refine setIntegral_congr_fun measurableSet_Ioi fun u hu => ?_
  have hu' : 0 < u := hu
  simp only [smul_eq_mul]
  rw [abs_of_pos (by positivity)]

theorem integrable_rpow_exp {nu c : ℝ} (hc : 0 < c) :
    IntegrableOn (fun s : ℝ => s ^ (nu - 1) * exp (-s - c / s)) (Ioi 0) := by
  obtain ⟨k, hk⟩ := exists_nat_gt (-nu)
  have h := (Real.GammaIntegral_convergent (s := nu + k) (by linarith)).const_mul (k.factorial / c ^ k)
  refine Integrable.mono h ?_ ?_
  · refine ContinuousOn.aestronglyMeasurable ?_ measurableSet_Ioi
    refine ContinuousOn.mul ?_ ?_
    · exact fun s hs => (Real.continuousAt_rpow_const s _ (Or.inl (ne_of_gt hs))).continuousWithinAt
    · refine ContinuousOn.rexp ?_
      exact (continuousOn_id.neg).sub (continuousOn_const.div continuousOn_id fun s hs => ne_of_gt hs)
  · refine (ae_restrict_iff' measurableSet_Ioi).2 (Filter.Eventually.of_forall fun s hs => ?_)
    have hs' : 0 < s := hs
    rw [Real.norm_of_nonneg (by positivity), Real.norm_of_nonneg (by positivity), sub_eq_add_neg (-s), Real.exp_add,
      Real.exp_neg (c / s), show nu + k - 1 = (nu - 1) + k by ring, Real.rpow_add hs', Real.rpow_natCast]
    have he := Real.pow_div_factorial_le_exp (x := c / s) (by positivity) k
    have hq : (exp (c / s))⁻¹ ≤ ((c / s) ^ k / k.factorial)⁻¹ := inv_anti₀ (by positivity) he
    calc s ^ (nu - 1) * (exp (-s) * (exp (c / s))⁻¹)
        ≤ s ^ (nu - 1) * (exp (-s) * ((c / s) ^ k / k.factorial)⁻¹) := by gcongr
      _ = k.factorial / c ^ k * (exp (-s) * (s ^ (nu - 1) * s ^ k)) := by
        rw [div_pow]
        field_simp

/-- `∫ s^(-1/2) exp(-s - c/s) ds = √π exp(-2√c)` -/
theorem mix_half {b : ℝ} (hb : 0 < b) : mix (1 / 2) (b ^ 2) = √π * exp (-2 * b) := by
  have hb2 : 0 < b ^ 2 := by positivity
  -- the substitution `s = u²`
  have h1 : mix (1 / 2) (b ^ 2) = 2 * ∫ u in Ioi (0 : ℝ), exp (-u ^ 2 - b ^ 2 / u ^ 2) := by
    have h := integral_comp_rpow_Ioi (fun s : ℝ => s ^ ((1 / 2 : ℝ) - 1) * exp (-s - b ^ 2 / s)) (p := 2) (by norm_num)
    rw [mix, ← h, ← integral_const_mul]
    refine setIntegral_congr_fun measurableSet_Ioi fun u hu => ?_
    have hu' : 0 < u := hu
    simp only [smul_eq_mul]
    rw [← Real.rpow_mul hu'.le, Real.rpow_two, ← mul_assoc, abs_of_pos (by norm_num : (0 : ℝ) < 2), mul_assoc 2,
      ← Real.rpow_add hu']
    norm_num
  have h2 : mix (-(1 / 2)) (b ^ 2) = 2 * ∫ u in Ioi (0 : ℝ), 1 / u ^ 2 * exp (-u ^ 2 - b ^ 2 / u ^ 2) := by
    have h := integral_comp_rpow_Ioi (fun s : ℝ => s ^ (-(1 / 2 : ℝ) - 1) * exp (-s - b ^ 2 / s)) (p := 2) (by norm_num)
    rw [mix, ← h, ← integral_const_mul]
    refine setIntegral_congr_fun measurableSet_Ioi fun u hu => ?_
    have hu' : 0 < u := hu
    simp only [smul_eq_mul]
    rw [← Real.rpow_mul hu'.le, Real.rpow_two, ← mul_assoc, abs_of_pos (by norm_num : (0 : ℝ) < 2), mul_assoc 2,
      ← Real.rpow_add hu', show (2 : ℝ) - 1 + 2 * (-(1 / 2) - 1) = -2 by norm_num, Real.rpow_neg hu'.le, Real.rpow_two]
    ring
  have h3 := mix_neg hb2 (1 / 2)
  have hbr : (b ^ 2) ^ (-(1 / 2) : ℝ) = 1 / b := by
    rw [Real.rpow_neg (by positivity), ← Real.sqrt_eq_rpow, Real.sqrt_sq hb.le, one_div]
  rw [hbr] at h3
  have hI1 : IntegrableOn (fun u : ℝ => exp (-u ^ 2 - b ^ 2 / u ^ 2)) (Ioi 0) := by
    have h := (integrableOn_Ioi_comp_rpow_iff (fun s : ℝ => s ^ ((1 / 2 : ℝ) - 1) * exp (-s - b ^ 2 / s))
      (p := 2) (by norm_num)).2 (integrable_rpow_exp hb2)
    refine IntegrableOn.congr_fun (f := fun u : ℝ => 1 / 2 * _) (h.const_mul (1 / 2)) (fun u hu => ?_) measurableSet_Ioi
    have hu' : 0 < u := hu
    simp only [smul_eq_mul]
    rw [← Real.rpow_mul hu'.le, Real.rpow_two, ← mul_assoc (|(2 : ℝ)| * _), abs_of_pos (by norm_num : (0 : ℝ) < 2),
      mul_assoc 2, ← Real.rpow_add hu']
    norm_num
    ring
  have hI2 : IntegrableOn (fun u : ℝ => 1 / u ^ 2 * exp (-u ^ 2 - b ^ 2 / u ^ 2)) (Ioi 0) := by
    have h := (integrableOn_Ioi_comp_rpow_iff (fun s : ℝ => s ^ (-(1 / 2 : ℝ) - 1) * exp (-s - b ^ 2 / s))
      (p := 2) (by norm_num)).2 (integrable_rpow_exp hb2)
    refine IntegrableOn.congr_fun (f := fun u : ℝ => 1 / 2 * _) (h.const_mul (1 / 2)) (fun u hu => ?_) measurableSet_Ioi
    have hu' : 0 < u := hu
    simp only [smul_eq_mul]
    rw [← Real.rpow_mul hu'.le, Real.rpow_two, ← mul_assoc (|(2 : ℝ)| * _), abs_of_pos (by norm_num : (0 : ℝ) < 2),
      mul_assoc 2, ← Real.rpow_add hu', show (2 : ℝ) - 1 + 2 * (-(1 / 2) - 1) = -2 by norm_num, Real.rpow_neg hu'.le,
      Real.rpow_two]
    ring
  have hg := glasser hb
  have hcongr : ∫ u in Ioi (0 : ℝ), (1 + b / u ^ 2) * exp (-(u - b / u) ^ 2) =
      ∫ u in Ioi (0 : ℝ), (exp (2 * b) * exp (-u ^ 2 - b ^ 2 / u ^ 2) +
        exp (2 * b) * b * (1 / u ^ 2 * exp (-u ^ 2 - b ^ 2 / u ^ 2))) := by
    refine setIntegral_congr_fun measurableSet_Ioi fun u hu => ?_
    have hu' : 0 < u := hu
    have : -(u - b / u) ^ 2 = 2 * b + (-u ^ 2 - b ^ 2 / u ^ 2) := by field_simp; ring
    rw [this, Real.exp_add]
    field_simp
  rw [hcongr, integral_add (hI1.const_mul _) (hI2.const_mul _), integral_const_mul, integral_const_mul] at hg
  have hA : ∫ u in Ioi (0 : ℝ), exp (-u ^ 2 - b ^ 2 / u ^ 2) = mix (1 / 2) (b ^ 2) / 2 := by rw [h1]; ring
  have hB : ∫ u in Ioi (0 : ℝ), 1 / u ^ 2 * exp (-u ^ 2 - b ^ 2 / u ^ 2) = 1 / b * mix (1 / 2) (b ^ 2) / 2 := by
    rw [← h3, h2]; ring
  rw [hA, hB] at hg
  rw [← hg]
  have : exp (2 * b) * exp (-2 * b) = 1 := by rw [← Real.exp_add]; simp
  have hbb : b * (1 / b) = 1 := mul_one_div_cancel hb.ne'
  linear_combination (-mix (1 / 2) (b ^ 2)) * this -
    exp (2 * b) * mix (1 / 2) (b ^ 2) / 2 * exp (-2 * b) * hbb

/-- Integration by parts. -/
theorem mix_succ {nu c : ℝ} (hnu : 0 < nu) (hc : 0 < c) : mix (nu + 1) c = nu * mix nu c + c * mix (nu - 1) c := by
  have hd : ∀ s ∈ Ioi (0 : ℝ), HasDerivAt (fun s : ℝ => s ^ nu * exp (-s - c / s))
      (nu * (s ^ (nu - 1) * exp (-s - c / s)) + c * (s ^ (nu - 1 - 1) * exp (-s - c / s)) -
        s ^ (nu + 1 - 1) * exp (-s - c / s)) s := by
    intro s hs
    have hs' : 0 < s := hs
    have h1 := Real.hasDerivAt_rpow_const (x := s) (p := nu) (Or.inl hs'.ne')
    have h2 : HasDerivAt (fun s : ℝ => exp (-s - c / s)) (exp (-s - c / s) * (-1 - (0 * s - c * 1) / s ^ 2)) s :=
      ((hasDerivAt_id s).neg.sub ((hasDerivAt_const s c).div (hasDerivAt_id s) hs'.ne')).exp
    refine (h1.mul h2).congr_deriv ?_
    generalize exp (-s - c / s) = E
    have e : s ^ nu = s ^ (nu - 1 - 1) * s ^ 2 := by
      rw [← Real.rpow_two, ← Real.rpow_add hs']; congr 1; ring
    rw [show nu + 1 - 1 = nu by ring, e]
    field_simp
    ring
  have hint := (((integrable_rpow_exp (nu := nu) hc).const_mul nu).add
    ((integrable_rpow_exp (nu := nu - 1) hc).const_mul c)).sub (integrable_rpow_exp (nu := nu + 1) hc)
  have hbound : ∀ s : ℝ, 0 ≤ s → s ^ nu * exp (-s - c / s) ≤ s ^ nu * exp (-1 * s) := by
    intro s hs
    have : 0 ≤ c / s := by positivity
    gcongr
    linarith
  have hcont : ContinuousWithinAt (fun s : ℝ => s ^ nu * exp (-s - c / s)) (Ici 0) 0 := by
    have h0 : (0 : ℝ) ^ nu * exp (-0 - c / 0) = 0 := by rw [Real.zero_rpow hnu.ne', zero_mul]
    unfold ContinuousWithinAt
    simp only [h0]
    refine squeeze_zero' (g := fun s => s ^ nu * exp (-1 * s)) ?_ ?_ ?_
    · exact eventually_nhdsWithin_of_forall fun s hs => by
        have : (0 : ℝ) ≤ s := hs
        positivity
    · exact eventually_nhdsWithin_of_forall fun s hs => hbound s hs
    · have : ContinuousAt (fun s : ℝ => s ^ nu * exp (-1 * s)) 0 :=
        (Real.continuousAt_rpow_const 0 nu (Or.inr hnu.le)).mul (by fun_prop)
      have h := this.tendsto
      simp only [Real.zero_rpow hnu.ne', zero_mul] at h
      exact h.mono_left nhdsWithin_le_nhds
  have htend : Filter.Tendsto (fun s : ℝ => s ^ nu * exp (-s - c / s)) Filter.atTop (nhds 0) := by
    refine squeeze_zero' (g := fun s => s ^ nu * exp (-1 * s)) ?_ ?_ ?_
    · exact (Filter.eventually_ge_atTop 0).mono fun s hs => by positivity
    · exact (Filter.eventually_ge_atTop 0).mono fun s hs => hbound s hs
    · exact tendsto_rpow_mul_exp_neg_mul_atTop_nhds_zero nu 1 one_pos
  have h := integral_Ioi_of_hasDerivAt_of_tendsto hcont hd hint htend
  have hadd : Integrable (fun s : ℝ => nu * (s ^ (nu - 1) * exp (-s - c / s)) +
      c * (s ^ (nu - 1 - 1) * exp (-s - c / s))) (volume.restrict (Ioi 0)) :=
    ((integrable_rpow_exp (nu := nu) hc).const_mul nu).add ((integrable_rpow_exp (nu := nu - 1) hc).const_mul c)
  rw [integral_sub hadd (integrable_rpow_exp (nu := nu + 1) hc), integral_add ((integrable_rpow_exp (nu := nu) hc).const_mul nu)
    ((integrable_rpow_exp (nu := nu - 1) hc).const_mul c), integral_const_mul, integral_const_mul,
    Real.zero_rpow hnu.ne', zero_mul, sub_zero] at h
  simp only [mix]
  linarith

/-- The closed forms the code uses for `ν = 1/2`, `3/2` and `5/2` are the documented Matern correlation. -/
theorem matern_half {r : ℝ} (hr : 0 < r) : matern (1 / 2) r = exp (-r) := by
  rw [matern_eq_mix (by norm_num) hr, show 1 / 2 * r ^ 2 / 2 = (r / 2) ^ 2 by ring, mix_half (by positivity),
    Real.Gamma_one_half_eq, show -2 * (r / 2) = -r by ring]
  have : √π ≠ 0 := (Real.sqrt_pos.2 Real.pi_pos).ne'
  field_simp

theorem mix_neg_half {b : ℝ} (hb : 0 < b) : mix (-(1 / 2)) (b ^ 2) = 1 / b * (√π * exp (-2 * b)) := by
  rw [mix_neg (by positivity), mix_half hb, Real.rpow_neg (by positivity), ← Real.sqrt_eq_rpow, Real.sqrt_sq hb.le,
    one_div]

theorem mix_three_half {b : ℝ} (hb : 0 < b) : mix (3 / 2) (b ^ 2) = (1 / 2 + b) * (√π * exp (-2 * b)) := by
  have h := mix_succ (nu := 1 / 2) (c := b ^ 2) (by norm_num) (by positivity)
  rw [show (1 / 2 : ℝ) + 1 = 3 / 2 by norm_num, show (1 / 2 : ℝ) - 1 = -(1 / 2) by norm_num, mix_half hb,
    mix_neg_half hb] at h
  rw [h]
  field_simp

theorem mix_five_half {b : ℝ} (hb : 0 < b) :
    mix (5 / 2) (b ^ 2) = (3 / 4 + 3 / 2 * b + b ^ 2) * (√π * exp (-2 * b)) := by
  have h := mix_succ (nu := 3 / 2) (c := b ^ 2) (by norm_num) (by positivity)
  rw [show (3 / 2 : ℝ) + 1 = 5 / 2 by norm_num, show (3 / 2 : ℝ) - 1 = 1 / 2 by norm_num, mix_half hb,
    mix_three_half hb] at h
  rw [h]
  ring

theorem matern_three_half {r : ℝ} (hr : 0 < r) : matern (3 / 2) r = (1 + √3 * r) * exp (-√3 * r) := by
  have h3 : √3 ^ 2 = 3 := Real.sq_sqrt (by norm_num)
  rw [matern_eq_mix (by norm_num) hr, show (3 / 2 : ℝ) * r ^ 2 / 2 = (√3 * r / 2) ^ 2 by rw [div_pow, mul_pow, h3]; ring,
    mix_three_half (by positivity), show (3 / 2 : ℝ) = 1 / 2 + 1 by norm_num, Real.Gamma_add_one (by norm_num),
    Real.Gamma_one_half_eq, show -2 * (√3 * r / 2) = -√3 * r by ring]
  have : √π ≠ 0 := (Real.sqrt_pos.2 Real.pi_pos).ne'
  field_simp

theorem matern_five_half {r : ℝ} (hr : 0 < r) :
    matern (5 / 2) r = (1 + √5 * r + 5 / 3 * r ^ 2) * exp (-√5 * r) := by
  have h5 : √5 ^ 2 = 5 := Real.sq_sqrt (by norm_num)
  rw [matern_eq_mix (by norm_num) hr, show (5 / 2 : ℝ) * r ^ 2 / 2 = (√5 * r / 2) ^ 2 by rw [div_pow, mul_pow, h5]; ring,
    mix_five_half (by positivity), show (5 / 2 : ℝ) = 1 / 2 + 1 + 1 by norm_num, Real.Gamma_add_one (by norm_num),
    Real.Gamma_add_one (by norm_num), Real.Gamma_one_half_eq, show -2 * (√5 * r / 2) = -√5 * r by ring, div_pow,
    mul_pow, h5]
  have : √π ≠ 0 := (Real.sqrt_pos.2 Real.pi_pos).ne'
  field_simp
  ring

end Imate.Bessel
