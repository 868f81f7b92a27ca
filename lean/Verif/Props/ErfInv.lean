import Verif.Spec.ErfInv
import Verif.Props.Convergence
import Mathlib.Analysis.Calculus.Deriv.MeanValue
import Mathlib.Tactic.Linarith
import Mathlib.Tactic.NormNum

/-! # C54: accuracy of the inverse error function -/

namespace Imate.Props

open Imate.ErfInv Imate.Spec

/-- the slope of `erf` -/
noncomputable def slope (r : ℝ) : ℝ := 2 / Real.sqrt Real.pi * Real.exp (-r * r)

theorem slope_pos (r : ℝ) : 0 < slope r := by
  unfold slope
  have : 0 < Real.sqrt Real.pi := Real.sqrt_pos.2 Real.pi_pos
  positivity

theorem hasDerivAt_erf (r : ℝ) : HasDerivAt erf (slope r) r := by
  unfold slope
  have hc : Continuous (fun t : ℝ => Real.exp (-t * t)) := by fun_prop
  exact (intervalIntegral.integral_hasDerivAt_right (hc.intervalIntegrable _ _)
    (hc.stronglyMeasurableAtFilter _ _) hc.continuousAt).const_mul _

theorem erf_zero : erf 0 = 0 := by simp [erf]

theorem slope_le {r t : ℝ} (hr : 0 ≤ r) (h : r ≤ t) : slope t ≤ slope r := by
  unfold slope
  have : 0 < Real.sqrt Real.pi := Real.sqrt_pos.2 Real.pi_pos
  have h2 : -t * t ≤ -r * r := by nlinarith
  gcongr

/-- A function whose derivative is nonnegative on an interval. -/
theorem le_of_hasDerivAt {f g : ℝ → ℝ} {a b : ℝ} (hab : a ≤ b) (hf : ∀ t, HasDerivAt f (g t) t)
    (hg : ∀ t, a ≤ t → t ≤ b → 0 ≤ g t) : f a ≤ f b := by
  have hm : MonotoneOn f (Set.Icc a b) := by
    refine monotoneOn_of_deriv_nonneg (convex_Icc a b) (fun t _ => (hf t).continuousAt.continuousWithinAt)
      (fun t _ => (hf t).differentiableAt.differentiableWithinAt) ?_
    intro t ht
    rw [interior_Icc] at ht
    rw [(hf t).deriv]
    exact hg t ht.1.le ht.2.le
  exact hm ⟨le_refl _, hab⟩ ⟨hab, le_refl _⟩ hab

theorem erf_mono {a b : ℝ} (h : a ≤ b) : erf a ≤ erf b :=
  le_of_hasDerivAt h hasDerivAt_erf (fun t _ _ => (slope_pos t).le)

theorem erf_strictMono : StrictMono erf :=
  strictMono_of_hasDerivAt_pos hasDerivAt_erf slope_pos

/-- the chord is below the tangent at its left end -/
theorem erf_sub_le {r w : ℝ} (hr : 0 ≤ r) (h : r ≤ w) : erf w - erf r ≤ slope r * (w - r) := by
  have := le_of_hasDerivAt (f := fun t => slope r * t - erf t) (g := fun t => slope r * 1 - slope t) h
    (fun t => ((hasDerivAt_id t).const_mul _).sub (hasDerivAt_erf t)) (fun t h1 _ => by
      have := slope_le hr h1
      linarith)
  linarith

theorem slope_ratio_ge (r t : ℝ) : slope r * (1 - (t * t - r * r)) ≤ slope t := by
  unfold slope
  have h := Real.add_one_le_exp (-(t * t - r * r))
  have e : Real.exp (-t * t) = Real.exp (-r * r) * Real.exp (-(t * t - r * r)) := by
    rw [← Real.exp_add]; congr 1; ring
  rw [e, mul_assoc, ]
  have hp : 0 < 2 / Real.sqrt Real.pi := div_pos two_pos (Real.sqrt_pos.2 Real.pi_pos)
  refine mul_le_mul_of_nonneg_left ?_ hp.le
  exact mul_le_mul_of_nonneg_left (by linarith) (Real.exp_pos _).le

/-- and at most by a quadratic term -/
theorem erf_sub_ge {r w : ℝ} (hr : 0 ≤ r) (h : r ≤ w) :
    slope r * ((w - r) - w * (w - r) ^ 2) ≤ erf w - erf r := by
  have hd : ∀ t, HasDerivAt (fun t => erf t - slope r * (t - w * (t - r) ^ 2)) (slope t - slope r * (1 - w * (2 * (t - r)))) t := by
    intro t
    have h1 : HasDerivAt (fun t : ℝ => (t - r) ^ 2) (2 * (t - r)) t := by
      have := ((hasDerivAt_id t).sub_const r).fun_pow 2
      simpa using this
    exact (hasDerivAt_erf t).sub (((hasDerivAt_id t).sub (h1.const_mul w)).const_mul _)
  have := le_of_hasDerivAt h hd (fun t h1 h2 => by
    have h3 := slope_ratio_ge r t
    have h4 : t * t - r * r ≤ w * (2 * (t - r)) := by nlinarith
    have h5 : slope r * (1 - w * (2 * (t - r))) ≤ slope r * (1 - (t * t - r * r)) :=
      mul_le_mul_of_nonneg_left (by linarith) (slope_pos r).le
    linarith)
  have e : slope r * (r - w * (r - r) ^ 2) = slope r * r := by ring
  rw [e] at this
  nlinarith

/-- the chord is above the tangent at its right end -/
theorem erf_sub_ge_right {r w : ℝ} (hw : 0 ≤ w) (h : w ≤ r) : slope r * (r - w) ≤ erf r - erf w := by
  have := le_of_hasDerivAt (f := fun t => erf t - slope r * t) (g := fun t => slope t - slope r * 1) h
    (fun t => (hasDerivAt_erf t).sub ((hasDerivAt_id t).const_mul _)) (fun t h1 h2 => by
      have := slope_le (hw.trans h1) h2
      linarith)
  linarith

theorem exp_le_quadratic {u U : ℝ} (h0 : 0 ≤ u) (h : u ≤ U) : Real.exp u ≤ 1 + u * Real.exp U := by
  have h1 := Real.add_one_le_exp (-u)
  have h2 : Real.exp u * Real.exp (-u) = 1 := by rw [← Real.exp_add]; simp
  have h3 : Real.exp u * (-u + 1) ≤ 1 := by
    exact (mul_le_mul_of_nonneg_left h1 (Real.exp_pos u).le).trans h2.le
  have h4 : u * Real.exp u ≤ u * Real.exp U := mul_le_mul_of_nonneg_left (Real.exp_le_exp.2 h) h0
  nlinarith

theorem erf_sub_le_right {r w : ℝ} (hw : 0 ≤ w) (h : w ≤ r) :
    erf r - erf w ≤ slope r * ((r - w) + r * Real.exp (r * r - w * w) * (r - w) ^ 2) := by
  set B := r * Real.exp (r * r - w * w) with hB
  have hr : 0 ≤ r := hw.trans h
  have hd : ∀ t, HasDerivAt (fun t => slope r * (t - B * (r - t) ^ 2) - erf t)
      (slope r * (1 - B * (-(2 * (r - t)))) - slope t) t := by
    intro t
    have h1 : HasDerivAt (fun t : ℝ => (r - t) ^ 2) (-(2 * (r - t))) t := by
      have := ((hasDerivAt_id t).const_sub r).fun_pow 2
      simpa using this
    exact (((hasDerivAt_id t).sub (h1.const_mul B)).const_mul _).sub (hasDerivAt_erf t)
  have := le_of_hasDerivAt h hd (fun t h1 h2 => by
    have e : slope t = slope r * Real.exp (r * r - t * t) := by
      unfold slope
      rw [mul_assoc, ← Real.exp_add]
      congr 2
      ring
    have ht : 0 ≤ t := hw.trans h1
    have h3 : Real.exp (r * r - t * t) ≤ 1 + (r * r - t * t) * Real.exp (r * r - w * w) :=
      exp_le_quadratic (by nlinarith) (by nlinarith)
    have h4 : (r * r - t * t) * Real.exp (r * r - w * w) ≤ B * (2 * (r - t)) := by
      rw [hB]
      have : r * r - t * t ≤ r * (2 * (r - t)) := by nlinarith
      have := mul_le_mul_of_nonneg_right this (Real.exp_pos (r * r - w * w)).le
      linarith
    rw [e]
    have := mul_le_mul_of_nonneg_left (h3.trans (add_le_add_right h4 1)) (slope_pos r).le
    linarith)
  have e : slope r * (r - B * (r - r) ^ 2) = slope r * r := by ring
  rw [e] at this
  nlinarith

theorem newton_eq (z r : ℝ) : newton realFns z r = r - (erf r - z) / slope r := rfl

/-- C54: a refinement from below, `0 ≤ r ≤ w` with `erf w = z`, moves towards `w`, does not pass it, and squares the
error. -/
theorem newton_from_below {z r w : ℝ} (hr : 0 ≤ r) (h : r ≤ w) (hw : erf w = z) :
    r ≤ newton realFns z r ∧ newton realFns z r ≤ w ∧ w - newton realFns z r ≤ w * (w - r) ^ 2 := by
  have hs := slope_pos r
  rw [newton_eq, ← hw]
  have h1 := erf_sub_le hr h
  have h2 := erf_sub_ge hr h
  have h3 := erf_mono h
  have e : r - (erf r - erf w) / slope r = r + (erf w - erf r) / slope r := by
    rw [← neg_sub (erf w), neg_div]; ring
  rw [e]
  have h4 : (erf w - erf r) / slope r ≤ w - r := by rw [div_le_iff₀ hs]; linarith
  have h5 : (w - r) - w * (w - r) ^ 2 ≤ (erf w - erf r) / slope r := by rw [le_div_iff₀ hs]; linarith
  have h6 : 0 ≤ (erf w - erf r) / slope r := div_nonneg (by linarith) hs.le
  exact ⟨by linarith, by linarith, by linarith⟩

/-- C54: a refinement from above passes the solution, and squares the error. -/
theorem newton_from_above {z r w : ℝ} (hw0 : 0 ≤ w) (h : w ≤ r) (hw : erf w = z) :
    newton realFns z r ≤ w ∧ w - newton realFns z r ≤ r * Real.exp (r * r - w * w) * (r - w) ^ 2 := by
  have hs := slope_pos r
  rw [newton_eq, ← hw]
  have h1 := erf_sub_ge_right hw0 h
  have h2 := erf_sub_le_right hw0 h
  have h4 : r - w ≤ (erf r - erf w) / slope r := by rw [le_div_iff₀ hs]; linarith
  have h5 : (erf r - erf w) / slope r ≤ (r - w) + r * Real.exp (r * r - w * w) * (r - w) ^ 2 := by
    rw [div_le_iff₀ hs]; linarith
  exact ⟨by linarith, by linarith⟩

theorem erfInv_eq {x : ℝ} (h0 : 0 < x) (h1 : x < 1) :
    erfInv realFns x = .fin (newton realFns x (newton realFns x (guess realFns x))) := by
  unfold erfInv
  rw [if_neg (by rintro (h | h) <;> linarith)]
  have : sign x = 1 := by simp [sign, h0, h0.not_gt]
  rw [this]
  simp

/-- C54 (accuracy).  Let `w` be the true value for `0 < x < 1`, `erf w = x`, and `d` a bound of the error of the rational
guess.  Then the result is at most `w` and off by at most `w M²` with `M = (w + d) exp(2wd + d²) d²`, so by `O(d⁴)`. -/
theorem erfInv_accuracy_given_guess {x w d : ℝ} (h0 : 0 < x) (h1 : x < 1) (hw : erf w = x) (hg : 0 ≤ guess realFns x)
    (hd : |guess realFns x - w| ≤ d) (hM : (w + d) * Real.exp (2 * w * d + d ^ 2) * d ^ 2 ≤ w) :
    ∃ r, erfInv realFns x = .fin r ∧ r ≤ w ∧ w - r ≤ w * ((w + d) * Real.exp (2 * w * d + d ^ 2) * d ^ 2) ^ 2 ∧ erf r ≤ x := by
  set r0 := guess realFns x with hr0
  set M := (w + d) * Real.exp (2 * w * d + d ^ 2) * d ^ 2 with hMdef
  have hw0 : 0 < w := by
    rw [← erf_strictMono.lt_iff_lt, erf_zero, hw]; exact h0
  have hd0 : 0 ≤ d := (abs_nonneg _).trans hd
  obtain ⟨hd1, hd2⟩ := abs_le.1 hd
  have hexp1 : 1 ≤ Real.exp (2 * w * d + d ^ 2) := Real.one_le_exp (by positivity)
  -- the first refinement
  have hfirst : newton realFns x r0 ≤ w ∧ w - newton realFns x r0 ≤ M := by
    rcases le_total r0 w with h | h
    · obtain ⟨-, a, b⟩ := newton_from_below hg h hw
      refine ⟨a, b.trans ?_⟩
      have s1 : (w - r0) ^ 2 ≤ d ^ 2 := by
        apply pow_le_pow_left₀ (by linarith) (by linarith)
      calc w * (w - r0) ^ 2 ≤ w * d ^ 2 := mul_le_mul_of_nonneg_left s1 hw0.le
        _ ≤ M := by
          rw [hMdef]
          apply mul_le_mul_of_nonneg_right _ (sq_nonneg d)
          calc w ≤ (w + d) * 1 := by linarith
            _ ≤ _ := mul_le_mul_of_nonneg_left hexp1 (by linarith)
    · obtain ⟨a, b⟩ := newton_from_above hw0.le h hw
      refine ⟨a, b.trans ?_⟩
      have s1 : (r0 - w) ^ 2 ≤ d ^ 2 := pow_le_pow_left₀ (by linarith) hd2 2
      have s2 : r0 * r0 - w * w ≤ 2 * w * d + d ^ 2 := by nlinarith
      have s3 : r0 ≤ w + d := by linarith
      rw [hMdef]
      have := Real.exp_le_exp.2 s2
      gcongr
  have hr1 : 0 ≤ newton realFns x r0 := by linarith [hfirst.2]
  obtain ⟨-, a, b⟩ := newton_from_below hr1 hfirst.1 hw
  refine ⟨_, erfInv_eq h0 h1, a, b.trans ?_, ?_⟩
  · apply mul_le_mul_of_nonneg_left _ hw0.le
    exact pow_le_pow_left₀ (by linarith [hfirst.1]) hfirst.2 2
  · have := erf_mono a
    rwa [hw] at this

/-! Non-vacuity: `x = 1/2`, where the guess is within `1/100`. -/

theorem erf_upper {r : ℝ} (hr : 0 ≤ r) : erf r ≤ 2 / Real.sqrt Real.pi * (r - r ^ 3 / 3 + r ^ 5 / 10) := by
  have hp : 0 < 2 / Real.sqrt Real.pi := div_pos two_pos (Real.sqrt_pos.2 Real.pi_pos)
  have hd : ∀ t : ℝ, HasDerivAt (fun t => 2 / Real.sqrt Real.pi * (t - t ^ 3 / 3 + t ^ 5 / 10) - erf t)
      (2 / Real.sqrt Real.pi * (1 - t ^ 2 + t ^ 4 / 2) - slope t) t := by
    intro t
    have h3 : HasDerivAt (fun t : ℝ => t ^ 3 / 3) (t ^ 2) t := by
      refine ((hasDerivAt_pow 3 t).div_const 3).congr_deriv ?_
      norm_num
    have h5 : HasDerivAt (fun t : ℝ => t ^ 5 / 10) (t ^ 4 / 2) t := by
      refine ((hasDerivAt_pow 5 t).div_const 10).congr_deriv ?_
      norm_num
      ring
    exact ((((hasDerivAt_id t).sub h3).add h5).const_mul _).sub (hasDerivAt_erf t)
  have := le_of_hasDerivAt hr hd (fun t h1 _ => by
    have hle : Real.exp (-t * t) ≤ 1 - t ^ 2 + t ^ 4 / 2 := by
      have hq := Real.quadratic_le_exp_of_nonneg (sq_nonneg t)
      have e : Real.exp (-t * t) * Real.exp (t ^ 2) = 1 := by rw [← Real.exp_add]; simp [sq]
      have hpos := Real.exp_pos (-t * t)
      have hnn : 0 ≤ 1 - t ^ 2 + t ^ 4 / 2 := by nlinarith [sq_nonneg (t ^ 2 - 1)]
      have h4 : 1 ≤ (1 - t ^ 2 + t ^ 4 / 2) * Real.exp (t ^ 2) := by
        refine le_trans ?_ (mul_le_mul_of_nonneg_left hq hnn)
        nlinarith [sq_nonneg (t ^ 4)]
      calc Real.exp (-t * t) = Real.exp (-t * t) * 1 := by ring
        _ ≤ Real.exp (-t * t) * ((1 - t ^ 2 + t ^ 4 / 2) * Real.exp (t ^ 2)) := mul_le_mul_of_nonneg_left h4 hpos.le
        _ = (1 - t ^ 2 + t ^ 4 / 2) * (Real.exp (-t * t) * Real.exp (t ^ 2)) := by ring
        _ = _ := by rw [e, mul_one]
    unfold slope
    have := mul_le_mul_of_nonneg_left hle hp.le
    linarith)
  simp only [erf_zero] at this
  norm_num at this
  linarith

theorem erf_lower {r : ℝ} (hr : 0 ≤ r) : 2 / Real.sqrt Real.pi * (r - r ^ 3 / 3) ≤ erf r := by
  have hp : 0 < 2 / Real.sqrt Real.pi := div_pos two_pos (Real.sqrt_pos.2 Real.pi_pos)
  have hd : ∀ t : ℝ, HasDerivAt (fun t => erf t - 2 / Real.sqrt Real.pi * (t - t ^ 3 / 3))
      (slope t - 2 / Real.sqrt Real.pi * (1 - t ^ 2)) t := by
    intro t
    have h3 : HasDerivAt (fun t : ℝ => t ^ 3 / 3) (t ^ 2) t := by
      refine ((hasDerivAt_pow 3 t).div_const 3).congr_deriv ?_
      norm_num
    exact (hasDerivAt_erf t).sub (((hasDerivAt_id t).sub h3).const_mul _)
  have := le_of_hasDerivAt hr hd (fun t h1 _ => by
    have hle : 1 - t ^ 2 ≤ Real.exp (-t * t) := by
      have := Real.add_one_le_exp (-t * t)
      nlinarith
    unfold slope
    have := mul_le_mul_of_nonneg_left hle hp.le
    linarith)
  simp only [erf_zero] at this
  norm_num at this
  linarith

theorem sqrt_pi_bounds : (443 : ℝ) / 250 < Real.sqrt Real.pi ∧ Real.sqrt Real.pi < 1775 / 1000 := by
  constructor
  · rw [Real.lt_sqrt (by norm_num)]
    have := Real.pi_gt_d2
    norm_num at this ⊢
    linarith
  · rw [Real.sqrt_lt' (by norm_num)]
    have := Real.pi_lt_d2
    norm_num at this ⊢
    linarith

theorem erf_half : ∃ w : ℝ, 467 / 1000 ≤ w ∧ w ≤ 487 / 1000 ∧ erf w = 1 / 2 := by
  obtain ⟨hl, hu⟩ := sqrt_pi_bounds
  have hs : 0 < Real.sqrt Real.pi := Real.sqrt_pos.2 Real.pi_pos
  have h1 : erf (467 / 1000) ≤ 1 / 2 := by
    refine (erf_upper (by norm_num)).trans ?_
    rw [div_mul_eq_mul_div, div_le_iff₀ hs]
    norm_num
    linarith
  have h2 : 1 / 2 ≤ erf (487 / 1000) := by
    refine le_trans ?_ (erf_lower (by norm_num))
    rw [div_mul_eq_mul_div, le_div_iff₀ hs]
    norm_num
    linarith
  have hc : ContinuousOn erf (Set.Icc (467 / 1000) (487 / 1000)) :=
    fun t _ => (hasDerivAt_erf t).continuousAt.continuousWithinAt
  obtain ⟨w, hw, e⟩ := intermediate_value_Icc (by norm_num) hc ⟨h1, h2⟩
  exact ⟨w, hw.1, hw.2, e⟩

theorem guess_half : |guess realFns (1 / 2) - 477 / 1000| ≤ 1 / 500 := by
  unfold guess
  norm_num [abs_le]

example : ∃ w r, erf w = 1 / 2 ∧ erfInv realFns (1 / 2) = .fin r ∧ r ≤ w ∧ w - r ≤ 1 / 10 ^ 6 := by
  obtain ⟨w, h1, h2, e⟩ := erf_half
  obtain ⟨g1, g2⟩ := abs_le.1 guess_half
  have hexp : Real.exp (2 * w * (12 / 1000) + (12 / 1000) ^ 2) ≤ 2 := by
    have h : 2 * w * (12 / 1000) + (12 / 1000) ^ 2 ≤ 1 / 2 := by linarith
    have h3 := Real.exp_le_exp.2 h
    have h4 := exp_le_quadratic (u := 1 / 2) (U := 1 / 2) (by norm_num) le_rfl
    linarith
  have hexp0 := Real.exp_pos (2 * w * (12 / 1000) + (12 / 1000) ^ 2)
  have hM0 : 0 ≤ (w + 12 / 1000) * Real.exp (2 * w * (12 / 1000) + (12 / 1000) ^ 2) * (12 / 1000) ^ 2 := by
    have : 0 ≤ w := by linarith
    positivity
  have hM : (w + 12 / 1000) * Real.exp (2 * w * (12 / 1000) + (12 / 1000) ^ 2) * (12 / 1000) ^ 2 ≤ 1 / 5000 := by
    have : (w + 12 / 1000) * Real.exp (2 * w * (12 / 1000) + (12 / 1000) ^ 2) ≤ (1 / 2) * 2 :=
      mul_le_mul (by linarith) hexp hexp0.le (by norm_num)
    linarith
  obtain ⟨r, h3, h4, h5, -⟩ := erfInv_accuracy_given_guess (x := 1 / 2) (w := w) (d := 12 / 1000) (by norm_num) (by norm_num) e
    (by linarith) (by rw [abs_le]; constructor <;> linarith) (by linarith)
  refine ⟨w, r, e, h3, h4, h5.trans ?_⟩
  have h6 := pow_le_pow_left₀ hM0 hM 2
  have h7 := mul_le_mul (show w ≤ 1 by linarith) h6 (sq_nonneg _) zero_le_one
  refine h7.trans (by norm_num)

end Imate.Props
