import Verif.Model.CrfScale
import Verif.Spec.CrfScale
import Verif.Lemmas.InterpolatorFit
import Mathlib.Analysis.Calculus.Deriv.Polynomial

/-!
# C89: the automatic scale of the rational Chebyshev interpolation
-/

namespace Imate.Props.CrfScale
open Imate.Interp Polynomial

/-- `d1T` is the derivative of the Chebyshev polynomial. -/
theorem first_derivative (n : ℕ) (hn : 1 ≤ n) (x : ℝ) : HasDerivAt (chebyt n) (d1T n x) x := by
  have h := (Polynomial.Chebyshev.T ℝ (n : ℤ)).hasDerivAt x
  rw [Polynomial.Chebyshev.T_derivative_eq_U] at h
  have h2 : ((n : ℤ) - 1) = ((n - 1 : ℕ) : ℤ) := by omega
  unfold d1T chebyu
  rw [h2] at h
  have h4 : chebyt n = fun x => (Polynomial.Chebyshev.T ℝ (n : ℤ)).eval x := rfl
  rw [h4]
  exact h.congr_deriv (by simp)

theorem second_eval (n : ℕ) (hn : 1 ≤ n) (x : ℝ) :
    (derivative (derivative (Polynomial.Chebyshev.T ℝ (n : ℤ)))).eval x = d2T n x := by
  have key : ∀ y : ℝ, y = 1 → (derivative (derivative (Polynomial.Chebyshev.T ℝ (n : ℤ)))).eval y =
      ((n : ℝ) ^ 4 - (n : ℝ) ^ 2) / 3 := by
    rintro _ rfl
    have h := Polynomial.Chebyshev.iterate_derivative_T_eval_one_eq_div (𝔽 := ℝ) (n : ℤ) 2
    simp [Finset.prod_range_succ] at h
    rw [h]
    norm_num
    ring
  unfold d2T
  split_ifs with h1 h2
  · exact key x h1
  · have hc : (Polynomial.Chebyshev.T ℝ (n : ℤ)).comp (-X) = C ((-1) ^ n) * Polynomial.Chebyshev.T ℝ (n : ℤ) := by
      refine Polynomial.funext fun y => ?_
      rw [eval_comp, eval_neg, eval_X, Polynomial.Chebyshev.T_eval_neg, eval_mul, eval_C]
      congr 1
      simp [Int.negOnePow_def]
    have hd := congrArg (fun q => (derivative (derivative q)).eval 1) hc
    simp only [derivative_comp, derivative_mul, derivative_C, zero_mul, zero_add, derivative_neg, derivative_X,
      eval_mul, eval_neg, eval_one, eval_comp, eval_X, eval_C, add_zero,
      neg_mul, one_mul, neg_neg, mul_neg, mul_one] at hd
    rw [h2, hd, key 1 rfl]
    ring
  · have h := congrArg (eval x) (Polynomial.Chebyshev.one_sub_X_sq_mul_derivative_derivative_T_eq_poly_in_T (R := ℝ) (n : ℤ))
    have h3 : ((n : ℤ) - 1) = ((n - 1 : ℕ) : ℤ) := by omega
    rw [Polynomial.Chebyshev.T_derivative_eq_U, h3] at h
    simp at h
    have hne : x ^ 2 - 1 ≠ 0 := by
      intro h0
      have : (x - 1) * (x + 1) = 0 := by linarith
      rcases mul_eq_zero.1 this with h4 | h4
      · exact h1 (by linarith)
      · exact h2 (by linarith)
    rw [eq_div_iff hne]
    unfold chebyt chebyu
    linarith

/-- `d2T` is the second derivative of the Chebyshev polynomial, also at the ends of the interval. -/
theorem second_derivative (n : ℕ) (hn : 1 ≤ n) (x : ℝ) : HasDerivAt (d1T n) (d2T n x) x := by
  have h : d1T n = fun x => (derivative (Polynomial.Chebyshev.T ℝ (n : ℤ))).eval x := by
    funext y
    exact (first_derivative n hn y).unique ((Polynomial.Chebyshev.T ℝ (n : ℤ)).hasDerivAt y)
  rw [h, ← second_eval n hn]
  exact (derivative (Polynomial.Chebyshev.T ℝ (n : ℤ))).hasDerivAt x

example : d2T 3 (-1) = -24 := by norm_num [d2T]

/-- The polynomial with the coefficients `w`. -/
noncomputable def poly {k : ℕ} (w : Fin k → ℝ) : ℝ[X] :=
  ∑ j : Fin k, C (w j * 0.5) * (1 - Polynomial.Chebyshev.T ℝ ((j : ℕ) + 1 : ℤ))

theorem poly_eval {k : ℕ} (w : Fin k → ℝ) (x : ℝ) : (poly w).eval x = ∑ j : Fin k, w j * crfFun j x := by
  unfold poly crfFun chebyt
  rw [eval_finsetSum]
  refine Finset.sum_congr rfl fun j _ => ?_
  simp
  ring

theorem poly_deriv {k : ℕ} (w : Fin k → ℝ) (x : ℝ) :
    deriv (fun y => (poly w).eval y) x = -∑ j : Fin k, 0.5 * w j * d1T (j + 1) x := by
  have h1 : (fun y => (poly w).eval y) = fun y => ∑ j : Fin k, w j * crfFun j y := funext (poly_eval w)
  rw [h1]
  have h : HasDerivAt (fun y => ∑ j : Fin k, w j * crfFun j y) (∑ j : Fin k, w j * (0.5 * -d1T (j + 1) x)) x := by
    refine HasDerivAt.fun_sum fun j _ => ?_
    refine HasDerivAt.const_mul _ (HasDerivAt.const_mul _ ?_)
    simpa using (first_derivative (j + 1) (by omega) x).const_sub 1
  rw [h.deriv, ← Finset.sum_neg_distrib]
  refine Finset.sum_congr rfl fun j _ => by ring

theorem poly_deriv2 {k : ℕ} (w : Fin k → ℝ) (x : ℝ) :
    deriv (deriv fun y => (poly w).eval y) x = -∑ j : Fin k, 0.5 * w j * d2T (j + 1) x := by
  have h1 : (deriv fun y => (poly w).eval y) = fun y => -∑ j : Fin k, 0.5 * w j * d1T (j + 1) y :=
    funext (poly_deriv w)
  rw [h1]
  refine HasDerivAt.deriv (HasDerivAt.neg ?_)
  refine HasDerivAt.fun_sum fun j _ => ?_
  exact (second_derivative (j + 1) (by omega) x).const_mul _

/-- The integrand is the square of the curvature of the interpolating polynomial times the element of length. -/
theorem integrand_right {k : ℕ} (w : Fin k → ℝ) (x : ℝ) :
    arcCurvatureSquared w x = curvature (fun y => (poly w).eval y) x ^ 2 *
      Real.sqrt (1 + deriv (fun y => (poly w).eval y) x ^ 2) := by
  unfold arcCurvatureSquared curvature
  rw [poly_deriv2, poly_deriv, neg_sq, div_pow, sq_abs, neg_sq]
  set s := 1 + (∑ j : Fin k, 0.5 * w j * d1T (j + 1) x) ^ 2 with hs
  have hpos : 0 < s := by positivity
  rw [← Real.rpow_natCast (s ^ (3 / 2 : ℝ)) 2, ← Real.rpow_mul hpos.le, Real.sqrt_eq_rpow, div_mul_eq_mul_div,
    div_eq_div_iff (by positivity) (by positivity), mul_assoc, ← Real.rpow_add hpos]
  norm_num

theorem integral_right {k : ℕ} (w : Fin k → ℝ) :
    ∫ x in (-1)..1, arcCurvatureSquared w x = bending fun y => (poly w).eval y := by
  unfold bending
  exact intervalIntegral.integral_congr fun x _ => integrand_right w x

/-- Positive and distinct interpolation points, and a positive value at zero. -/
structure Data (b : Base) : Prop where
  pos : ∀ x ∈ b.nodes, 0 < x.1
  nodup : (b.nodes.map Prod.fst).Nodup
  tau0 : 0 < b.tau0

theorem solvable {b : Base} (hb : Data b) {ft : ℤ} (hft : ft = 1 ∨ ft = 2) {s : ℝ} (hs : 0 < s) :
    ¬ crfNonFinite ft s b ∧
      ∃ w, solve (crfMatrix (crfPoints ft s b)) (fun i => ((crfPoints ft s b).get i).2) = .ok w := by
  have hs' : 0 < |s| := abs_pos.2 hs.ne'
  refine ⟨?_, solve_some (crfMatrix_det ?_ ?_) _⟩
  · rintro (h | ⟨x, hx, h | h⟩)
    · exact hs.ne' h
    · have := div_pos (hb.pos x hx) hs'
      linarith
    · have := hb.pos x hx
      have := hb.tau0
      split_ifs at h <;> linarith
  · have hnd' : ((b.nodes.map Prod.fst).map fun t => mobius (t / |s|)).Nodup := by
      refine List.Nodup.map_on (fun x hx y hy hxy => ?_) hb.nodup
      obtain ⟨x', hx', rfl⟩ := List.mem_map.1 hx
      obtain ⟨y', hy', rfl⟩ := List.mem_map.1 hy
      rcases lt_trichotomy x'.1 y'.1 with h | h | h
      · exact absurd hxy
          (mobius_lt (div_nonneg (hb.pos x' hx').le hs'.le) ((div_lt_div_iff_of_pos_right hs').2 h)).ne
      · exact h
      · exact absurd hxy
          (mobius_lt (div_nonneg (hb.pos y' hy').le hs'.le) ((div_lt_div_iff_of_pos_right hs').2 h)).ne'
    have hmap : ∀ g : ℝ × ℝ → ℝ, ((b.nodes.map fun x => (mobius (x.1 / |s|), g x)).map Prod.fst) =
        (b.nodes.map Prod.fst).map fun t => mobius (t / |s|) := by
      intro g
      rw [List.map_map, List.map_map]; rfl
    unfold crfPoints
    rcases hft with rfl | rfl
    · simp only [if_true, List.map_cons, hmap]
      rw [List.nodup_cons]
      refine ⟨?_, hnd'⟩
      intro hm
      obtain ⟨t, ht, h⟩ := List.mem_map.1 hm
      obtain ⟨x', hx', rfl⟩ := List.mem_map.1 ht
      have := mobius_lt le_rfl (div_pos (hb.pos x' hx') hs')
      rw [h, mobius_zero] at this
      exact lt_irrefl _ this
    · simp only [show ¬ ((2 : ℤ) = 1) by decide, if_false, hmap]
      exact hnd'
  · intro x hx
    unfold crfPoints at hx
    have key : ∀ g : ℝ × ℝ → ℝ, x ∈ (b.nodes.map fun x => (mobius (x.1 / |s|), g x)) → x.1 ≠ 1 := by
      intro g hg
      obtain ⟨y, hy, rfl⟩ := List.mem_map.1 hg
      exact (mobius_lt_one (div_nonneg (hb.pos y hy).le hs'.le)).ne
    rcases hft with rfl | rfl
    · simp only [if_true] at hx
      rcases List.mem_cons.1 hx with rfl | hx
      · norm_num
      · exact key _ hx
    · simp only [show ¬ ((2 : ℤ) = 1) by decide, if_false] at hx
      exact key _ hx

theorem mobius_div {s t : ℝ} (hs : 0 < s) : mobius (t / s) = (t - s) / (t + s) := by
  unfold mobius
  rw [div_sub_one hs.ne', div_add_one hs.ne', div_div_div_cancel_right₀ hs.ne']

/-- The curve that is optimized is the one that is used: with the scale `s`, the interpolator evaluates a polynomial at
`(t - s) / (t + s)`, and the objective is the integral of the square of the curvature of its graph. -/
theorem objective_right {b : Base} (hb : Data b) {ft : ℤ} (hft : ft = 1 ∨ ft = 2) (opt : ℝ) {s : ℝ} (hs : 1e-5 ≤ s) :
    ∃ (m : Crf) (P : ℝ[X]), crfInit opt (some s) ft b = .ok m ∧
      (∀ t, 0 ≤ t → m.y t = some (P.eval ((t - s) / (t + s)))) ∧
      curvatureIntegral ft b s = .ok (bending (fun x => P.eval x) : ℝ) := by
  have hs0 : 0 < s := lt_of_lt_of_le (by norm_num) hs
  obtain ⟨hfin, w, hw⟩ := solvable hb hft hs0
  refine ⟨⟨b, ft, s, (crfPoints ft s b).length, some w⟩, poly w, ?_, fun t ht => ?_, ?_⟩
  · unfold crfInit
    rw [if_neg (by tauto)]
    simp only [Option.getD_some]
    rw [if_neg hfin, hw]
    rfl
  · unfold Crf.y
    have h0 : 0 ≤ t / s := div_nonneg ht hs0.le
    rw [if_neg]
    · rw [Option.map_some, poly_eval, ← mobius_div hs0]
    · rintro (h | h)
      · exact hs0.ne' h
      · simp only at h; linarith
  · unfold curvatureIntegral
    rw [if_neg (not_lt.2 hs), hw, ← integral_right]
    rfl

/-- If the minimization ends in a point where the objective is not larger than where it started (at `1.0`), then the scale is
that point, it is at least `1e-5`, and the curvature of the interpolant is not larger than with the scale one. -/
theorem chosen_scale {b : Base} (hb : Data b) {ft : ℤ} (hft : ft = 1 ∨ ft = 2) {opt : ℝ} {v v₁ : WithTop ℝ}
    (hv : curvatureIntegral ft b opt = .ok v) (hv₁ : curvatureIntegral ft b 1 = .ok v₁) (hle : v ≤ v₁) :
    1e-5 ≤ opt ∧ ∃ (m m₁ : Crf) (P P₁ : ℝ[X]),
      crfInit opt none ft b = .ok m ∧ m.scale = opt ∧ (∀ t, 0 ≤ t → m.y t = some (P.eval ((t - opt) / (t + opt)))) ∧
      crfInit opt (some 1) ft b = .ok m₁ ∧ (∀ t, 0 ≤ t → m₁.y t = some (P₁.eval ((t - 1) / (t + 1)))) ∧
      bending (fun x => P.eval x) ≤ bending fun x => P₁.eval x := by
  obtain ⟨m₁, P₁, hm₁, hy₁, hc₁⟩ := objective_right hb hft opt (s := 1) (by norm_num)
  rw [hc₁] at hv₁
  injection hv₁ with hv₁
  have hopt : 1e-5 ≤ opt := by
    by_contra h
    unfold curvatureIntegral at hv
    rw [if_pos (not_le.1 h)] at hv
    injection hv with hv
    rw [← hv, ← hv₁] at hle
    exact absurd hle (by simp)
  obtain ⟨m, P, hm, hy, hc⟩ := objective_right hb hft opt hopt
  rw [hc] at hv
  injection hv with hv
  have habs : |opt| = opt := abs_of_nonneg (le_trans (by norm_num) hopt)
  have hm' : crfInit opt none ft b = .ok m := by
    rw [← hm]
    unfold crfInit
    rw [Option.getD_none, Option.getD_some, habs]
  refine ⟨hopt, m, m₁, P, P₁, hm', ?_, hy, hm₁, hy₁, ?_⟩
  · unfold crfInit at hm
    simp only [Option.getD_some] at hm
    split_ifs at hm with h1 h2
    · injection hm with hm
      rw [← hm]
    · cases hw : solve (crfMatrix (crfPoints ft opt b)) (fun i => ((crfPoints ft opt b).get i).2) with
      | error e => rw [hw] at hm; cases hm
      | ok w =>
        rw [hw] at hm
        injection hm with hm
        rw [← hm]
  · rw [← hv, ← hv₁] at hle
    exact_mod_cast hle

/-- Two points. -/
def sample : Base := ⟨1, 1, [(1, 2), (3, 4)]⟩

theorem sample_data : Data sample := ⟨by simp [sample], by simp [sample], by norm_num [sample]⟩

example : ∃ v v₁, curvatureIntegral 1 sample 1 = .ok v ∧ curvatureIntegral 1 sample 1 = .ok v₁ ∧ v ≤ v₁ := by
  obtain ⟨_, P, _, _, h⟩ := objective_right sample_data (.inl rfl) 1 (s := 1) (by norm_num)
  exact ⟨_, _, h, h, le_refl _⟩

/-- The same data in other units of `t`. -/
noncomputable def rescale (c : ℝ) (b : Base) : Base :=
  ⟨c * b.tau0, b.normB, b.nodes.map fun x => (c * x.1, c * x.2)⟩

theorem rescale_points {c s : ℝ} (hc : 0 < c) (ft : ℤ) (b : Base) :
    crfPoints ft (c * s) (rescale c b) = crfPoints ft s b := by
  unfold crfPoints rescale
  simp only [List.map_map]
  have : ∀ x : ℝ × ℝ, ((fun x : ℝ × ℝ => (mobius (x.1 / |c * s|), if ft = 1 then ratio1 (c * b.tau0) x else
      ratio2 (c * b.tau0) x)) ∘ fun x : ℝ × ℝ => (c * x.1, c * x.2)) x =
      (mobius (x.1 / |s|), if ft = 1 then ratio1 b.tau0 x else ratio2 b.tau0 x) := by
    intro x
    simp only [Function.comp_apply, ratio1, ratio2, abs_mul, abs_of_pos hc, ← mul_add, ← mul_sub]
    rw [mul_div_mul_left _ _ hc.ne', mul_div_mul_left _ _ hc.ne', mul_div_mul_left _ _ hc.ne']
  rw [List.map_congr_left fun x _ => this x]

/-- In other units of `t` the objective is the same function of the scale in these units, … -/
theorem objective_units {c s : ℝ} (hc : 0 < c) (ft : ℤ) (b : Base) (hs : 1e-5 ≤ s) (hcs : 1e-5 ≤ c * s) :
    curvatureIntegral ft (rescale c b) (c * s) = curvatureIntegral ft b s := by
  unfold curvatureIntegral
  rw [if_neg (not_lt.2 hs), if_neg (not_lt.2 hcs), rescale_points hc]

example : curvatureIntegral 1 (rescale 2 sample) (2 * 1) = curvatureIntegral 1 sample 1 :=
  objective_units (by norm_num) 1 sample (by norm_num) (by norm_num)

/-- … as long as both are not below the fixed bound: in units in which a scale `s` is below `1e-5`, it is excluded, whatever
the curvature. -/
theorem small_scale_excluded {c s : ℝ} (hs : 0 < s) (hc : c < 1e-5 / s) (ft : ℤ) (b : Base) :
    curvatureIntegral ft (rescale c b) (c * s) = .ok ⊤ := by
  unfold curvatureIntegral
  rw [if_pos ((lt_div_iff₀ hs).1 hc)]

/-- For positive data there are units of `t` in which the scale that was best in the old units cannot be chosen. -/
theorem optimum_lost_in_other_units {b : Base} (hb : Data b) {ft : ℤ} (hft : ft = 1 ∨ ft = 2) {s : ℝ} (hs : 1e-5 ≤ s) :
    ∃ c : ℝ, 0 < c ∧ Data (rescale c b) ∧ (∃ v : ℝ, curvatureIntegral ft b s = .ok v) ∧
      curvatureIntegral ft (rescale c b) (c * s) = .ok ⊤ := by
  have hs0 : 0 < s := lt_of_lt_of_le (by norm_num) hs
  have hpos : 0 < 1e-5 / s := by positivity
  obtain ⟨_, P, _, _, h⟩ := objective_right hb hft 1 hs
  refine ⟨1e-5 / s / 2, by positivity, ⟨?_, ?_, ?_⟩, ⟨_, h⟩, small_scale_excluded hs0 (half_lt_self hpos) ft b⟩
  · intro x hx
    obtain ⟨y, hy, rfl⟩ := List.mem_map.1 hx
    have := hb.pos y hy
    positivity
  · unfold rescale
    simp only [List.map_map]
    have : ((Prod.fst : ℝ × ℝ → ℝ) ∘ fun x : ℝ × ℝ => (1e-5 / s / 2 * x.1, 1e-5 / s / 2 * x.2)) =
        (fun t => 1e-5 / s / 2 * t) ∘ Prod.fst := rfl
    rw [this, ← List.map_map]
    exact hb.nodup.map (mul_right_injective₀ (by positivity))
  · have := hb.tau0
    unfold rescale
    positivity

end Imate.Props.CrfScale
