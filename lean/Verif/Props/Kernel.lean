import Verif.Model.Correlation
import Verif.Lemmas.Bessel

/-!
# C51: the kernels are correlation functions

`kv` is SciPy's modified Bessel function of the second kind, by its integral (`Spec.besselK`).
-/

namespace Imate.Props

open Imate.Sample Imate.Bessel Imate.Spec Real

/-- A correlation function: 1 at the distance zero, in (0, 1], not increasing. -/
def IsCorrelation (f : ℝ → ℝ) : Prop :=
  f 0 = 1 ∧ (∀ x, 0 ≤ x → 0 < f x ∧ f x ≤ 1) ∧ ∀ x y, 0 ≤ x → x ≤ y → f y ≤ f x

/-- What `kv` computes. -/
def IsBesselK (kv : ℝ → ℝ → ℝ) : Prop := ∀ nu x, 0 < nu → 0 < x → kv nu x = besselK nu x

theorem isCorrelation_gauss : IsCorrelation fun x => exp (-(1 / 2) * x ^ 2) := by
  refine ⟨by simp, fun x _ => ⟨exp_pos _, exp_le_one_iff.2 (by nlinarith [sq_nonneg x])⟩, fun x y hx hxy => ?_⟩
  have : x ^ 2 ≤ y ^ 2 := by gcongr
  exact exp_le_exp.2 (by linarith)

theorem isCorrelation_mix {nu : ℝ} (hnu : 0 < nu) : IsCorrelation fun x => mix nu (nu * x ^ 2 / 2) / Gamma nu := by
  have hG := Gamma_pos_of_pos hnu
  have anti : ∀ x y, 0 ≤ x → x ≤ y → mix nu (nu * y ^ 2 / 2) / Gamma nu ≤ mix nu (nu * x ^ 2 / 2) / Gamma nu := by
    intro x y hx hxy
    have : x ^ 2 ≤ y ^ 2 := by gcongr
    have := mix_antitone hnu (c := nu * x ^ 2 / 2) (c' := nu * y ^ 2 / 2) (by positivity) (by gcongr)
    gcongr
  have h0 : mix nu (nu * 0 ^ 2 / 2) / Gamma nu = 1 := by
    rw [show nu * 0 ^ 2 / 2 = 0 by ring, mix_zero nu hnu, div_self hG.ne']
  refine ⟨h0, fun x hx => ⟨div_pos (mix_pos hnu (by positivity)) hG, ?_⟩, anti⟩
  have := anti 0 x le_rfl hx
  rwa [h0] at this

/-- The Matern kernel of every smoothness below 100 is the documented function, through all branches (the closed
forms for 1/2, 3/2 and 5/2 and the general formula), and 1 at the distance zero. -/
theorem matern_kernel_documented {kv : ℝ → ℝ → ℝ} (hkv : IsBesselK kv) {nu x : ℝ} (hnu : 0 < nu) (h100 : nu < 100)
    (hx : 0 ≤ x) : maternKernel kv (some x) (.fin nu) = some (if x = 0 then 1 else matern nu x) := by
  rcases hx.eq_or_lt with rfl | hx
  · simp [maternKernel]
  · have hx0 := hx.ne'
    simp only [maternKernel, hx0, if_false, h100, if_true, not_le.2 hnu]
    split_ifs with h1 h2 h3
    · rw [h1, matern_half hx]
    · rw [h2, matern_three_half hx]
    · rw [h3, matern_five_half hx]
    · have : 0 < √(2 * nu) * x := mul_pos (sqrt_pos.2 (by positivity)) hx
      rw [hkv nu _ hnu this, matern]

example : maternKernel besselK (some 2) (.fin (7 / 10)) = some (matern (7 / 10) 2) := by
  have := matern_kernel_documented (kv := besselK) (fun _ _ _ _ => rfl) (nu := 7 / 10) (x := 2) (by norm_num)
    (by norm_num) (by norm_num)
  simpa using this

theorem maternKernel_mix {kv : ℝ → ℝ → ℝ} (hkv : IsBesselK kv) {nu x : ℝ} (hnu : 0 < nu) (h100 : nu < 100)
    (hx : 0 ≤ x) : maternKernel kv (some x) (.fin nu) = some (mix nu (nu * x ^ 2 / 2) / Gamma nu) := by
  rw [matern_kernel_documented hkv hnu h100 hx]
  split_ifs with h
  · rw [h]
    exact congrArg some (isCorrelation_mix hnu).1.symm
  · rw [matern_eq_mix hnu (lt_of_le_of_ne hx (Ne.symm h))]

theorem maternKernel_gauss (kv : ℝ → ℝ → ℝ) {nu x : ℝ} (h100 : 100 ≤ nu) :
    maternKernel kv (some x) (.fin nu) = some (exp (-(1 / 2) * x ^ 2)) := by
  have h1 : nu ≠ 1 / 2 := by intro h; norm_num [h] at h100
  have h2 : nu ≠ 3 / 2 := by intro h; norm_num [h] at h100
  have h3 : nu ≠ 5 / 2 := by intro h; norm_num [h] at h100
  by_cases hx : x = 0
  · simp [maternKernel, hx]
  · simp only [maternKernel, hx, if_false, h1, h2, h3, not_lt.2 h100]

/-- Every kernel that `correlation_matrix` can run evaluates a correlation function: Matern of every positive
smoothness, and exponential.  The square exponential and, for every positive parameter but 1, the rational quadratic
functions are correlation functions too, although their documented names are refused
(`documented_kernel_names_abort`). -/
theorem kernels_are_correlations_partial {kv : ℝ → ℝ → ℝ} (hkv : IsBesselK kv) :
    (∀ nu, 0 < nu → ∃ f, IsCorrelation f ∧ ∀ x, 0 ≤ x → maternKernel kv (some x) (.fin nu) = some (f x)) ∧
    (∀ param, ∃ f, IsCorrelation f ∧ ∀ x, 0 ≤ x → exponentialKernel kv (some x) param = some (f x)) ∧
    (∀ param, ∃ f, IsCorrelation f ∧ ∀ x, 0 ≤ x → squareExponentialKernel kv (some x) param = some (f x)) ∧
    (∀ alpha, 0 < alpha → alpha ≠ 1 →
      ∃ f, IsCorrelation f ∧ ∀ x, 0 ≤ x → rationalQuadraticKernel (some x) (.fin alpha) = some (f x)) := by
  have hm : ∀ nu, 0 < nu → ∃ f, IsCorrelation f ∧ ∀ x, 0 ≤ x → maternKernel kv (some x) (.fin nu) = some (f x) := by
    intro nu hnu
    by_cases h : nu < 100
    · exact ⟨_, isCorrelation_mix hnu, fun x hx => maternKernel_mix hkv hnu h hx⟩
    · exact ⟨_, isCorrelation_gauss, fun x _ => maternKernel_gauss kv (not_lt.1 h)⟩
  refine ⟨hm, fun _ => hm (1 / 2) (by norm_num), fun _ => ⟨_, isCorrelation_gauss, fun x _ => ?_⟩, ?_⟩
  · by_cases hx : x = 0
    · simp [squareExponentialKernel, maternKernel, hx]
    · simp [squareExponentialKernel, maternKernel, hx]
  · intro a ha h1
    have base : ∀ x : ℝ, 1 ≤ 1 + x ^ 2 / (2 * a) := fun x => by
      have : 0 ≤ x ^ 2 / (2 * a) := by positivity
      linarith
    refine ⟨fun x => (1 + x ^ 2 / (2 * a)) ^ (-a), ⟨by simp, fun x _ => ⟨?_, ?_⟩, fun x y hx hxy => ?_⟩, fun x _ => ?_⟩
    · exact rpow_pos_of_pos (by linarith [base x]) _
    · exact rpow_le_one_of_one_le_of_nonpos (base x) (by linarith)
    · refine rpow_le_rpow_of_nonpos (by linarith [base x]) ?_ (by linarith)
      have : x ^ 2 ≤ y ^ 2 := by gcongr
      gcongr
    · have hb : 0 < 1 + x ^ 2 / (2 * a) := by linarith [base x]
      simp only [rationalQuadraticKernel, ha.ne', if_false, ne_eq, h1, not_false_eq_true, if_true, cpow, hb]

example : IsBesselK besselK := fun _ _ _ _ => rfl

/-- Refuted: two of the four kernel names the check accepts end the process. -/
theorem documented_kernel_names_abort (kv : ℝ → ℝ → ℝ) :
    (checkKernel "square_exponential" = .ok () ∧ getKernel kv "square_exponential" = .error .abort) ∧
    (checkKernel "rational_quadratic" = .ok () ∧ getKernel kv "rational_quadratic" = .error .abort) := by
  simp [checkKernel, getKernel]

/-- A name passes the check and is then known to `get_kernel` only for these two kernels. -/
theorem usable_kernel_names (kv : ℝ → ℝ → ℝ) (name : String) :
    (checkKernel name = .ok () ∧ ∃ k, getKernel kv name = .ok k) ↔ name = "matern" ∨ name = "exponential" := by
  constructor
  · rintro ⟨h, k, hk⟩
    have hm : name ∈ ["matern", "exponential", "square_exponential", "rational_quadratic"] := by
      by_contra hc
      simp [checkKernel, hc] at h
    simp only [List.mem_cons, List.not_mem_nil, or_false] at hm
    rcases hm with h | h | h | h
    · exact .inl h
    · exact .inr h
    · rw [h, (documented_kernel_names_abort kv).1.2] at hk; simp at hk
    · rw [h, (documented_kernel_names_abort kv).2.2] at hk; simp at hk
  · rintro (rfl | rfl) <;> simp [checkKernel, getKernel]

/-- Refuted: with its documented default parameter the rational quadratic kernel grows with the distance. -/
theorem rational_quadratic_one_wrong :
    ¬ ∃ f, IsCorrelation f ∧ ∀ x, 0 ≤ x → rationalQuadraticKernel (some x) (.fin 1) = some (f x) := by
  rintro ⟨f, ⟨_, h, _⟩, hf⟩
  have h2 := hf 2 (by norm_num)
  have := (h 2 (by norm_num)).2
  simp [rationalQuadraticKernel] at h2
  rw [← h2] at this
  norm_num at this

/-- Refuted: a smoothness that is not positive makes the correlation at every positive distance `nan`. -/
theorem matern_nonpositive_nan (kv : ℝ → ℝ → ℝ) {nu x : ℝ} (hnu : nu ≤ 0) (hx : 0 < x) :
    maternKernel kv (some x) (.fin nu) = none := by
  have h1 : nu ≠ 1 / 2 := by intro h; norm_num [h] at hnu
  have h2 : nu ≠ 3 / 2 := by intro h; norm_num [h] at hnu
  have h3 : nu ≠ 5 / 2 := by intro h; norm_num [h] at hnu
  have h4 : nu < 100 := by linarith
  simp only [maternKernel, hx.ne', h1, h2, h3, h4, hnu, if_false, if_true]

example : maternKernel besselK (some 1) (.fin (-1)) = none :=
  matern_nonpositive_nan besselK (by norm_num) (by norm_num)

/-- The default parameter: `matern` gets 1/2, which makes it the exponential kernel; the rational quadratic kernel,
under the name the check accepts, gets none. -/
theorem default_kernel_param (kv : ℝ → ℝ → ℝ) (x : Option ℝ) :
    maternKernel kv x (kernelParam "matern" none) = exponentialKernel kv x (kernelParam "exponential" none) ∧
    kernelParam "rational_quadratic" none = .nan := by
  simp [kernelParam, exponentialKernel]

end Imate.Props
