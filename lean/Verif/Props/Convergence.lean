import Verif.Lemmas.Convergence
import Verif.Model.ErfInv
import Verif.Props.Estimator
set_option linter.unusedSectionVars false

/-!
# Properties of the convergence rules (C22, C23, C26, C27, C54)

Exact arithmetic: real numbers extended with `inf` and `nan` (`XR ℝ`).  A list of finite samples is
`xs.map XR.fin` for `xs : List ℝ`.  `Spec.mean`, `Spec.sampleStd`, … are the textbook statistics.
-/

namespace Imate.Props
open Convergence Spec ErfInv

/-! ## C22 -/

/-- C22 in exact arithmetic: the estimate, its error and the number of outliers of a list of samples do not depend on the
order of the list, whatever the samples (including infinite ones and NaN) and levels. -/
theorem estimate_order_independent_partial {xs ys : List (XR ℝ)} (h : xs.Perm ys) (errorZ outlierZ : XR ℝ) :
    averageEstimate errorZ outlierZ xs = averageEstimate errorZ outlierZ ys :=
  averageEstimate_perm errorZ outlierZ h

/-- C22: neither does the decision whether they have converged. -/
theorem convergence_order_independent_partial {xs ys : List (XR ℝ)} (h : xs.Perm ys) (z atol rtol : XR ℝ) :
    errorOf z xs = errorOf z ys ∧ meetsTol z atol rtol xs = meetsTol z atol rtol ys := by
  refine ⟨errorOf_perm z h, ?_⟩
  unfold meetsTol
  rw [errorOf_perm z h, meanOf_perm h]

open Estimator in
/-- C22 for whole runs: if two schedules of the same computation used the same samples for inquiry
`j`, they return the same estimate, error and number of outliers for it. -/
theorem runs_agree_on_same_samples_partial {cfg : Config (XR ℝ)} (hsep : Separate cfg)
    (hN : 0 < cfg.numInquiries) (hex : Exclusive cfg) {ts₁ ts₂ : List ℕ} {s₁ s₂ : State (XR ℝ)}
    (h₁ : run cfg (init cfg) ts₁ = some s₁) (h₂ : run cfg (init cfg) ts₂ = some s₂) {j : ℕ}
    {q₁ q₂ : Inquiry (XR ℝ)} (hq₁ : s₁.inqs[j]? = some q₁) (hq₂ : s₂.inqs[j]? = some q₂)
    (hsame : ∀ i, i ∈ s₁.processed.take q₁.numSamplesUsed ↔ i ∈ s₂.processed.take q₂.numSamplesUsed)
    (errorZ outlierZ : XR ℝ) :
    averaged cfg errorZ outlierZ s₁ j = averaged cfg errorZ outlierZ s₂ j := by
  rw [trace_is_average_of_values hsep hN hex h₁ hq₁, trace_is_average_of_values hsep hN hex h₂ hq₂]
  apply averageEstimate_perm
  apply List.Perm.map
  exact (List.perm_ext_iff_of_nodup (averaged_samples_computed hsep hN h₁ hq₁).2
    (averaged_samples_computed hsep hN h₂ hq₂).2).2 hsame

example : [XR.fin 1, XR.nan, XR.fin (2 : ℝ)].Perm [XR.nan, XR.fin 2, XR.fin 1] :=
  (List.Perm.swap _ _ _).trans (List.Perm.cons _ (List.Perm.swap _ _ _))

/-! ## C23 -/

/-- the samples that are not outliers: not farther from the mean than `outlierZ` standard deviations -/
noncomputable def retained (outlierZ : ℝ) (xs : List ℝ) : List ℝ :=
  xs.filter (fun x => decide (|x - mean xs| ≤ outlierZ * sampleStd xs))

theorem filter_retained {xs : List ℝ} (h : 2 ≤ xs.length) (outlierZ : ℝ) :
    (xs.map XR.fin).filter (fun x => !isOutlier (meanOf (xs.map XR.fin))
      (FloatLike.mul (XR.fin outlierZ) (stdOf (xs.map XR.fin))) x) =
    (retained outlierZ xs).map XR.fin ∧
    (xs.map XR.fin).countP (fun x => isOutlier (meanOf (xs.map XR.fin))
      (FloatLike.mul (XR.fin outlierZ) (stdOf (xs.map XR.fin))) x) =
    xs.length - (retained outlierZ xs).length := by
  have hne : xs ≠ [] := by rintro rfl; simp at h
  rw [meanOf_fin hne, stdOf_fin h]
  have e : (FloatLike.mul (XR.fin outlierZ) (XR.fin (sampleStd xs)) : XR ℝ) =
    XR.fin (outlierZ * sampleStd xs) := rfl
  rw [e]
  constructor
  · rw [List.filter_map]
    congr 1
    unfold retained
    apply List.filter_congr
    intro x _
    simp only [Function.comp, isOutlier_fin]
    rw [Bool.eq_iff_iff]
    simp
  · rw [List.countP_map]
    have h1 := List.length_eq_countP_add_countP
      (fun x => decide (|x - mean xs| ≤ outlierZ * sampleStd xs)) (l := xs)
    have h2 : (retained outlierZ xs).length =
        xs.countP (fun x => decide (|x - mean xs| ≤ outlierZ * sampleStd xs)) := by
      unfold retained; rw [List.countP_eq_length_filter]
    have h3 : xs.countP ((fun x => isOutlier (XR.fin (mean xs)) (XR.fin (outlierZ * sampleStd xs)) x) ∘
        XR.fin) = xs.countP (fun x => ¬ (decide (|x - mean xs| ≤ outlierZ * sampleStd xs)) = true) := by
      apply List.countP_congr
      intro x _
      simp only [Function.comp, isOutlier_fin]
      simp
    rw [h3]
    have h4 : xs.countP (fun x => decide (¬ (decide (|x - mean xs| ≤ outlierZ * sampleStd xs)) = true)) =
      xs.countP (fun x => !decide (|x - mean xs| ≤ outlierZ * sampleStd xs)) := by
      apply List.countP_congr
      intro x _
      simp
    omega

/-- C23: the trace is the plain mean of the retained samples, the error the standard error of that
mean, and the number of outliers the number of samples left out.  A sample is retained iff its
distance from the mean of all samples is at most `outlierZ` standard deviations. -/
theorem estimate_is_mean_of_retained {xs : List ℝ} (h : 2 ≤ xs.length) (errorZ outlierZ : ℝ)
    (hkept : retained outlierZ xs ≠ []) :
    let r := averageEstimate (XR.fin errorZ) (XR.fin outlierZ) (xs.map XR.fin)
    r.trace = XR.fin (mean (retained outlierZ xs)) ∧
    r.numOutliers = xs.length - (retained outlierZ xs).length ∧
    (2 ≤ (retained outlierZ xs).length →
      r.error = XR.fin (standardError errorZ (retained outlierZ xs))) := by
  obtain ⟨h1, h2⟩ := filter_retained h outlierZ
  have hle : (retained outlierZ xs).length ≤ xs.length := List.length_filter_le _ _
  have hsub : xs.length - (xs.length - (retained outlierZ xs).length) = (retained outlierZ xs).length := by
    omega
  have hm := meanOf_fin hkept
  unfold meanOf at hm
  rw [List.length_map] at hm
  refine ⟨?_, ?_, ?_⟩
  · unfold averageEstimate
    dsimp only
    rw [h1, h2, List.length_map, hsub, hm]
  · unfold averageEstimate
    dsimp only
    rw [h2]
  · intro h3
    unfold averageEstimate
    dsimp only
    rw [h1, h2, List.length_map, hsub, hm, if_pos (by omega)]
    have he := errorOf_fin errorZ h3
    have hs : stdOf ((retained outlierZ xs).map XR.fin) = FloatLike.sqrt (FloatLike.div
        (sumSq (XR.fin (mean (retained outlierZ xs))) ((retained outlierZ xs).map XR.fin))
        (FloatLike.sub (FloatLike.ofNat (retained outlierZ xs).length) (FloatLike.ofNat 1))) := by
      unfold stdOf
      rw [List.length_map, if_pos (by omega), meanOf_fin hkept]
    unfold errorOf at he
    rw [List.length_map, hs] at he
    exact he

/-- C23: with a threshold of at least one standard deviation some sample is always retained. -/
theorem some_sample_retained {xs : List ℝ} (h : 2 ≤ xs.length) {outlierZ : ℝ} (hz : 1 ≤ outlierZ) :
    retained outlierZ xs ≠ [] := by
  have hne : xs ≠ [] := by rintro rfl; simp at h
  have h1 : (2 : ℝ) ≤ xs.length := by exact_mod_cast h
  have hs := sampleStd_nonneg xs
  obtain ⟨x, hx, hd⟩ := exists_small_dev hne (mean xs) (sampleStd xs) hs (by
    unfold sampleStd
    rw [Real.sq_sqrt (div_nonneg (sqDev_nonneg _ _) (by linarith))]
    have hd := sqDev_nonneg (mean xs) xs
    rw [mul_div_assoc', le_div_iff₀ (by linarith)]
    nlinarith)
  intro he
  have : x ∈ retained outlierZ xs := by
    unfold retained
    rw [List.mem_filter]
    refine ⟨hx, ?_⟩
    simp only [decide_eq_true_eq]
    nlinarith
  rw [he] at this
  simp at this

/-- C23: the estimate lies between any bounds of the samples (two or more samples). -/
theorem estimate_between {xs : List ℝ} (h : 2 ≤ xs.length) (errorZ : ℝ) {outlierZ : ℝ} (hz : 1 ≤ outlierZ)
    {lo hi : ℝ} (hb : ∀ x ∈ xs, lo ≤ x ∧ x ≤ hi) :
    ∃ t, (averageEstimate (XR.fin errorZ) (XR.fin outlierZ) (xs.map XR.fin)).trace = XR.fin t ∧
      lo ≤ t ∧ t ≤ hi := by
  have hk := some_sample_retained h hz
  refine ⟨_, (estimate_is_mean_of_retained h errorZ outlierZ hk).1, ?_⟩
  exact mean_mem_Icc hk (fun x hx => hb x (List.mem_of_mem_filter hx))

/-- C23: a single sample is never an outlier and is returned as it is. -/
theorem single_sample_estimate (x : ℝ) (errorZ : XR ℝ) {outlierZ : ℝ} (hz : 0 ≤ outlierZ) :
    (averageEstimate errorZ (XR.fin outlierZ) [XR.fin x]).trace = XR.fin x ∧
    (averageEstimate errorZ (XR.fin outlierZ) [XR.fin x]).numOutliers = 0 := by
  have hm : meanOf [XR.fin x] = (XR.fin x : XR ℝ) := by
    have := meanOf_fin (xs := [x]) (by simp)
    simpa [mean] using this
  have hst : stdOf [XR.fin x] = (XR.pinf : XR ℝ) := by
    unfold stdOf; rw [if_neg (by simp)]; rfl
  have hout : isOutlier (XR.fin x) (FloatLike.mul (XR.fin outlierZ) XR.pinf) (XR.fin x) = false := by
    show XR.lt (XR.mul (XR.fin outlierZ) XR.pinf) _ = false
    show XR.lt (XR.signedInf outlierZ) _ = false
    unfold XR.signedInf
    rcases hz.lt_or_eq with h | h
    · rw [if_pos h]; rfl
    · subst h; simp [XR.lt]
  unfold averageEstimate
  dsimp only
  rw [hm, hst]
  simp only [List.filter_cons, hout, List.countP_cons, List.countP_nil, List.filter_nil]
  have hs : sumOf [XR.fin x] = (XR.fin x : XR ℝ) := by
    have := sumOf_fin [x]
    simpa using this
  simp only [Bool.not_false, if_true, hs]
  refine ⟨?_, by simp⟩
  show (FloatLike.div (XR.fin x) (XR.fin (((1 : ℕ)) : ℝ)) : XR ℝ) = _
  rw [div_fin _ _ (by norm_num)]
  simp

theorem mean_pair : mean [-1, 1] = 0 := by norm_num [mean]

theorem std_pair : 1 < sampleStd [-1, 1] := by
  unfold sampleStd sqDev
  rw [mean_pair]
  rw [Real.lt_sqrt (by norm_num)]
  norm_num

/-- C23 is violated for small thresholds: with half a standard deviation both samples -1 and 1 are
discarded and the returned trace is NaN … -/
theorem all_samples_discarded :
    (averageEstimate (XR.fin 1) (XR.fin (1 / 2)) ([(-1 : ℝ), 1].map XR.fin)).numOutliers = 2 ∧
    (averageEstimate (XR.fin 1) (XR.fin (1 / 2)) ([(-1 : ℝ), 1].map XR.fin)).trace = (XR.nan : XR ℝ) := by
  have hlt : sampleStd [-1, 1] < 2 := by
    unfold sampleStd sqDev
    rw [mean_pair, Real.sqrt_lt' (by norm_num)]
    norm_num
  have hr : retained (1 / 2) [-1, 1] = [] := by
    unfold retained
    rw [mean_pair]
    rw [List.filter_eq_nil_iff]
    intro x hx
    simp only [decide_eq_true_eq, not_le, sub_zero]
    have : |x| = 1 := by
      simp at hx
      rcases hx with rfl | rfl <;> norm_num
    rw [this]; linarith
  obtain ⟨h1, h2⟩ := filter_retained (xs := [-1, 1]) (by simp) (1 / 2)
  rw [hr] at h1 h2
  constructor
  · unfold averageEstimate
    dsimp only
    rw [h2]; simp
  · unfold averageEstimate
    dsimp only
    rw [h1, h2]
    show XR.div (XR.fin ((0 : ℕ) : ℝ)) (XR.fin ((0 : ℕ) : ℝ)) = XR.nan
    simp [XR.div, XR.signedInf]

/-- … and the Python version used by the Hutchinson method raises a ZeroDivisionError. -/
theorem python_all_samples_discarded :
    pyAverageEstimate (XR.fin 1) (XR.fin (1 / 2)) ([(-1 : ℝ), 1].map XR.fin) = (none : Option (Averaged (XR ℝ))) := by
  have hst : populationStd [-1, 1] = 1 := by
    unfold populationStd sqDev
    rw [mean_pair]
    norm_num
  have hall : ∀ x ∈ [-1, (1 : ℝ)], isOutlier (meanOf ([(-1 : ℝ), 1].map XR.fin))
      (FloatLike.mul (XR.fin (1 / 2)) (pyStdOf ([(-1 : ℝ), 1].map XR.fin))) (XR.fin x) = true := by
    intro x hx
    rw [meanOf_fin (by simp), pyStdOf_fin (by simp), hst, mean_pair]
    have e : (FloatLike.mul (XR.fin (1 / 2)) (XR.fin 1) : XR ℝ) = XR.fin (1 / 2 * 1) := rfl
    rw [e, isOutlier_fin]
    simp at hx
    rcases hx with rfl | rfl <;> norm_num
  have hc : ([(-1 : ℝ), 1].map XR.fin).countP (fun x => isOutlier (meanOf ([(-1 : ℝ), 1].map XR.fin))
      (FloatLike.mul (XR.fin (1 / 2)) (pyStdOf ([(-1 : ℝ), 1].map XR.fin))) x) = 2 := by
    rw [List.countP_map, List.countP_eq_length.2]
    · simp
    · intro x hx
      exact hall x hx
  unfold pyAverageEstimate
  dsimp only
  rw [hc]
  simp

example : 2 ≤ [(1 : ℝ), 2, 3, 100].length ∧ retained 3 [(1 : ℝ), 2, 3, 100] ≠ [] :=
  ⟨by simp, some_sample_retained (by simp) (by norm_num)⟩

/-! ## C26 -/

/-- What the documentation asks for: the error is below the absolute tolerance or below the relative
tolerance times the magnitude of the estimate. -/
def IntendedCriterion (z atol rtol : ℝ) (xs : List ℝ) : Prop :=
  standardError z xs < max atol (rtol * |mean xs|)

theorem meetsTol_fin {xs : List ℝ} (h : 2 ≤ xs.length) (z atol rtol : ℝ) :
    meetsTol (XR.fin z) (XR.fin atol) (XR.fin rtol) (xs.map XR.fin) =
      decide (standardError z xs < max atol (rtol * mean xs)) := by
  have hne : xs ≠ [] := by rintro rfl; simp at h
  unfold meetsTol
  rw [errorOf_fin z h, meanOf_fin hne]
  have e : (FloatLike.mul (XR.fin rtol) (XR.fin (mean xs)) : XR ℝ) = XR.fin (rtol * mean xs) := rfl
  rw [e, max_fin]
  rfl

/-- C26, the part that holds: for non-negative estimates the decision is the intended one.  Missing:
negative estimates, see `relative_tolerance_ignored_for_negative`. -/
theorem relative_tolerance_partial {xs : List ℝ} (h : 2 ≤ xs.length) (z atol rtol : ℝ)
    (hm : 0 ≤ mean xs) :
    meetsTol (XR.fin z) (XR.fin atol) (XR.fin rtol) (xs.map XR.fin) = true ↔
      IntendedCriterion z atol rtol xs := by
  rw [meetsTol_fin h, decide_eq_true_eq, IntendedCriterion, abs_of_nonneg hm]

/-- C26: a declared convergence always satisfies the intended criterion. -/
theorem converged_implies_intended {xs : List ℝ} (h : 2 ≤ xs.length) (z atol : ℝ) {rtol : ℝ}
    (hr : 0 ≤ rtol)
    (hc : meetsTol (XR.fin z) (XR.fin atol) (XR.fin rtol) (xs.map XR.fin) = true) :
    IntendedCriterion z atol rtol xs := by
  rw [meetsTol_fin h, decide_eq_true_eq] at hc
  refine lt_of_lt_of_le hc (max_le_max le_rfl ?_)
  exact mul_le_mul_of_nonneg_left (le_abs_self _) hr

/-- C26 is violated: for an estimate that is negative or zero the relative tolerance is ignored, only
the absolute one counts. -/
theorem relative_tolerance_ignored_for_negative {xs : List ℝ} (h : 2 ≤ xs.length) (z : ℝ)
    {atol rtol : ℝ} (ha : 0 ≤ atol) (hr : 0 ≤ rtol) (hm : mean xs ≤ 0) :
    meetsTol (XR.fin z) (XR.fin atol) (XR.fin rtol) (xs.map XR.fin) = decide (standardError z xs < atol) := by
  rw [meetsTol_fin h, max_eq_left]
  have := mul_nonpos_of_nonneg_of_nonpos hr hm
  linarith

/-- C26 is violated: with the default absolute tolerance 0 a negative estimate never converges,
however small the error is. -/
theorem negative_estimate_never_converges {xs : List ℝ} (h : 2 ≤ xs.length) {z rtol : ℝ} (hz : 0 ≤ z)
    (hr : 0 ≤ rtol) (hm : mean xs ≤ 0) :
    meetsTol (XR.fin z) (XR.fin 0) (XR.fin rtol) (xs.map XR.fin) = false := by
  rw [relative_tolerance_ignored_for_negative h z le_rfl hr hm, decide_eq_false_iff_not, not_lt]
  unfold standardError
  exact div_nonneg (mul_nonneg hz (sampleStd_nonneg xs)) (Real.sqrt_nonneg _)

/-- C26 is violated: the decision is not invariant under negating the samples.  The constant samples
5, 5 converge at any positive relative tolerance, -5, -5 do not. -/
theorem negation_changes_decision {rtol : ℝ} (hr : 0 < rtol) :
    meetsTol (XR.fin 2) (XR.fin 0) (XR.fin rtol) ([(5 : ℝ), 5].map XR.fin) = true ∧
    meetsTol (XR.fin 2) (XR.fin 0) (XR.fin rtol) ([(-5 : ℝ), -5].map XR.fin) = (false : Bool) := by
  constructor
  · rw [meetsTol_fin (by simp), decide_eq_true_eq]
    have hm : mean [5, 5] = 5 := by norm_num [mean]
    have hs : sampleStd [5, 5] = 0 := by
      unfold sampleStd sqDev; rw [hm]; norm_num
    unfold standardError
    rw [hs, hm]
    simp [hr]
  · exact negative_estimate_never_converges (by simp) (by norm_num) hr.le (by norm_num [mean])

/-! ## C27 -/

/-- C27 is violated: the two error estimates differ, the Python one uses the population standard
deviation.  The exact relation between them: -/
theorem python_error_relation {xs : List ℝ} (h : 2 ≤ xs.length) {z : ℝ} (hz : 0 ≤ z) :
    ∃ ePy eC : ℝ, pyErrorOf (XR.fin z) (xs.map XR.fin) = XR.fin ePy ∧
      errorOf (XR.fin z) (xs.map XR.fin) = XR.fin eC ∧ 0 ≤ ePy ∧ ePy ≤ eC ∧
      ePy ^ 2 * xs.length = eC ^ 2 * (xs.length - 1) := by
  have h1 : (2 : ℝ) ≤ xs.length := by exact_mod_cast h
  have hsq : 0 < Real.sqrt (xs.length : ℝ) := Real.sqrt_pos.2 (by linarith)
  have hdev := sqDev_nonneg (mean xs) xs
  have hpop : 0 ≤ populationStd xs := Real.sqrt_nonneg _
  have hle : populationStd xs ≤ sampleStd xs := by
    unfold populationStd sampleStd
    apply Real.sqrt_le_sqrt
    exact div_le_div_of_nonneg_left hdev (by linarith) (by linarith)
  refine ⟨z * populationStd xs / Real.sqrt xs.length, standardError z xs, ?_, errorOf_fin z h, ?_, ?_, ?_⟩
  · unfold pyErrorOf
    rw [pyStdOf_fin h, List.length_map, ofNat_fin, sqrt_fin (by linarith)]
    show (FloatLike.div (XR.fin (z * populationStd xs)) _ : XR ℝ) = _
    rw [div_fin _ _ (ne_of_gt hsq)]
  · positivity
  · unfold standardError
    gcongr
  · unfold standardError
    rw [div_pow, div_pow, mul_pow, mul_pow]
    have e1 : populationStd xs ^ 2 = sqDev (mean xs) xs / xs.length := by
      unfold populationStd; rw [Real.sq_sqrt (div_nonneg hdev (by linarith))]
    have e2 : sampleStd xs ^ 2 = sqDev (mean xs) xs / (xs.length - 1) := by
      unfold sampleStd; rw [Real.sq_sqrt (div_nonneg hdev (by linarith))]
    rw [e1, e2]
    have : (xs.length : ℝ) - 1 ≠ 0 := by
      have : 0 < (xs.length : ℝ) - 1 := by linarith
      exact ne_of_gt this
    have : (xs.length : ℝ) ≠ 0 := by
      have : 0 < (xs.length : ℝ) := by linarith
      exact ne_of_gt this
    field_simp

/-- C27, the part that holds: what the SLQ rule accepts the Hutchinson rule accepts too.  Missing: the
converse, see `python_rule_differs`. -/
theorem python_rule_weaker_partial {xs : List ℝ} (h : 2 ≤ xs.length) {z : ℝ} (hz : 0 ≤ z) (atol rtol : ℝ)
    (hc : meetsTol (XR.fin z) (XR.fin atol) (XR.fin rtol) (xs.map XR.fin) = true) :
    pyMeetsTol (XR.fin z) (XR.fin atol) (XR.fin rtol) (xs.map XR.fin) = true := by
  obtain ⟨ePy, eC, h1, h2, h3, h4, -⟩ := python_error_relation h hz
  have hne : xs ≠ [] := by rintro rfl; simp at h
  unfold meetsTol at hc
  unfold pyMeetsTol
  rw [h2, meanOf_fin hne] at hc
  rw [h1, meanOf_fin hne]
  have e : (FloatLike.mul (XR.fin rtol) (XR.fin (mean xs)) : XR ℝ) = XR.fin (rtol * mean xs) := rfl
  rw [e, max_fin] at hc ⊢
  have hc' : decide (eC < max atol (rtol * mean xs)) = true := hc
  rw [decide_eq_true_eq] at hc'
  show decide (ePy < max atol (rtol * mean xs)) = true
  rw [decide_eq_true_eq]
  linarith

/-- C27 is violated: on the samples -1, 1 with absolute tolerance 0.8 the Hutchinson rule declares
convergence and the SLQ rule does not. -/
theorem python_rule_differs :
    pyMeetsTol (XR.fin 1) (XR.fin (8 / 10)) (XR.fin 0) ([(-1 : ℝ), 1].map XR.fin) = true ∧
    meetsTol (XR.fin 1) (XR.fin (8 / 10)) (XR.fin 0) ([(-1 : ℝ), 1].map XR.fin) = false := by
  have hs2 : Real.sqrt 2 ^ 2 = 2 := Real.sq_sqrt (by norm_num)
  have hs0 : 0 < Real.sqrt 2 := Real.sqrt_pos.2 (by norm_num)
  constructor
  · unfold pyMeetsTol pyErrorOf
    have hst : populationStd [-1, 1] = 1 := by
      unfold populationStd sqDev; rw [mean_pair]; norm_num
    rw [meanOf_fin (by simp), pyStdOf_fin (by simp), List.length_map, ofNat_fin, sqrt_fin (by positivity),
      hst, mean_pair]
    have e : (FloatLike.mul (XR.fin 0) (XR.fin 0) : XR ℝ) = XR.fin (0 * 0) := rfl
    have e2 : (FloatLike.mul (XR.fin 1) (XR.fin 1) : XR ℝ) = XR.fin (1 * 1) := rfl
    rw [e, e2, max_fin, div_fin _ _ (by simp)]
    show decide (_ < _) = true
    rw [decide_eq_true_eq]
    simp only [List.length_cons, List.length_nil]
    push_cast
    norm_num
    rw [inv_lt_comm₀ hs0 (by norm_num)]
    rw [Real.lt_sqrt (by norm_num)]
    norm_num
  · rw [meetsTol_fin (by simp), decide_eq_false_iff_not, not_lt, mean_pair]
    unfold standardError
    have hst : sampleStd [-1, 1] = Real.sqrt 2 := by
      unfold sampleStd sqDev; rw [mean_pair]; norm_num
    rw [hst]
    simp only [List.length_cons, List.length_nil]
    push_cast
    norm_num

/-! ## C54 -/

theorem sign_neg (x : ℝ) : sign (-x) = -sign x := by
  unfold sign
  simp only [Left.neg_pos_iff, Left.neg_neg_iff]
  ring

theorem sign_mul_self_neg (x : ℝ) : sign (-x) * (-x) = sign x * x := by rw [sign_neg]; ring

theorem sign_one : sign (1 : ℝ) = 1 := by norm_num [sign]

/-- C54: the inverse error function is odd (given that `erf` of the C library is odd). -/
theorem erfInv_odd (F : MathFns ℝ) (hodd : ∀ r, F.erf (-r) = -F.erf r) (x : ℝ) :
    erfInv F (-x) = XR.neg (erfInv F x) := by
  have hn : ∀ z r, newton F (-z) (-r) = -newton F z r := by
    intro z r
    unfold newton
    rw [hodd]
    have : - -r * -r = -r * r := by ring
    rw [this]; ring
  unfold erfInv
  by_cases h : x = 1 ∨ x = -1
  · have h' : -x = 1 ∨ -x = -1 := by
      rcases h with rfl | rfl
      · right; rfl
      · left; norm_num
    rw [if_pos h, if_pos h', sign_neg]
    rcases h with rfl | rfl <;> simp only [sign_neg, sign_one] <;>
      norm_num [XR.mul, XR.signedInf, XR.neg]
  · have h' : ¬ (-x = 1 ∨ -x = -1) := by
      rintro (h1 | h1)
      · exact h (Or.inr (by linarith))
      · exact h (Or.inl (by linarith))
    rw [if_neg h, if_neg h']
    dsimp only
    rw [sign_mul_self_neg, sign_neg]
    have e1 : guess F (sign x * x) * -sign x = -(guess F (sign x * x) * sign x) := by ring
    have e2 : sign x * x * -sign x = -(sign x * x * sign x) := by ring
    rw [e1, e2, hn, hn]
    rfl

/-- C54: infinite exactly at ±1. -/
theorem erfInv_infinite (F : MathFns ℝ) (x : ℝ) :
    erfInv F 1 = .pinf ∧ erfInv F (-1) = .ninf ∧ (x ≠ 1 → x ≠ -1 → ∃ y, erfInv F x = .fin y) := by
  refine ⟨?_, ?_, ?_⟩
  · simp [erfInv, sign_one, XR.mul, XR.signedInf]
  · simp only [erfInv, or_true, if_true, sign_neg, sign_one]
    norm_num [XR.mul, XR.signedInf]
  · intro h1 h2
    unfold erfInv
    rw [if_neg (by tauto)]
    exact ⟨_, rfl⟩

/-- C54: the Newton refinement leaves an exact solution unchanged, and a fixed point is an exact
solution. -/
theorem newton_fixed_iff (F : MathFns ℝ) (hexp : ∀ r, F.exp r ≠ 0) (hpi : F.sqrt F.pi ≠ 0) (z r : ℝ) :
    newton F z r = r ↔ F.erf r = z := by
  unfold newton
  have : 2 / F.sqrt F.pi * F.exp (-r * r) ≠ 0 := mul_ne_zero (div_ne_zero two_ne_zero hpi) (hexp _)
  constructor
  · intro h
    have h1 : (F.erf r - z) / (2 / F.sqrt F.pi * F.exp (-r * r)) = 0 := by linarith
    rw [div_eq_zero_iff] at h1
    rcases h1 with h1 | h1
    · linarith
    · exact absurd h1 this
  · intro h
    rw [h]; simp

theorem zScore_one (F : MathFns ℝ) (h2 : 0 < F.sqrt 2) : zScore F 1 = .pinf := by
  unfold zScore
  rw [(erfInv_infinite F 0).1]
  simp [XR.mul, XR.signedInf, h2]

theorem stdOf_range (xs : List (XR ℝ)) :
    stdOf xs = .nan ∨ stdOf xs = .pinf ∨ ∃ s : ℝ, 0 ≤ s ∧ stdOf xs = .fin s := by
  have hsq : ∀ y : XR ℝ, FloatLike.sqrt y = .nan ∨ FloatLike.sqrt y = .pinf ∨
      ∃ s : ℝ, 0 ≤ s ∧ FloatLike.sqrt y = .fin s := by
    intro y
    cases y with
    | fin x =>
      by_cases h : x < 0
      · left; show (if x < 0 then _ else _) = _; rw [if_pos h]
      · right; right; exact ⟨Real.sqrt x, Real.sqrt_nonneg _, sqrt_fin (not_lt.1 h)⟩
    | pinf => right; left; rfl
    | ninf => left; rfl
    | nan => left; rfl
  unfold stdOf
  split
  · exact hsq _
  · right; left; rfl

theorem pinf_mul_std (xs : List (XR ℝ)) :
    FloatLike.mul (XR.pinf : XR ℝ) (stdOf xs) = .nan ∨ FloatLike.mul (XR.pinf : XR ℝ) (stdOf xs) = .pinf := by
  rcases stdOf_range xs with h | h | ⟨s, hs, h⟩
  · left; rw [h]; rfl
  · right; rw [h]; rfl
  · rw [h]
    show XR.signedInf s = _ ∨ XR.signedInf s = _
    unfold XR.signedInf
    rcases hs.lt_or_eq with h1 | h1
    · right; rw [if_pos h1]
    · left; subst h1; simp

/-- C54: with confidence level 1 convergence is never declared, whatever the samples and tolerances. -/
theorem confidence_one_never_converges (F : MathFns ℝ) (h2 : 0 < F.sqrt 2) (atol rtol : XR ℝ)
    (xs : List (XR ℝ)) : meetsTol (zScore F 1) atol rtol xs = false := by
  rw [zScore_one F h2]
  unfold meetsTol
  have herr : errorOf XR.pinf xs = (.nan : XR ℝ) ∨ errorOf XR.pinf xs = (.pinf : XR ℝ) := by
    unfold errorOf
    rw [ofNat_fin, sqrt_fin (by positivity)]
    rcases pinf_mul_std xs with h | h
    · left; rw [h]; rfl
    · right; rw [h]
      show (if _ < 0 then _ else _) = _
      rw [if_neg (not_lt.2 (Real.sqrt_nonneg _))]
  rcases herr with h | h <;> rw [h]
  · rfl
  · show XR.lt XR.pinf _ = false
    cases FloatLike.max atol (FloatLike.mul rtol (meanOf xs)) <;> rfl

/-- C54: with outlier significance level 0 (threshold at confidence 1) no sample is ever discarded and
the estimate is the mean of all samples. -/
theorem outlier_level_zero_keeps_all (F : MathFns ℝ) (h2 : 0 < F.sqrt 2) (errorZ : XR ℝ)
    (xs : List (XR ℝ)) :
    (averageEstimate errorZ (zScore F (1 - 0)) xs).numOutliers = 0 ∧
    (averageEstimate errorZ (zScore F (1 - 0)) xs).trace = meanOf xs := by
  rw [sub_zero, zScore_one F h2]
  have hno : ∀ x, isOutlier (meanOf xs) (FloatLike.mul (XR.pinf : XR ℝ) (stdOf xs)) x = false := by
    intro x
    unfold isOutlier
    rcases pinf_mul_std xs with h | h <;> rw [h]
    · rfl
    · show XR.lt XR.pinf _ = false
      cases FloatLike.abs (FloatLike.sub x (meanOf xs)) <;> rfl
  have hc : xs.countP (fun x => isOutlier (meanOf xs) (FloatLike.mul (XR.pinf : XR ℝ) (stdOf xs)) x) = 0 := by
    rw [List.countP_eq_zero]
    intro x _
    simp [hno]
  have hf : xs.filter (fun x => !isOutlier (meanOf xs) (FloatLike.mul (XR.pinf : XR ℝ) (stdOf xs)) x) = xs := by
    rw [List.filter_eq_self]
    intro x _
    simp [hno]
  unfold averageEstimate
  dsimp only
  rw [hc, hf]
  exact ⟨rfl, rfl⟩

/-- the hypotheses on the math library can be met -/
example : ∃ F : MathFns ℝ, (∀ r, F.erf (-r) = -F.erf r) ∧ (∀ r, F.exp r ≠ 0) ∧ F.sqrt F.pi ≠ 0 ∧
    0 < F.sqrt 2 :=
  ⟨⟨id, fun _ => 1, id, Real.sqrt, 3⟩, by simp, by simp, by simp, by simp⟩

end Imate.Props
