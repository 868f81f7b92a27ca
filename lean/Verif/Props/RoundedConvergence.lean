import Verif.Lemmas.RoundedConvergence

/-!
# C86: the reported trace and error are accurate in floating-point arithmetic

`u = 2^(-p)` is the unit roundoff.  The functions are those of `Verif.Model.Convergence`, with the numbers `Fl fl`.
-/

namespace Imate.Props.RoundedConvergence

open Imate.RoundedConvergence Imate.Convergence Imate.Spec Imate.Rounded

variable {fl : ℝ → ℝ} {p : ℕ}

/-- The unit roundoff of numbers with `p` bits. -/
noncomputable def unit (p : ℕ) : ℝ := (2 : ℝ) ^ (-(p : ℤ))

private theorem unit_nonneg : 0 ≤ unit p := by unfold unit; positivity

private theorem unit_lt (hp : 1 ≤ p) : unit p < 1 := by
  unfold unit
  rw [zpow_neg, zpow_natCast]
  exact inv_lt_one_of_one_lt₀ (one_lt_pow₀ (by norm_num) (by omega))

/-- **C86.**  The mean of finite samples: the error is at most `(1 + u)^(n + 1) - 1` times the mean of the absolute
values. -/
theorem mean_accurate (hp : 1 ≤ p) (h : Nearest p fl) {xs : List ℝ} (hne : xs ≠ []) (hn : xs.length ≤ 2 ^ p) :
    ∃ m, meanOf (xs.map (Fl.fin (fl := fl))) = Fl.fin m ∧
      |m - mean xs| ≤ ((1 + unit p) ^ (xs.length + 1) - 1) * mean (xs.map abs) :=
  ⟨_, meanOf_fin hp h hne hn, flMean_near unit_nonneg (nearest_rel hp h) hne⟩

/-- **C86.**  The means of the same samples in two orders of processing differ by at most twice that bound. -/
theorem order_bound (hp : 1 ≤ p) (h : Nearest p fl) {xs ys : List ℝ} (hxy : xs.Perm ys) (hne : xs ≠ [])
    (hn : xs.length ≤ 2 ^ p) :
    ∃ a b, meanOf (xs.map (Fl.fin (fl := fl))) = Fl.fin a ∧ meanOf (ys.map (Fl.fin (fl := fl))) = Fl.fin b ∧
      |a - b| ≤ 2 * ((1 + unit p) ^ (xs.length + 1) - 1) * mean (xs.map abs) := by
  have hl := hxy.length_eq
  have hne' : ys ≠ [] := by
    rintro rfl
    exact hne hxy.eq_nil
  obtain ⟨a, ha, ha'⟩ := mean_accurate hp h hne hn
  obtain ⟨b, hb, hb'⟩ := mean_accurate hp h hne' (hl ▸ hn)
  have e1 : mean ys = mean xs := by unfold mean; rw [hxy.sum_eq, hl]
  have e2 : mean (ys.map abs) = mean (xs.map abs) := by
    unfold mean
    rw [(hxy.map abs).sum_eq, List.length_map, List.length_map, hl]
  rw [e1, e2, ← hl] at hb'
  refine ⟨a, b, ha, hb, ?_⟩
  have : a - b = (a - mean xs) - (b - mean xs) := by ring
  rw [this]
  refine (abs_sub _ _).trans ?_
  linarith

/-- **C86.**  The standard deviation is not underestimated beyond rounding, and overestimated by no more than twice the
error of the mean. -/
theorem std_accurate (hp : 1 ≤ p) (h : Nearest p fl) {xs : List ℝ} (h2 : 2 ≤ xs.length) (hn : xs.length ≤ 2 ^ p) :
    ∃ s, stdOf (xs.map (Fl.fin (fl := fl))) = Fl.fin s ∧
      (1 - unit p) ^ (xs.length + 5) * sampleStd xs ≤ s ∧
      s ≤ (1 + unit p) ^ (xs.length + 5) *
        (sampleStd xs + 2 * (((1 + unit p) ^ (xs.length + 1) - 1) * mean (xs.map abs))) :=
  ⟨_, stdOf_fin hp h unit_nonneg (unit_lt hp) (nearest_rel hp h) h2 hn,
    flStd_bounds unit_nonneg (unit_lt hp) (nearest_rel hp h) h2⟩

/-- **C86.**  The error of the estimate, for a quantile `z`. -/
theorem error_accurate (hp : 1 ≤ p) (h : Nearest p fl) {z : ℝ} (hz : 0 ≤ z) {xs : List ℝ} (h2 : 2 ≤ xs.length)
    (hn : xs.length ≤ 2 ^ p) :
    ∃ e, errorOf (Fl.fin z) (xs.map (Fl.fin (fl := fl))) = Fl.fin e ∧
      (1 - unit p) ^ (xs.length + 8) * standardError z xs ≤ e ∧
      (1 - unit p) * e ≤ (1 + unit p) ^ (xs.length + 7) *
        (z * (sampleStd xs + 2 * (((1 + unit p) ^ (xs.length + 1) - 1) * mean (xs.map abs))) / Real.sqrt xs.length) := by
  have hu : 0 ≤ unit p := unit_nonneg
  have h1 : unit p < 1 := unit_lt hp
  have hfl : Rel (unit p) fl := nearest_rel hp h
  obtain ⟨s, hs, hlo, hhi⟩ := std_accurate hp h h2 hn
  have hs0 : 0 ≤ s := (mul_nonneg (pow_nonneg (by linarith) _) (Real.sqrt_nonneg _)).trans hlo
  have hr : (2 : ℝ) ≤ xs.length := by exact_mod_cast h2
  have hq : 0 < Real.sqrt xs.length := Real.sqrt_pos.2 (by linarith)
  have hQ := (near_self (u := unit p) hq.le).round hu h1 hfl
  obtain ⟨-, hQ1, hQ2⟩ := hQ
  rw [zero_add, pow_one] at hQ1 hQ2
  have hQ0 : 0 < fl (Real.sqrt xs.length) := (mul_pos (by linarith) hq).trans_le hQ1
  have hM := (near_self (u := unit p) (mul_nonneg hz hs0)).round hu h1 hfl
  have hD := (hM.div hQ0).round hu h1 hfl
  obtain ⟨-, hD1, hD2⟩ := hD
  refine ⟨fl (fl (z * s) / fl (Real.sqrt xs.length)), ?_, ?_, ?_⟩
  · unfold errorOf
    rw [hs, mul_fin, List.length_map, RoundedConvergence.ofNat_fin, fl_nat hp h hn, RoundedConvergence.sqrt_fin (by linarith), div_fin hQ0.ne']
  · refine le_trans ?_ hD1
    have h3 : (1 - unit p) * (z * s / Real.sqrt xs.length) ≤ z * s / fl (Real.sqrt xs.length) := by
      rw [← mul_div_assoc, div_le_div_iff₀ hq hQ0]
      have h5 : (1 - unit p) * fl (Real.sqrt xs.length) ≤ Real.sqrt xs.length := by
        have := mul_le_mul_of_nonneg_left hQ2 (by linarith : (0 : ℝ) ≤ 1 - unit p)
        nlinarith [mul_nonneg (mul_nonneg hu hu) hq.le]
      have := mul_le_mul_of_nonneg_left h5 (mul_nonneg hz hs0)
      nlinarith
    have h4 : (1 - unit p) ^ (xs.length + 5) * standardError z xs ≤ z * s / Real.sqrt xs.length := by
      unfold standardError
      rw [← mul_div_assoc]
      refine div_le_div_of_nonneg_right ?_ hq.le
      have := mul_le_mul_of_nonneg_left hlo hz
      linarith
    have e : (1 - unit p) ^ (xs.length + 8) * standardError z xs =
        (1 - unit p) ^ (0 + 1 + 1) * ((1 - unit p) * ((1 - unit p) ^ (xs.length + 5) * standardError z xs)) := by ring
    rw [e]
    refine mul_le_mul_of_nonneg_left (le_trans ?_ h3) (pow_nonneg (by linarith) _)
    exact mul_le_mul_of_nonneg_left h4 (by linarith)
  · have h3 : (1 - unit p) * (z * s / fl (Real.sqrt xs.length)) ≤ z * s / Real.sqrt xs.length := by
      rw [← mul_div_assoc, div_le_div_iff₀ hQ0 hq]
      have := mul_le_mul_of_nonneg_left hQ1 (mul_nonneg hz hs0)
      nlinarith
    have h4 : z * s / Real.sqrt xs.length ≤ (1 + unit p) ^ (xs.length + 5) *
        (z * (sampleStd xs + 2 * (((1 + unit p) ^ (xs.length + 1) - 1) * mean (xs.map abs))) / Real.sqrt xs.length) := by
      rw [← mul_div_assoc]
      refine div_le_div_of_nonneg_right ?_ hq.le
      have := mul_le_mul_of_nonneg_left hhi hz
      linarith
    have h5 := mul_le_mul_of_nonneg_left hD2 (by linarith : (0 : ℝ) ≤ 1 - unit p)
    refine h5.trans ?_
    have h6 := mul_le_mul_of_nonneg_left (h3.trans h4) (pow_nonneg (by linarith : (0 : ℝ) ≤ 1 + unit p) (0 + 1 + 1))
    refine le_trans (le_of_eq (by ring)) (h6.trans (le_of_eq (by ring)))

/-- **C86.**  An inquiry that is reported as converged has a standard error below the tolerance, up to rounding. -/
theorem converged_accurate (hp : 1 ≤ p) (h : Nearest p fl) {z atol rtol : ℝ} (hz : 0 ≤ z) {xs : List ℝ}
    (h2 : 2 ≤ xs.length) (hn : xs.length ≤ 2 ^ p)
    (hc : meetsTol (Fl.fin z) (Fl.fin atol) (Fl.fin rtol) (xs.map (Fl.fin (fl := fl))) = true) :
    ∃ m, |m - mean xs| ≤ ((1 + unit p) ^ (xs.length + 1) - 1) * mean (xs.map abs) ∧
      (1 - unit p) ^ (xs.length + 8) * standardError z xs < max atol (fl (rtol * m)) := by
  have hne : xs ≠ [] := by rintro rfl; simp at h2
  obtain ⟨m, hm, hm'⟩ := mean_accurate hp h hne hn
  obtain ⟨e, he, he', -⟩ := error_accurate hp h hz h2 hn
  refine ⟨m, hm', he'.trans_lt ?_⟩
  unfold meetsTol at hc
  rw [he, hm, mul_fin] at hc
  have hmax : (FloatLike.max (Fl.fin atol : Fl fl) (Fl.fin (fl (rtol * m)))) = Fl.fin (max atol (fl (rtol * m))) :=
    Convergence.max_fin atol (fl (rtol * m))
  rw [hmax] at hc
  exact of_decide_eq_true hc

/-- **C86.**  The reported trace is the accurate mean of the samples that are kept, and the reported error is accurate for
them.  A sample is kept if its rounded distance from a mean of all samples, accurate in the same sense, is at most a
rounded multiple of the standard deviation. -/
theorem trace_accurate (hp : 1 ≤ p) (h : Nearest p fl) {ez oz : ℝ} (hz : 0 ≤ ez) {xs : List ℝ} (h2 : 2 ≤ xs.length)
    (hn : xs.length ≤ 2 ^ p) :
    ∃ m s, meanOf (xs.map (Fl.fin (fl := fl))) = Fl.fin m ∧
      |m - mean xs| ≤ ((1 + unit p) ^ (xs.length + 1) - 1) * mean (xs.map abs) ∧
      stdOf (xs.map (Fl.fin (fl := fl))) = Fl.fin s ∧
      ∀ kept, kept = xs.filter (fun x => decide (|fl (x - m)| ≤ fl (oz * s))) → ∀ r,
        r = averageEstimate (Fl.fin ez) (Fl.fin oz) (xs.map (Fl.fin (fl := fl))) →
        r.numOutliers = xs.length - kept.length ∧
        (kept ≠ [] → ∃ t, r.trace = Fl.fin t ∧
          |t - mean kept| ≤ ((1 + unit p) ^ (kept.length + 1) - 1) * mean (kept.map abs)) ∧
        (2 ≤ kept.length → ∃ e, r.error = Fl.fin e ∧
          (1 - unit p) ^ (kept.length + 8) * standardError ez kept ≤ e ∧
          (1 - unit p) * e ≤ (1 + unit p) ^ (kept.length + 7) *
            (ez * (sampleStd kept + 2 * (((1 + unit p) ^ (kept.length + 1) - 1) * mean (kept.map abs))) /
              Real.sqrt kept.length)) := by
  have hne : xs ≠ [] := by rintro rfl; simp at h2
  obtain ⟨m, hm, hm'⟩ := mean_accurate hp h hne hn
  obtain ⟨s, hs, -⟩ := std_accurate hp h h2 hn
  refine ⟨m, s, hm, hm', hs, ?_⟩
  rintro kept hkept r rfl
  have hout : ∀ x : ℝ, (!isOutlier (Fl.fin m : Fl fl) (Fl.fin (fl (oz * s))) (Fl.fin x)) =
      decide (|fl (x - m)| ≤ fl (oz * s)) := by
    intro x
    have : isOutlier (Fl.fin m : Fl fl) (Fl.fin (fl (oz * s))) (Fl.fin x) = decide (fl (oz * s) < |fl (x - m)|) := by
      unfold isOutlier
      rw [sub_fin]
      rfl
    rw [this, ← decide_not]
    simp only [not_lt]
  have hfilter : (xs.map (Fl.fin (fl := fl))).filter (fun x => !isOutlier (Fl.fin m) (Fl.fin (fl (oz * s))) x) =
      kept.map Fl.fin := by
    rw [hkept, List.filter_map]
    congr 1
    refine List.filter_congr fun x _ => ?_
    exact hout x
  have hcount : (xs.map (Fl.fin (fl := fl))).length -
      (xs.map (Fl.fin (fl := fl))).countP (fun x => isOutlier (Fl.fin m) (Fl.fin (fl (oz * s))) x) = kept.length := by
    have h3 := List.length_eq_countP_add_countP
      (fun x => isOutlier (Fl.fin m : Fl fl) (Fl.fin (fl (oz * s))) x) (l := xs.map (Fl.fin (fl := fl)))
    have h4 : (xs.map (Fl.fin (fl := fl))).countP
        (fun x => decide ¬ isOutlier (Fl.fin m) (Fl.fin (fl (oz * s))) x = true) = kept.length := by
      rw [← List.length_map (Fl.fin (fl := fl)) (as := kept), ← hfilter, List.countP_eq_length_filter]
      congr 1
      refine List.filter_congr fun x _ => ?_
      cases isOutlier (Fl.fin m) (Fl.fin (fl (oz * s))) x <;> rfl
    omega
  have hle : kept.length ≤ xs.length := by rw [hkept]; exact List.length_filter_le _ _
  have hc' : (xs.map (Fl.fin (fl := fl))).countP (fun x => isOutlier (Fl.fin m) (Fl.fin (fl (oz * s))) x) =
      xs.length - kept.length := by
    have h5 := List.countP_le_length (p := fun x => isOutlier (Fl.fin m : Fl fl) (Fl.fin (fl (oz * s))) x)
      (l := xs.map (Fl.fin (fl := fl)))
    rw [List.length_map] at h5 hcount
    omega
  have hmain : averageEstimate (Fl.fin ez) (Fl.fin oz) (xs.map (Fl.fin (fl := fl))) =
      ⟨meanOf (kept.map Fl.fin), errorOf (Fl.fin ez) (kept.map Fl.fin), xs.length - kept.length⟩ := by
    unfold averageEstimate
    simp only [hm, hs, mul_fin, hfilter, hc', List.length_map]
    have e1 : xs.length - (xs.length - kept.length) = kept.length := by omega
    have e2 : (1 + (xs.length - kept.length) < xs.length) = (1 < kept.length) := by
      apply propext
      omega
    simp only [e1, e2, errorOf, stdOf, meanOf, List.length_map]
  rw [hmain]
  refine ⟨rfl, fun hk => mean_accurate hp h hk (hle.trans hn), fun hk => error_accurate hp h hz hk (hle.trans hn)⟩

/-! ### Negations -/

private theorem big_add_one (hp : 1 ≤ p) (h : Nearest p fl) : fl ((2 : ℝ) ^ (p + 1) + 1) = (2 : ℝ) ^ (p + 1) := by
  refine le_antisymm (stagnate hp h le_rfl) ?_
  by_contra hc
  push Not at hc
  have h1 := (h ((2 : ℝ) ^ (p + 1) + 1)).2 _ (representable_pow hp (p + 1))
  rw [abs_of_neg (by linarith), abs_of_neg (by linarith)] at h1
  linarith

/-- The mean depends on the order in which the threads process the samples: in one order it is 0, in another 1/4. -/
theorem order_matters (hp : 2 ≤ p) (h : Nearest p fl) :
    ∃ xs ys : List ℝ, (∀ x ∈ xs, Representable p x) ∧ xs.Perm ys ∧
      meanOf (xs.map (Fl.fin (fl := fl))) = Fl.fin 0 ∧ meanOf (ys.map (Fl.fin (fl := fl))) = Fl.fin (1 / 4) := by
  have hp1 : 1 ≤ p := by omega
  have h4 : (4 : ℕ) ≤ 2 ^ p := by
    calc (4 : ℕ) = 2 ^ 2 := by norm_num
      _ ≤ 2 ^ p := Nat.pow_le_pow_right (by norm_num) hp
  have r0 : Representable p 0 := representable_zero p
  have r1 : Representable p 1 := by simpa using representable_pow hp1 0
  have rB : Representable p ((2 : ℝ) ^ (p + 1)) := representable_pow hp1 (p + 1)
  have rN : Representable p (-(2 : ℝ) ^ (p + 1)) := by
    obtain ⟨s, e, hs, he⟩ := rB
    exact ⟨-s, e, by rwa [abs_neg], by rw [he]; push_cast; ring⟩
  have rq : Representable p (1 / 4 : ℝ) := by
    refine ⟨1, -2, ?_, by norm_num⟩
    rw [abs_one]
    exact one_lt_pow₀ (by norm_num) (by omega)
  have f0 := fl_self h r0
  have f1 := fl_self h r1
  have fB := fl_self h rB
  have fq := fl_self h rq
  have fs := big_add_one hp1 h
  refine ⟨[2 ^ (p + 1), 1, -2 ^ (p + 1), 0], [2 ^ (p + 1), -2 ^ (p + 1), 1, 0], ?_, ?_, ?_, ?_⟩
  · intro x hx
    simp only [List.mem_cons, List.not_mem_nil, or_false] at hx
    rcases hx with rfl | rfl | rfl | rfl <;> assumption
  · exact List.Perm.cons _ (List.Perm.swap _ _ _)
  · rw [meanOf_fin hp1 h (by simp) (by simpa using h4)]
    simp [flMean, flSum, fB, fs, f0]
  · rw [meanOf_fin hp1 h (by simp) (by simpa using h4)]
    have : (1 : ℝ) / 4 = 4⁻¹ := by norm_num
    rw [this] at fq
    simp [flMean, flSum, fB, f0, f1, fq]

/-- Without a limit of the number of samples the mean is wrong: that of `2^(p+2)` ones (`2^26` in single precision) is at
most 1/2. -/
theorem many_samples_wrong (hp : 1 ≤ p) (h : Nearest p fl) :
    ∃ m, meanOf ((List.replicate (2 ^ (p + 2)) (1 : ℝ)).map (Fl.fin (fl := fl))) = Fl.fin m ∧ m ≤ 1 / 2 ∧
      mean (List.replicate (2 ^ (p + 2)) (1 : ℝ)) = 1 := by
  have hN : (0 : ℝ) < (2 : ℝ) ^ (p + 2) := by positivity
  have f0 := fl_self h (representable_zero p)
  have fN := fl_self h (representable_pow hp (p + 2))
  have hsum : ∀ k : ℕ, ∀ a : ℝ, a ≤ (2 : ℝ) ^ (p + 1) →
      (List.replicate k (1 : ℝ)).foldl (fun s x => fl (s + x)) a ≤ (2 : ℝ) ^ (p + 1) := by
    intro k
    induction k with
    | zero => intro a ha; exact ha
    | succ k ih => intro a ha; exact ih _ (stagnate hp h ha)
  refine ⟨fl (flSum fl (List.replicate (2 ^ (p + 2)) (1 : ℝ)) / (2 : ℝ) ^ (p + 2)), ?_, ?_, ?_⟩
  · unfold meanOf
    rw [sumOf_fin f0, RoundedConvergence.ofNat_fin, List.length_map, List.length_replicate]
    push_cast
    rw [fN, div_fin hN.ne']
  · have h1 : flSum fl (List.replicate (2 ^ (p + 2)) (1 : ℝ)) / (2 : ℝ) ^ (p + 2) ≤ 1 / 2 := by
      rw [div_le_iff₀ hN]
      have := hsum (2 ^ (p + 2)) 0 (by positivity)
      have e : (1 : ℝ) / 2 * 2 ^ (p + 2) = 2 ^ (p + 1) := by ring
      rw [e]
      exact this
    have rh : Representable p (1 / 2 : ℝ) := by
      refine ⟨1, -1, ?_, by norm_num⟩
      rw [abs_one]
      exact one_lt_pow₀ (by norm_num) (by omega)
    by_contra hc
    push Not at hc
    have h2 := (h (flSum fl (List.replicate (2 ^ (p + 2)) (1 : ℝ)) / (2 : ℝ) ^ (p + 2))).2 _ rh
    rw [abs_of_nonneg (by linarith), abs_of_nonneg (by linarith)] at h2
    linarith
  · unfold mean
    rw [List.sum_replicate, List.length_replicate, nsmul_eq_mul, mul_one]
    exact div_self (by positivity)

/-! ### The hypotheses are met -/

/-- Double precision and three samples. -/
example : ∃ fl, Nearest 53 fl ∧ ∃ m, meanOf ([1, 2, 4].map (Fl.fin (fl := fl))) = Fl.fin m ∧
    |m - mean [1, 2, 4]| ≤ ((1 + unit 53) ^ 4 - 1) * mean ([1, 2, 4].map abs) :=
  ⟨roundTo 53, roundTo_nearest (by norm_num), mean_accurate (by norm_num) (roundTo_nearest (by norm_num)) (by simp)
    (by norm_num)⟩

example := trace_accurate (p := 53) (by norm_num) (roundTo_nearest (by norm_num)) (ez := 2) (oz := 3) (by norm_num)
  (xs := [1, 2, 4]) (by norm_num) (by norm_num)

example := order_matters (p := 24) (by norm_num) (roundTo_nearest (by norm_num))

end Imate.Props.RoundedConvergence
