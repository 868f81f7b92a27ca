import Verif.Lemmas.Plot
import Verif.Props.Convergence

/-!
# C66: the convergence plot shows the run

`plot=True` draws, after each processed sample, the mean of the samples so far and its error.
`xs` are the used samples of an inquiry in the order in which they were processed; `z` is the
quantile of the confidence level and `q` that of the outliers (`sqrt(2) erfinv(0.999) = 3.29`).
-/

namespace Imate.Props
open Imate Imate.Plot Imate.Convergence Imate.Spec

/-- C66: each plotted mean is the mean of the samples processed so far, the outliers left out, and
each plotted error is `z` times their standard deviation over the root of the number of samples
processed; where all samples so far are outliers nothing is drawn. -/
theorem plot_points {z q : ℝ} {cols : List (List (XR ℝ) × ℕ)} {order : List ℕ}
    {curves : List (List (Point ℝ))} (hplot : plotConvergence (XR.fin z) (XR.fin q) cols order = .ok curves)
    {j : ℕ} {col : List (XR ℝ)} {xs : List ℝ} (hj : cols[j]? = some (col, xs.length))
    (hcol : (order.take xs.length).map (fun r => col.getD r .nan) = xs.map XR.fin)
    {i : ℕ} (hi : i < xs.length) :
    ∃ c p, curves[j]? = some c ∧ c.length = xs.length ∧ c[i]? = some p ∧
      let ks := (xs.take (i + 1)).filter (near q xs)
      (ks = [] → p.mean = .nan ∧ p.abs = .nan ∧ p.rel = .nan) ∧
      (ks ≠ [] → p.mean = .fin (mean ks) ∧ p.abs = .fin (z * populationStd ks / Real.sqrt (i + 1)) ∧
        (mean ks ≠ 0 → p.rel = .fin (z * populationStd ks / Real.sqrt (i + 1) / |mean ks|))) := by
  have hne : xs ≠ [] := by rintro rfl; simp at hi
  have hc : curves = cols.map (fun c => curve (XR.fin z) (XR.fin q) c.1 order c.2) := by
    unfold plotConvergence at hplot
    dsimp only at hplot
    split at hplot
    · simp at hplot
    · exact (Except.ok.inj hplot).symm
  have hcol' : gather col order xs.length = xs.map XR.fin := hcol
  refine ⟨curve (XR.fin z) (XR.fin q) col order xs.length, _, ?_, by simp [curve], curve_get hi, ?_, ?_⟩
  · rw [hc, List.getElem?_map, hj]; rfl
  · intro hk
    rw [cumulative_empty _ q hne hcol' hi hk]
    exact ⟨rfl, rfl, rfl⟩
  · intro hk
    rw [cumulative_fin z q hne hcol' hi hk]
    refine ⟨rfl, ?_, ?_⟩
    · push_cast; rfl
    · intro hm
      dsimp only
      rw [div_fin _ _ (abs_ne_zero.2 hm)]
      push_cast; rfl

/-- C66: with few samples (`n - 1 ≤ q²`, that is up to eleven with the built-in level) the plot
leaves no sample out, whatever the samples are. -/
theorem plot_few_samples_keep_all {xs : List ℝ} {q : ℝ} (hq : 0 ≤ q) (hn : (xs.length : ℝ) - 1 ≤ q ^ 2) :
    xs.filter (near q xs) = xs := by
  rw [List.filter_eq_self]
  intro x hx
  simp only [near, decide_eq_true_eq]
  refine (deviation_le hx).trans (mul_le_mul_of_nonneg_right ?_ (populationStd_nonneg _))
  rw [← Real.sqrt_sq hq]
  exact Real.sqrt_le_sqrt hn

/-- C66: some sample is always drawn. -/
theorem plot_some_sample_kept {xs : List ℝ} (hne : xs ≠ []) {q : ℝ} (hq : 1 ≤ q) :
    xs.filter (near q xs) ≠ [] := some_near hne hq

/-- C66 (partial: the errors differ).  When the plot and the estimator leave out the same samples, the
last plotted mean is the reported trace, but the last plotted error is the reported error times
`sqrt ((k - 1) / n)`, with `k` samples kept out of `n`. -/
theorem plot_last_point_partial {z q outlierZ : ℝ} {col : List (XR ℝ)} {order : List ℕ} {xs : List ℝ}
    (hcol : (order.take xs.length).map (fun r => col.getD r .nan) = xs.map XR.fin)
    (hsame : retained outlierZ xs = xs.filter (near q xs)) (hk : 2 ≤ (retained outlierZ xs).length) :
    ∃ p e, (curve (XR.fin z) (XR.fin q) col order xs.length).getLast? = some p ∧
      let r := averageEstimate (XR.fin z) (XR.fin outlierZ) (xs.map XR.fin)
      r.error = .fin e ∧ p.mean = r.trace ∧
      p.abs = .fin (e * Real.sqrt ((((retained outlierZ xs).length : ℝ) - 1) / xs.length)) := by
  have hle : (retained outlierZ xs).length ≤ xs.length := List.length_filter_le _ _
  have hn : 2 ≤ xs.length := by omega
  have hne : xs ≠ [] := by rintro rfl; simp at hn
  have hkne : retained outlierZ xs ≠ [] := by intro h; rw [h] at hk; simp at hk
  obtain ⟨h1, -, h3⟩ := estimate_is_mean_of_retained hn z outlierZ hkne
  have htake : xs.take (xs.length - 1 + 1) = xs := by
    rw [Nat.sub_add_cancel (by omega), List.take_length]
  have hkn' : (xs.take (xs.length - 1 + 1)).filter (near q xs) ≠ [] := by
    rw [htake, ← hsame]; exact hkne
  refine ⟨_, _, curve_last (by omega), h3 hk, ?_, ?_⟩
  · rw [cumulative_fin z q hne hcol (by omega) hkn', h1]
    dsimp only
    rw [htake, hsame]
  · rw [cumulative_fin z q hne hcol (by omega) hkn']
    dsimp only
    rw [htake, ← hsame, Nat.sub_add_cancel (by omega), standardError, populationStd_eq hk]
    congr 1
    generalize retained outlierZ xs = ks at *
    have hk1 : (2 : ℝ) ≤ ks.length := by exact_mod_cast hk
    have hn1 : (2 : ℝ) ≤ xs.length := by exact_mod_cast hn
    rw [Real.sqrt_div (by linarith), Real.sqrt_div (by linarith)]
    have a1 : Real.sqrt (ks.length : ℝ) ≠ 0 := (Real.sqrt_pos.2 (by linarith)).ne'
    have a2 : Real.sqrt (xs.length : ℝ) ≠ 0 := (Real.sqrt_pos.2 (by linarith)).ne'
    field_simp

/-- C66 refuted: the plot understates the error.  Whenever the same samples are left out and two kept
samples differ, the last plotted error is smaller than the reported one. -/
theorem plot_error_understated {z q outlierZ : ℝ} (hz : 0 < z) {col : List (XR ℝ)} {order : List ℕ}
    {xs : List ℝ}
    (hcol : (order.take xs.length).map (fun r => col.getD r .nan) = xs.map XR.fin)
    (hsame : retained outlierZ xs = xs.filter (near q xs)) {x y : ℝ} (hx : x ∈ retained outlierZ xs)
    (hy : y ∈ retained outlierZ xs) (hxy : x ≠ y) :
    ∃ p e a, (curve (XR.fin z) (XR.fin q) col order xs.length).getLast? = some p ∧
      (averageEstimate (XR.fin z) (XR.fin outlierZ) (xs.map XR.fin)).error = .fin e ∧
      p.abs = .fin a ∧ a < e := by
  have hk : 2 ≤ (retained outlierZ xs).length := by
    generalize retained outlierZ xs = ks at *
    match ks with
    | [] => simp at hx
    | [u] => simp at hx hy; exact absurd (hx.trans hy.symm) hxy
    | _ :: _ :: _ => simp
  have hle : (retained outlierZ xs).length ≤ xs.length := List.length_filter_le _ _
  have hkne : retained outlierZ xs ≠ [] := by intro h; rw [h] at hk; simp at hk
  obtain ⟨p, e, hp, he, -, ha⟩ := plot_last_point_partial (z := z) hcol hsame hk
  refine ⟨p, e, _, hp, he, ha, ?_⟩
  have h3 := (estimate_is_mean_of_retained (by omega) z outlierZ hkne).2.2 hk
  rw [h3] at he
  have he' : standardError z (retained outlierZ xs) = e := XR.fin.inj he
  have hk1 : (2 : ℝ) ≤ (retained outlierZ xs).length := by exact_mod_cast hk
  have hle1 : ((retained outlierZ xs).length : ℝ) ≤ xs.length := by exact_mod_cast hle
  have hpos : 0 < e := by
    rw [← he', standardError]
    have h4 := (populationStd_pos hx hy hxy).trans_le (populationStd_le_sampleStd hk)
    have h5 : 0 < Real.sqrt ((retained outlierZ xs).length : ℝ) := Real.sqrt_pos.2 (by linarith)
    positivity
  have hs : Real.sqrt ((((retained outlierZ xs).length : ℝ) - 1) / xs.length) < 1 := by
    rw [Real.sqrt_lt' one_pos, div_lt_iff₀ (by linarith)]
    linarith
  nlinarith

/-- C66: a run that is marked as converged is drawn below the tolerance at its last sample, if no
sample is left out. -/
theorem plot_converged_below {z q : ℝ} (hz : 0 ≤ z) {col : List (XR ℝ)} {order : List ℕ} {xs : List ℝ}
    (hn : 2 ≤ xs.length) (hcol : (order.take xs.length).map (fun r => col.getD r .nan) = xs.map XR.fin)
    (hall : xs.filter (near q xs) = xs) {atol rtol : ℝ}
    (hconv : meetsTol (XR.fin z) (XR.fin atol) (XR.fin rtol) (xs.map XR.fin) = true) :
    ∃ p a, (curve (XR.fin z) (XR.fin q) col order xs.length).getLast? = some p ∧
      p.mean = .fin (mean xs) ∧ p.abs = .fin a ∧ a < max atol (rtol * mean xs) := by
  have hne : xs ≠ [] := by rintro rfl; simp at hn
  have hn1 : (2 : ℝ) ≤ xs.length := by exact_mod_cast hn
  have htake : xs.take (xs.length - 1 + 1) = xs := by
    rw [Nat.sub_add_cancel (by omega), List.take_length]
  have hkn' : (xs.take (xs.length - 1 + 1)).filter (near q xs) ≠ [] := by
    rw [htake, hall]; exact hne
  have hc := (meetsTol_fin hn z atol rtol)
  rw [hc] at hconv
  refine ⟨_, z * populationStd xs / Real.sqrt xs.length, curve_last (by omega), ?_, ?_, ?_⟩
  · rw [cumulative_fin z q hne hcol (by omega) hkn']
    dsimp only
    rw [htake, hall]
  · rw [cumulative_fin z q hne hcol (by omega) hkn']
    dsimp only
    rw [htake, hall, Nat.sub_add_cancel (by omega)]
  · have h1 : standardError z xs < max atol (rtol * mean xs) := by simpa using hconv
    refine lt_of_le_of_lt ?_ h1
    unfold standardError
    have := populationStd_le_sampleStd hn
    have hs : 0 ≤ Real.sqrt (xs.length : ℝ) := Real.sqrt_nonneg _
    exact div_le_div_of_nonneg_right (mul_le_mul_of_nonneg_left this hz) hs

/-- C66 refuted: the plot can be below the tolerance at its last sample although the run has not
converged: samples 1 and 3, absolute tolerance 9/10. -/
theorem plot_below_not_converged :
    ∃ (p : Point ℝ) (a : ℝ), (curve (XR.fin (1 : ℝ)) (XR.fin 3) [XR.fin 1, XR.fin 3] [0, 1] 2).getLast? = some p ∧
      p.abs = .fin a ∧ a < 9 / 10 ∧
      meetsTol (XR.fin 1) (XR.fin (9 / 10)) (XR.fin 0) ([1, 3].map XR.fin : List (XR ℝ)) = false := by
  have hm : mean [1, 3] = 2 := by norm_num [mean]
  have hd : sqDev 2 [1, 3] = 2 := by norm_num [sqDev]
  have hp : populationStd [1, 3] = 1 := by
    rw [populationStd, hm, hd]; norm_num
  have hcol : gather [XR.fin 1, XR.fin 3] [0, 1] ([1, 3] : List ℝ).length = ([1, 3].map XR.fin : List (XR ℝ)) := by
    simp [gather]
  have hall := plot_few_samples_keep_all (xs := [1, 3]) (q := 3) (by norm_num) (by norm_num)
  refine ⟨_, 1 / Real.sqrt 2, curve_last (by norm_num), ?_, ?_, ?_⟩
  · have h := cumulative_fin (xs := [1, 3]) (i := 1) 1 3 (by simp) hcol (by simp) (by
        show List.filter (near 3 [1, 3]) [1, 3] ≠ []
        rw [hall]; simp)
    have h' := congrArg Point.abs h
    refine h'.trans ?_
    show XR.fin (1 * populationStd (List.filter (near 3 [1, 3]) [1, 3]) / _) = _
    rw [hall, hp]
    norm_num
  · rw [div_lt_iff₀ (Real.sqrt_pos.2 (by norm_num))]
    have : (10 / 9 : ℝ) < Real.sqrt 2 := by
      apply Real.lt_sqrt_of_sq_lt; norm_num
    linarith
  · rw [meetsTol_fin (by simp)]
    simp only [decide_eq_false_iff_not, not_lt]
    rw [standardError, sampleStd, hm, hd]
    norm_num

/-- C66 refuted: after the first sample the plot shows the error zero, where the estimator reports
an infinite error. -/
theorem plot_first_error_zero {z q : ℝ} (hz : 0 < z) {col : List (XR ℝ)} {order : List ℕ} {xs : List ℝ}
    {x : ℝ} (hx : xs.head? = some x)
    (hcol : (order.take xs.length).map (fun r => col.getD r .nan) = xs.map XR.fin)
    (hkeep : near q xs x = true) :
    ∃ p, (curve (XR.fin z) (XR.fin q) col order xs.length)[0]? = some p ∧ p.abs = .fin 0 ∧
      errorOf (XR.fin z) [XR.fin x] = (.pinf : XR ℝ) := by
  obtain ⟨ys, rfl⟩ : ∃ ys, xs = x :: ys := by
    cases xs with
    | nil => simp at hx
    | cons a as => simp at hx; exact ⟨as, by rw [hx]⟩
  have hk : ((x :: ys).take (0 + 1)).filter (near q (x :: ys)) = [x] := by
    simp [hkeep]
  refine ⟨_, curve_get (by simp), ?_, ?_⟩
  · rw [cumulative_fin z q (by simp) hcol (by simp) (by rw [hk]; simp)]
    dsimp only
    rw [hk]
    simp [populationStd, sqDev, mean]
  · have : (errorOf (XR.fin z) [XR.fin x] : XR ℝ) =
        XR.div (XR.signedInf z) (XR.sqrt (XR.fin ((1 : ℕ) : ℝ))) := rfl
    rw [this]
    have h2 : (XR.sqrt (XR.fin ((1 : ℕ) : ℝ)) : XR ℝ) = XR.fin (Real.sqrt ((1 : ℕ) : ℝ)) :=
      sqrt_fin (by norm_num)
    rw [h2]
    simp [XR.signedInf, hz, XR.div]

theorem populationStd_replicate (n : ℕ) (c : ℝ) : populationStd (List.replicate n c) = 0 := by
  rcases Nat.eq_zero_or_pos n with rfl | hn
  · simp [populationStd, sqDev]
  · have hm : mean (List.replicate n c) = c := by
      have : (n : ℝ) ≠ 0 := by exact_mod_cast hn.ne'
      simp [mean]
      field_simp
    rw [populationStd, hm]
    simp [sqDev]

/-- C66 refuted: when all samples of a run with one parameter are equal, as for a multiple of the
identity matrix, `plot=True` raises `ValueError` after the whole computation. -/
theorem plot_equal_samples_raises {z q : ℝ} {col : List (XR ℝ)} {order : List ℕ} {n : ℕ}
    (hn : 0 < n) {c : ℝ}
    (hcol : (order.take n).map (fun r => col.getD r .nan) = (List.replicate n c).map XR.fin) :
    plotConvergence (XR.fin z) (XR.fin q) [(col, n)] order = .error .valueError := by
  set xs := List.replicate n c with hxs
  have hlen : xs.length = n := by simp [hxs]
  have hne : xs ≠ [] := by intro h; rw [h] at hlen; simp at hlen; omega
  have hm : mean xs = c := by
    have : (n : ℝ) ≠ 0 := by exact_mod_cast hn.ne'
    simp [mean, hxs]
    field_simp
  have hnear : ∀ x ∈ xs, near q xs x = true := by
    intro x hx
    rw [near, hxs, populationStd_replicate, ← hxs, hm]
    rw [hxs, List.mem_replicate] at hx
    simp [hx.2]
  have hpt : ∀ i < n, cumulative (XR.fin z) (removeOutliers (XR.fin q) col order n) order i =
      ⟨XR.fin c, XR.fin 0, FloatLike.div (XR.fin 0) (XR.fin |c|)⟩ := by
    intro i hi
    have hk : (xs.take (i + 1)).filter (near q xs) = List.replicate (i + 1) c := by
      rw [List.filter_eq_self.2 (fun x hx => hnear x (List.mem_of_mem_take hx)), hxs, List.take_replicate,
        min_eq_left (by omega)]
    have hcol' : gather col order xs.length = xs.map XR.fin := by rw [hlen]; exact hcol
    have h := cumulative_fin z q hne hcol' (i := i) (by omega) (by rw [hk]; simp)
    rw [hlen] at h
    rw [h]
    dsimp only
    rw [hk, populationStd_replicate]
    have : mean (List.replicate (i + 1) c) = c := by
      have : ((i : ℝ) + 1) ≠ 0 := by positivity
      simp [mean]
      field_simp
    rw [this]
    simp
  have hrel : ∀ r ∈ allRel [curve (XR.fin z) (XR.fin q) col order n],
      r = FloatLike.div (XR.fin 0) (XR.fin |c|) := by
    intro r hr
    simp only [allRel, List.flatten_cons, List.flatten_nil, List.append_nil, List.mem_map] at hr
    obtain ⟨p, hp, rfl⟩ := hr
    obtain ⟨i, hi, rfl⟩ := mem_curve.1 hp
    rw [hpt i hi]
  have hlast : (curve (XR.fin z) (XR.fin q) col order n).getLast? =
      some ⟨XR.fin c, XR.fin 0, FloatLike.div (XR.fin 0) (XR.fin |c|)⟩ := by
    rw [curve_last hn, hpt _ (by omega)]
  have herr : plotError [curve (XR.fin z) (XR.fin q) col order n] = .error .valueError := by
    unfold plotError
    simp only [List.headD_cons, hlast, Option.getD_some]
    have hcolors : pickColors [curve (XR.fin z) (XR.fin q) col order n].length = .ok () := by
      simp [pickColors]
    rw [hcolors]
    by_cases hc : c = 0
    · have h0 : (FloatLike.div (XR.fin 0) (XR.fin |c|) : XR ℝ) = .nan := by
        subst hc
        show (if |(0 : ℝ)| = 0 then XR.signedInf 0 else _) = _
        rw [if_pos (by simp)]
        simp [XR.signedInf]
      rw [nanmax_nan _ (fun r hr => (hrel r hr).trans h0)]
      rfl
    · have h0 : (FloatLike.div (XR.fin 0) (XR.fin |c|) : XR ℝ) = .fin 0 := by
        rw [div_fin _ _ (abs_ne_zero.2 hc)]; simp
      have hne' : allRel [curve (XR.fin z) (XR.fin q) col order n] ≠ [] := by
        simp [allRel, curve]; omega
      rw [nanmax_const _ hne' 0 (fun r hr => (hrel r hr).trans h0), h0]
      have e1 : (FloatLike.mul (XR.fin 0) (FloatLike.ofNat 100) : XR ℝ) = .fin (0 * ((100 : ℕ) : ℝ)) := rfl
      have e2 : (FloatLike.div (FloatLike.ofNat 11) (FloatLike.ofNat 10) : XR ℝ) =
          .fin (((11 : ℕ) : ℝ) / ((10 : ℕ) : ℝ)) := div_fin _ _ (by norm_num)
      rw [e1, e2]
      have e3 : (FloatLike.div (FloatLike.mul (XR.fin 0) (XR.fin (0 * ((100 : ℕ) : ℝ))))
          (XR.fin (0 * ((100 : ℕ) : ℝ))) : XR ℝ) = .nan := by
        show (if (0 * ((100 : ℕ) : ℝ)) = 0 then XR.signedInf (0 * (0 * ((100 : ℕ) : ℝ))) else _) = _
        rw [if_pos (by simp)]
        simp [XR.signedInf]
      rw [e3]
      rfl
  unfold plotConvergence
  simp only [List.map_cons, List.map_nil]
  rw [herr]

/-- C66 refuted: with more than eighteen parameters `plot=True` raises `IndexError`. -/
theorem plot_many_inquiries_raises (z q : XR ℝ) (cols : List (List (XR ℝ) × ℕ)) (order : List ℕ)
    (h : 18 < cols.length) : plotConvergence z q cols order = .error .indexError := by
  unfold plotConvergence
  dsimp only
  have : plotError (cols.map (fun c => curve z q c.1 order c.2)) = .error .indexError := by
    unfold plotError
    have hc : pickColors (cols.map (fun c => curve z q c.1 order c.2)).length = .error .indexError := by
      unfold pickColors numColors
      rw [if_pos (by rw [List.length_map]; omega)]
    simp only [hc]
  rw [this]

/-- C66 (partial: see `plot_equal_samples_raises`, `plot_many_inquiries_raises`).  With at most eighteen
parameters and positive samples the plot is drawn; with one parameter two kept samples have to differ. -/
theorem plot_draws_partial {z q : ℝ} (hz : 0 < z) (hq : 1 ≤ q) {cols : List (List (XR ℝ) × ℕ)}
    {order : List ℕ} (hne : cols ≠ []) (hle : cols.length ≤ 18)
    (hcols : ∀ c ∈ cols, ∃ xs : List ℝ, xs.length = c.2 ∧ xs ≠ [] ∧ (∀ x ∈ xs, 0 < x) ∧
      (order.take c.2).map (fun r => c.1.getD r .nan) = xs.map XR.fin ∧
      (cols.length = 1 → ∃ x ∈ xs.filter (near q xs), ∃ y ∈ xs.filter (near q xs), x ≠ y)) :
    ∃ curves, plotConvergence (XR.fin z) (XR.fin q) cols order = .ok curves := by
  have hrel : ∀ c ∈ cols, ∀ p ∈ curve (XR.fin z) (XR.fin q) c.1 order c.2,
      p.rel = .nan ∨ ∃ v, p.rel = .fin v := by
    intro c hc p hp
    obtain ⟨xs, hl, hxne, hpos, hcol, -⟩ := hcols c hc
    obtain ⟨i, hi, rfl⟩ := mem_curve.1 hp
    rw [← hl] at hi hcol ⊢
    by_cases hk : (xs.take (i + 1)).filter (near q xs) = []
    · left; rw [cumulative_empty _ q hxne hcol hi hk]
    · right
      rw [cumulative_fin z q hxne hcol hi hk]
      dsimp only
      have hm : 0 < mean ((xs.take (i + 1)).filter (near q xs)) := by
        generalize hks : (xs.take (i + 1)).filter (near q xs) = ks at *
        have hkpos : ∀ x ∈ ks, 0 < x := fun x hx => hpos x (by
          rw [← hks] at hx; exact List.mem_of_mem_take (List.mem_of_mem_filter hx))
        have hl0 : 0 < ks.length := List.length_pos_iff.2 hk
        unfold mean
        exact div_pos (List.sum_pos _ hkpos hk) (by exact_mod_cast hl0)
      exact ⟨_, div_fin _ _ (abs_pos.2 hm.ne').ne'⟩
  -- the last point of each curve
  have hlast : ∀ c ∈ cols, ∃ p a m, (curve (XR.fin z) (XR.fin q) c.1 order c.2).getLast? = some p ∧
      p.abs = .fin a ∧ 0 < m ∧ p.rel = .fin (a / m) ∧ (cols.length = 1 → 0 < a) := by
    intro c hc
    obtain ⟨xs, hl, hxne, hpos, hcol, hdiff⟩ := hcols c hc
    have hl0 : 0 < xs.length := List.length_pos_iff.2 hxne
    rw [← hl] at hcol ⊢
    have htake : xs.take (xs.length - 1 + 1) = xs := by
      rw [Nat.sub_add_cancel (by omega), List.take_length]
    have hk : xs.filter (near q xs) ≠ [] := some_near hxne hq
    have hm : 0 < mean (xs.filter (near q xs)) := by
      have hl1 : 0 < (xs.filter (near q xs)).length := List.length_pos_iff.2 hk
      unfold mean
      exact div_pos (List.sum_pos _ (fun x hx => hpos x (List.mem_of_mem_filter hx)) hk)
        (by exact_mod_cast hl1)
    refine ⟨_, z * populationStd (xs.filter (near q xs)) / Real.sqrt (xs.length : ℝ),
      mean (xs.filter (near q xs)), curve_last hl0, ?_, hm, ?_, ?_⟩
    · rw [cumulative_fin z q hxne hcol (by omega) (by rw [htake]; exact hk)]
      dsimp only
      rw [htake, Nat.sub_add_cancel (by omega)]
    · rw [cumulative_fin z q hxne hcol (by omega) (by rw [htake]; exact hk)]
      dsimp only
      rw [htake, Nat.sub_add_cancel (by omega), abs_of_pos hm, div_fin _ _ hm.ne']
    · intro h1
      obtain ⟨x, hx, y, hy, hxy⟩ := hdiff h1
      have := populationStd_pos hx hy hxy
      have hs : 0 < Real.sqrt (xs.length : ℝ) := Real.sqrt_pos.2 (by exact_mod_cast hl0)
      positivity
  set curves := cols.map (fun c => curve (XR.fin z) (XR.fin q) c.1 order c.2) with hcurves
  obtain ⟨c₀, rest, hcs⟩ : ∃ c₀ rest, cols = c₀ :: rest := by
    cases cols with
    | nil => exact absurd rfl hne
    | cons a b => exact ⟨a, b, rfl⟩
  obtain ⟨v, hv⟩ : ∃ v, nanmax (allRel curves) = .fin v := by
    apply nanmax_fin
    · intro x hx
      simp only [allRel, List.mem_map, List.mem_flatten] at hx
      obtain ⟨p, ⟨l, hl, hp⟩, rfl⟩ := hx
      rw [hcurves] at hl
      obtain ⟨c, hc, rfl⟩ := List.mem_map.1 hl
      exact hrel c hc p hp
    · obtain ⟨p, a, m, hp, -, -, hr, -⟩ := hlast c₀ (by rw [hcs]; simp)
      refine ⟨p.rel, ?_, _, hr⟩
      simp only [allRel, List.mem_map, List.mem_flatten]
      refine ⟨p, ⟨_, ?_, List.mem_of_getLast? hp⟩, rfl⟩
      rw [hcurves]
      exact List.mem_map.2 ⟨c₀, by rw [hcs]; simp, rfl⟩
  have hlen : curves.length = cols.length := by rw [hcurves, List.length_map]
  have hhead : curves.headD [] = curve (XR.fin z) (XR.fin q) c₀.1 order c₀.2 := by
    rw [hcurves, hcs]; rfl
  obtain ⟨p, a, m, hp, ha, hmpos, hr, hapos⟩ := hlast c₀ (by rw [hcs]; simp)
  have herr : plotError curves = .ok () := by
    unfold plotError
    have hc : pickColors curves.length = .ok () := by
      unfold pickColors numColors
      rw [if_neg (by omega)]
    have e2 : (FloatLike.div (FloatLike.ofNat 11) (FloatLike.ofNat 10) : XR ℝ) =
        .fin (((11 : ℕ) : ℝ) / ((10 : ℕ) : ℝ)) := div_fin _ _ (by norm_num)
    simp only [hc, hhead, hp, Option.getD_some, hv, ha, hr, ofNat_fin, mul_fin]
    simp only [ofNat_fin] at e2
    rw [e2, mul_fin]
    simp only [setYlim]
    split
    · rename_i h1
      have hpos := hapos (by omega)
      rw [div_fin _ _ (by positivity), mul_fin]
    · rfl
  refine ⟨curves, ?_⟩
  unfold plotConvergence
  simp only [← hcurves, herr]

/-! Non-vacuity: two parameters, samples processed in the order row 2, row 0. -/

noncomputable example : ∃ curves, plotConvergence (XR.fin 2) (XR.fin 3)
    [([XR.fin 3, XR.nan, XR.fin 1], 2), ([XR.fin 4, XR.nan, XR.fin 4], 1)] [2, 0, 1] =
      (.ok curves : Except PyExc (List (List (Point ℝ)))) := by
  apply plot_draws_partial (by norm_num) (by norm_num) (by simp) (by simp)
  intro c hc
  simp only [List.mem_cons, List.not_mem_nil, or_false] at hc
  rcases hc with rfl | rfl
  · exact ⟨[1, 3], by simp, by simp, by simp, by simp, by simp⟩
  · exact ⟨[4], by simp, by simp, by simp, by simp, by simp⟩

example : ([2, 0, 1].take 2).map (fun r => [XR.fin (5 : ℝ), XR.nan, XR.fin 5].getD r .nan) =
    (List.replicate 2 5).map XR.fin := by simp [List.replicate]

example : retained 4 [1, 3] = [1, 3].filter (near 3 [1, 3]) ∧ (1 : ℝ) ∈ retained 4 [1, 3] := by
  have h1 := plot_few_samples_keep_all (xs := [1, 3]) (q := 3) (by norm_num) (by norm_num)
  have h2 : retained 4 [1, 3] = [1, 3] := by
    unfold retained
    rw [List.filter_eq_self]
    have hm : mean [1, 3] = 2 := by norm_num [mean]
    have hd : sqDev 2 [1, 3] = 2 := by norm_num [sqDev]
    have hs : (1 : ℝ) ≤ sampleStd [1, 3] := by
      rw [sampleStd, hm, hd]
      apply Real.le_sqrt_of_sq_le; norm_num
    intro x hx
    simp only [List.mem_cons, List.not_mem_nil, or_false] at hx
    rw [hm]
    rcases hx with rfl | rfl <;> simp only [decide_eq_true_eq] <;> norm_num <;> linarith
  rw [h1, h2]
  simp

end Imate.Props
