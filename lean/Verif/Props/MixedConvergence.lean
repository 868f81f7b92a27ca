import Verif.Model.MixedConvergence
import Verif.Lemmas.RoundedConvergence

/-!
# C86: accuracy of the reported trace and error, with intermediate results in other types

Every rounding has relative error at most `u`.  For `float`, `u = 2^(-24)`: the other types are `double`.  For `long double`
with the C function `sqrt` on `double`, `u = 2^(-53)`.
-/

namespace Imate.Props.MixedConvergence

open Imate.MixedConvergence Imate.RoundedConvergence Imate.Convergence Imate.Spec Imate.Rounded

variable {r : Roundings} {p : ℕ} {u : ℝ}

/-- All roundings have relative error at most `u`, and `DataType` has `p` bits. -/
structure Accurate (u : ℝ) (p : ℕ) (r : Roundings) : Prop where
  nonneg : 0 ≤ u
  lt : u < 1
  bits : 1 ≤ p
  nearest : Nearest p r.data
  data : Rel u r.data
  quotient : Rel u r.quotient
  argument : Rel u r.argument
  root : Rel u r.root
  std : Rel u r.std
  rootCount : Rel u r.rootCount
  ratio : Rel u r.ratio
  error : Rel u r.error

/-- **C86.**  The standard deviation. -/
theorem std_accurate (a : Accurate u p r) {xs : List ℝ} (h2 : 2 ≤ xs.length) (hn : xs.length ≤ 2 ^ p) :
    ∃ s, MixedConvergence.stdOf r (xs.map Fl.fin) = .fin s ∧
      (1 - u) ^ (xs.length + 7) * sampleStd xs ≤ s ∧
      s ≤ (1 + u) ^ (xs.length + 7) * (sampleStd xs + 2 * (((1 + u) ^ (xs.length + 1) - 1) * mean (xs.map abs))) := by
  have hu := a.nonneg
  have h1 := a.lt
  have hne : xs ≠ [] := by rintro rfl; simp at h2
  have hr : (2 : ℝ) ≤ xs.length := by exact_mod_cast h2
  have h0 : r.data 0 = 0 := by simpa using fl_nat a.bits a.nearest (n := 0) (by positivity)
  have hA := ((((flSumSq_near hu h1 a.data (flMean r.data xs) xs).div (n := (xs.length : ℝ) - 1) (by linarith)).round hu h1
    a.quotient).round hu h1 a.argument)
  have hN := ((hA.sqrt hu h1).round hu h1 a.root).round hu h1 a.std
  have hd := flMean_near hu a.data hne
  have hsd := sqDev_nonneg (mean xs) xs
  refine ⟨r.std (r.root (Real.sqrt (r.argument (r.quotient (flSumSq r.data (flMean r.data xs) xs / (xs.length - 1)))))),
    ?_, ?_, ?_⟩
  · unfold MixedConvergence.stdOf
    rw [List.length_map, if_pos (by omega), meanOf_fin a.bits a.nearest hne hn, RoundedConvergence.sumSq_fin h0]
    have e1 : FloatLike.div (V := XR ℝ) (widen (Fl.fin (fl := r.data) (flSumSq r.data (flMean r.data xs) xs)))
        (.fin ((xs.length : ℝ) - 1)) = .fin (flSumSq r.data (flMean r.data xs) xs / (xs.length - 1)) :=
      Convergence.div_fin _ _ (by linarith)
    rw [e1]
    show rounded r.std (rounded r.root (FloatLike.sqrt (V := XR ℝ) (.fin _))) = _
    rw [Convergence.sqrt_fin (hA.nonneg h1)]
    rfl
  · refine le_trans (mul_le_mul_of_nonneg_left ?_ (pow_nonneg (by linarith) _)) hN.2.1
    unfold sampleStd
    refine Real.sqrt_le_sqrt (div_le_div_of_nonneg_right ?_ (by linarith))
    rw [sqDev_shift (flMean r.data xs) hne]
    nlinarith [sq_nonneg (flMean r.data xs - mean xs)]
  · refine hN.2.2.trans (mul_le_mul_of_nonneg_left ?_ (pow_nonneg (by linarith) _))
    have hb : 0 ≤ meanBound u xs := (abs_nonneg _).trans hd
    have hs0 : 0 ≤ sampleStd xs := Real.sqrt_nonneg _
    change _ ≤ sampleStd xs + 2 * meanBound u xs
    refine Real.sqrt_le_iff.2 ⟨by linarith, ?_⟩
    have hs2 : sampleStd xs ^ 2 = sqDev (mean xs) xs / (xs.length - 1) :=
      Real.sq_sqrt (div_nonneg hsd (by linarith))
    have hdev : (flMean r.data xs - mean xs) ^ 2 ≤ meanBound u xs ^ 2 := by
      rw [← sq_abs]
      exact pow_le_pow_left₀ (abs_nonneg _) hd 2
    rw [sqDev_shift (flMean r.data xs) hne, add_div]
    have h5 : xs.length * (flMean r.data xs - mean xs) ^ 2 / ((xs.length : ℝ) - 1) ≤ 2 * meanBound u xs ^ 2 := by
      rw [div_le_iff₀ (by linarith)]
      nlinarith [sq_nonneg (meanBound u xs)]
    rw [← hs2]
    nlinarith [mul_nonneg hs0 hb, sq_nonneg (meanBound u xs)]

/-- **C86.**  The error of the estimate, for a quantile `z`. -/
theorem error_accurate (a : Accurate u p r) {z : ℝ} (hz : 0 ≤ z) {xs : List ℝ} (h2 : 2 ≤ xs.length)
    (hn : xs.length ≤ 2 ^ p) :
    ∃ e, MixedConvergence.errorOf r z (xs.map Fl.fin) = .fin e ∧
      (1 - u) ^ (xs.length + 11) * standardError z xs ≤ e ∧
      (1 - u) * e ≤ (1 + u) ^ (xs.length + 10) *
        (z * (sampleStd xs + 2 * (((1 + u) ^ (xs.length + 1) - 1) * mean (xs.map abs))) / Real.sqrt xs.length) := by
  have hu := a.nonneg
  have h1 := a.lt
  obtain ⟨s, hs, hlo, hhi⟩ := std_accurate a h2 hn
  have hs0 : 0 ≤ s := (mul_nonneg (pow_nonneg (by linarith) _) (Real.sqrt_nonneg _)).trans hlo
  have hr : (2 : ℝ) ≤ xs.length := by exact_mod_cast h2
  have hq : 0 < Real.sqrt xs.length := Real.sqrt_pos.2 (by linarith)
  have hQ := (near_self (u := u) hq.le).round hu h1 a.rootCount
  obtain ⟨-, hQ1, hQ2⟩ := hQ
  rw [zero_add, pow_one] at hQ1 hQ2
  have hQ0 : 0 < r.rootCount (Real.sqrt xs.length) := (mul_pos (by linarith) hq).trans_le hQ1
  have hM := (near_self (u := u) (mul_nonneg hz hs0)).round hu h1 a.data
  have hD := ((hM.div hQ0).round hu h1 a.ratio).round hu h1 a.error
  obtain ⟨-, hD1, hD2⟩ := hD
  refine ⟨r.error (r.ratio (r.data (z * s) / r.rootCount (Real.sqrt xs.length))), ?_, ?_, ?_⟩
  · unfold MixedConvergence.errorOf
    rw [hs, List.length_map, Convergence.sqrt_fin (by linarith)]
    show rounded r.error (rounded r.ratio (FloatLike.div (V := XR ℝ) (.fin (r.data (z * s)))
      (.fin (r.rootCount (Real.sqrt xs.length))))) = _
    rw [Convergence.div_fin _ _ hQ0.ne']
    rfl
  · refine le_trans ?_ hD1
    have h3 : (1 - u) * (z * s / Real.sqrt xs.length) ≤ z * s / r.rootCount (Real.sqrt xs.length) := by
      rw [← mul_div_assoc, div_le_div_iff₀ hq hQ0]
      have h5 : (1 - u) * r.rootCount (Real.sqrt xs.length) ≤ Real.sqrt xs.length := by
        have := mul_le_mul_of_nonneg_left hQ2 (by linarith : (0 : ℝ) ≤ 1 - u)
        nlinarith [mul_nonneg (mul_nonneg hu hu) hq.le]
      have := mul_le_mul_of_nonneg_left h5 (mul_nonneg hz hs0)
      nlinarith
    have h4 : (1 - u) ^ (xs.length + 7) * standardError z xs ≤ z * s / Real.sqrt xs.length := by
      unfold standardError
      rw [← mul_div_assoc]
      refine div_le_div_of_nonneg_right ?_ hq.le
      have := mul_le_mul_of_nonneg_left hlo hz
      linarith
    have e : (1 - u) ^ (xs.length + 11) * standardError z xs =
        (1 - u) ^ (0 + 1 + 1 + 1) * ((1 - u) * ((1 - u) ^ (xs.length + 7) * standardError z xs)) := by ring
    rw [e]
    refine mul_le_mul_of_nonneg_left (le_trans ?_ h3) (pow_nonneg (by linarith) _)
    exact mul_le_mul_of_nonneg_left h4 (by linarith)
  · have h3 : (1 - u) * (z * s / r.rootCount (Real.sqrt xs.length)) ≤ z * s / Real.sqrt xs.length := by
      rw [← mul_div_assoc, div_le_div_iff₀ hQ0 hq]
      have := mul_le_mul_of_nonneg_left hQ1 (mul_nonneg hz hs0)
      nlinarith
    have h4 : z * s / Real.sqrt xs.length ≤ (1 + u) ^ (xs.length + 7) *
        (z * (sampleStd xs + 2 * (((1 + u) ^ (xs.length + 1) - 1) * mean (xs.map abs))) / Real.sqrt xs.length) := by
      rw [← mul_div_assoc]
      refine div_le_div_of_nonneg_right ?_ hq.le
      have := mul_le_mul_of_nonneg_left hhi hz
      linarith
    have h5 := mul_le_mul_of_nonneg_left hD2 (by linarith : (0 : ℝ) ≤ 1 - u)
    refine h5.trans ?_
    have h6 := mul_le_mul_of_nonneg_left (h3.trans h4) (pow_nonneg (by linarith : (0 : ℝ) ≤ 1 + u) (0 + 1 + 1 + 1))
    refine le_trans (le_of_eq (by ring)) (h6.trans (le_of_eq (by ring)))

/-- **C86.**  An inquiry that is reported as converged has a standard error below the tolerance, up to rounding. -/
theorem converged_accurate (a : Accurate u p r) {z atol rtol : ℝ} (hz : 0 ≤ z) {xs : List ℝ} (h2 : 2 ≤ xs.length)
    (hn : xs.length ≤ 2 ^ p) (hc : MixedConvergence.meetsTol r z atol rtol (xs.map Fl.fin) = true) :
    ∃ m, |m - mean xs| ≤ ((1 + u) ^ (xs.length + 1) - 1) * mean (xs.map abs) ∧
      (1 - u) ^ (xs.length + 11) * standardError z xs < max atol (r.data (rtol * m)) := by
  have hne : xs ≠ [] := by rintro rfl; simp at h2
  have hm := meanOf_fin (fl := r.data) a.bits a.nearest hne hn
  obtain ⟨e, he, he', -⟩ := error_accurate a hz h2 hn
  refine ⟨_, flMean_near a.nonneg a.data hne, he'.trans_lt ?_⟩
  unfold MixedConvergence.meetsTol at hc
  rw [he, hm, mul_fin] at hc
  have hmax : (FloatLike.max (V := XR ℝ) (.fin atol) (widen (Fl.fin (fl := r.data) (r.data (rtol * flMean r.data xs))))) =
      .fin (max atol (r.data (rtol * flMean r.data xs))) := Convergence.max_fin atol _
  rw [hmax] at hc
  exact of_decide_eq_true hc

/-- **C86.**  The reported trace and error are accurate for the samples that are kept.  A sample is kept if its rounded
distance from an accurate mean is at most a rounded multiple of an accurate standard deviation. -/
theorem trace_accurate (a : Accurate u p r) {ez oz : ℝ} (hz : 0 ≤ ez) {xs : List ℝ} (h2 : 2 ≤ xs.length)
    (hn : xs.length ≤ 2 ^ p) :
    ∃ m s, |m - mean xs| ≤ ((1 + u) ^ (xs.length + 1) - 1) * mean (xs.map abs) ∧
      (1 - u) ^ (xs.length + 7) * sampleStd xs ≤ s ∧
      ∀ kept, kept = xs.filter (fun x => decide (|r.data (x - m)| ≤ r.data (oz * s))) → ∀ result,
        result = MixedConvergence.averageEstimate r ez oz (xs.map Fl.fin) →
        result.numOutliers = xs.length - kept.length ∧
        (kept ≠ [] → ∃ t, result.trace = .fin t ∧
          |t - mean kept| ≤ ((1 + u) ^ (kept.length + 1) - 1) * mean (kept.map abs)) ∧
        (2 ≤ kept.length → ∃ e, result.error = .fin e ∧
          (1 - u) ^ (kept.length + 11) * standardError ez kept ≤ e ∧
          (1 - u) * e ≤ (1 + u) ^ (kept.length + 10) *
            (ez * (sampleStd kept + 2 * (((1 + u) ^ (kept.length + 1) - 1) * mean (kept.map abs))) /
              Real.sqrt kept.length)) := by
  have hne : xs ≠ [] := by rintro rfl; simp at h2
  have hm := meanOf_fin (fl := r.data) a.bits a.nearest hne hn
  obtain ⟨s, hs, hs', -⟩ := std_accurate a h2 hn
  refine ⟨_, s, flMean_near a.nonneg a.data hne, hs', ?_⟩
  rintro kept hkept result rfl
  set m := flMean r.data xs with hmdef
  have hout : ∀ x : ℝ, isOutlier (Fl.fin m : Fl r.data) (Fl.fin (r.data (oz * s))) (Fl.fin x) =
      decide (r.data (oz * s) < |r.data (x - m)|) := by
    intro x
    unfold isOutlier
    rw [sub_fin]
    rfl
  have hhalf : (rounded r.data (FloatLike.mul (V := XR ℝ) (.fin oz) (.fin s)) : XR ℝ) =
      (Fl.fin (r.data (oz * s)) : Fl r.data) := rfl
  have hfilter : (xs.map (Fl.fin (fl := r.data))).filter (fun x => !isOutlier (Fl.fin m) (Fl.fin (r.data (oz * s))) x) =
      kept.map Fl.fin := by
    rw [hkept, List.filter_map]
    congr 1
    refine List.filter_congr fun x _ => ?_
    show (!isOutlier (Fl.fin m : Fl r.data) (Fl.fin (r.data (oz * s))) (Fl.fin x)) = _
    rw [hout, ← decide_not]
    simp only [not_lt]
  have hcount : (xs.map (Fl.fin (fl := r.data))).countP (fun x => isOutlier (Fl.fin m) (Fl.fin (r.data (oz * s))) x) =
      xs.length - kept.length := by
    have h3 := List.length_eq_countP_add_countP
      (fun x => isOutlier (Fl.fin m : Fl r.data) (Fl.fin (r.data (oz * s))) x) (l := xs.map (Fl.fin (fl := r.data)))
    have h4 : (xs.map (Fl.fin (fl := r.data))).countP
        (fun x => decide ¬ isOutlier (Fl.fin m) (Fl.fin (r.data (oz * s))) x = true) = kept.length := by
      rw [← List.length_map (Fl.fin (fl := r.data)) (as := kept), ← hfilter, List.countP_eq_length_filter]
      congr 1
      refine List.filter_congr fun x _ => ?_
      cases isOutlier (Fl.fin m) (Fl.fin (r.data (oz * s))) x <;> rfl
    rw [List.length_map] at h3
    omega
  have hle : kept.length ≤ xs.length := by rw [hkept]; exact List.length_filter_le _ _
  have hmain : MixedConvergence.averageEstimate r ez oz (xs.map Fl.fin) =
      ⟨widen (meanOf (kept.map (Fl.fin (fl := r.data)))), MixedConvergence.errorOf r ez (kept.map Fl.fin),
        xs.length - kept.length⟩ := by
    unfold MixedConvergence.averageEstimate
    simp only [hm, hs, hhalf]
    rw [← hfilter, ← hcount]
  rw [hmain]
  refine ⟨rfl, fun hk => ?_, fun hk => error_accurate a hz hk (hle.trans hn)⟩
  have e := RoundedConvergence.meanOf_fin (fl := r.data) a.bits a.nearest hk (hle.trans hn)
  exact ⟨_, congrArg widen e, flMean_near a.nonneg a.data hk⟩

/-- `float` with intermediate results in `double`. -/
theorem float_roundings {fl dl : ℝ → ℝ} (hf : Nearest 24 fl) (hd : Nearest 53 dl) :
    Accurate (2 ^ (-24 : ℤ)) 24 ⟨fl, dl, dl, dl, fl, dl, dl, fl⟩ := by
  have h1 : Rel (2 ^ (-24 : ℤ)) fl := nearest_rel (p := 24) (by norm_num) hf
  have h2 : Rel (2 ^ (-24 : ℤ)) dl := fun x =>
    (nearest_rel (p := 53) (by norm_num) hd x).trans (mul_le_mul_of_nonneg_right (by norm_num) (abs_nonneg x))
  exact ⟨by positivity, by norm_num, by norm_num, hf, h1, h2, h2, h2, h1, h2, h2, h1⟩

/-- `long double` with 64 bits and the C function `sqrt` on `double`. -/
theorem long_double_roundings {fl dl : ℝ → ℝ} (hf : Nearest 64 fl) (hd : Nearest 53 dl) :
    Accurate (2 ^ (-53 : ℤ)) 64 ⟨fl, fl, dl, dl, fl, dl, fl, fl⟩ := by
  have h1 : Rel (2 ^ (-53 : ℤ)) fl := fun x =>
    (nearest_rel (p := 64) (by norm_num) hf x).trans (mul_le_mul_of_nonneg_right (by norm_num) (abs_nonneg x))
  have h2 : Rel (2 ^ (-53 : ℤ)) dl := nearest_rel (p := 53) (by norm_num) hd
  exact ⟨by positivity, by norm_num, by norm_num, hf, h1, h1, h2, h2, h1, h2, h1, h1⟩

/-- Three samples in `float`. -/
example := error_accurate (float_roundings (roundTo_nearest (by norm_num)) (roundTo_nearest (by norm_num)))
  (z := 2) (by norm_num) (xs := [1, 2, 4]) (by norm_num) (by norm_num)

example := trace_accurate (float_roundings (roundTo_nearest (by norm_num)) (roundTo_nearest (by norm_num)))
  (ez := 2) (oz := 3) (by norm_num) (xs := [1, 2, 4]) (by norm_num) (by norm_num)

end Imate.Props.MixedConvergence
