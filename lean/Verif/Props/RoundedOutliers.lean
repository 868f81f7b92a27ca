import Verif.Props.OutlierShift

/-!
# C110 with rounding: the estimate with outliers removed, in floating-point arithmetic

`gap p s oz` is the threshold `oz` less the rounding errors of the deviation of the samples.
-/

namespace Imate.Props

open Matrix Spec Convergence Estimator Imate.Accuracy Imate.Rounded Imate.RoundedConvergence
open Imate.Lanczos (signVector)

variable {p n s k₀ : ℕ} {fl : ℝ → ℝ}

private theorem unit_below (hp : 1 ≤ p) : unitRoundoff p < 1 := by
  unfold unitRoundoff
  rw [_root_.zpow_neg, zpow_natCast]
  exact inv_lt_one_of_one_lt₀ (one_lt_pow₀ (by norm_num) (by omega))

/-- The threshold in standard deviations that is kept in spite of all roundings of `s` samples. -/
noncomputable def gap (p s : ℕ) (oz : ℝ) : ℝ := oz * (1 - unitRoundoff p) ^ (s + 6) / (1 + unitRoundoff p)

theorem gap_anti {κ : ℕ} (hp : 1 ≤ p) (hκ : κ ≤ s) {oz : ℝ} (hoz : 0 ≤ oz) : gap p s oz ≤ gap p κ oz := by
  have hu : (0 : ℝ) ≤ unitRoundoff p := (unit_pos p).le
  have h1 : unitRoundoff p < 1 := unit_below hp
  unfold gap
  refine div_le_div_of_nonneg_right (mul_le_mul_of_nonneg_left ?_ hoz) (by linarith)
  exact pow_le_pow_of_le_one (by linarith) (by linarith) (by omega)

/-- C110 in floating-point arithmetic: the number of samples that are removed, and the distance of the reported trace from the mean
of all samples. -/
theorem rounded_outliers_bounded (hp : 1 ≤ p) (h : Nearest p fl) {ez oz : ℝ} (hez : 0 ≤ ez) {xs : List ℝ} (h2 : 2 ≤ xs.length)
    (hn : xs.length ≤ 2 ^ p) (hgap : 1 < gap p xs.length oz) {C : ℝ} (hC0 : 0 ≤ C) (hC : ∀ x ∈ xs, |x| ≤ C) :
    ∃ t, (averageEstimate (Fl.fin ez) (Fl.fin oz) (xs.map (Fl.fin (fl := fl)))).trace = Fl.fin t ∧
      ((averageEstimate (Fl.fin ez) (Fl.fin oz) (xs.map (Fl.fin (fl := fl)))).numOutliers : ℝ) * gap p xs.length oz ^ 2 ≤
        xs.length - 1 ∧
      |t - mean xs| ≤ gap p xs.length oz / (gap p xs.length oz ^ 2 - 1) * sampleStd xs +
        ((1 + unitRoundoff p) ^ (xs.length + 1) - 1) * C := by
  have hne : xs ≠ [] := by rintro rfl; simp at h2
  have hu : (0 : ℝ) ≤ unitRoundoff p := (unit_pos p).le
  have hu1 : unitRoundoff p < 1 := unit_below hp
  have hfl : Rel (unitRoundoff p) fl := nearest_rel hp h
  have hr : (2 : ℝ) ≤ xs.length := by exact_mod_cast h2
  obtain ⟨m, σ, hm, -, hσ, hall⟩ := RoundedConvergence.trace_accurate hp h (ez := ez) (oz := oz) hez h2 hn
  obtain ⟨g1, g2, -⟩ := hall _ rfl _ rfl
  set q : ℝ → Bool := fun x => decide (|fl (x - m)| ≤ fl (oz * σ)) with hq
  have hm' : m = flMean fl xs := by
    have := (RoundedConvergence.meanOf_fin hp h hne hn).symm.trans hm
    injection this with this
    exact this.symm
  have hσ' : σ = flStd fl xs := by
    have := (RoundedConvergence.stdOf_fin hp h hu hu1 hfl h2 hn).symm.trans hσ
    injection this with this
    exact this.symm
  have hN := ((flQuotient_near hu hu1 hfl h2).sqrt hu hu1).round hu hu1 hfl
  have hlow : (1 - unitRoundoff p) ^ (xs.length + 5) * Real.sqrt (sqDev m xs / (xs.length - 1)) ≤ σ := by
    rw [hm', hσ']
    exact hN.2.1
  have hoz : 0 < oz := by
    by_contra hc
    have : gap p xs.length oz ≤ 0 := by
      unfold gap
      refine div_nonpos_of_nonpos_of_nonneg (mul_nonpos_of_nonpos_of_nonneg (not_lt.1 hc) (pow_nonneg (by linarith) _)) (by linarith)
    linarith
  set τ := Real.sqrt (sqDev m xs / (xs.length - 1)) with hτ
  have hτ0 : 0 ≤ τ := Real.sqrt_nonneg _
  have hσ0 : 0 ≤ σ := le_trans (mul_nonneg (pow_nonneg (by linarith) _) hτ0) hlow
  have hfew := few_far h2 (c := m) (by linarith : 0 ≤ gap p xs.length oz) q fun x hx => by
    have h1 := (List.mem_filter.1 hx).2
    have h3 : fl (oz * σ) < |fl (x - m)| := by
      by_contra hc
      rw [show q x = true from decide_eq_true (not_lt.1 hc)] at h1
      cases h1
    have h4 : |fl (x - m)| ≤ (1 + unitRoundoff p) * |x - m| := by
      have h5 := hfl (x - m)
      have h6 := abs_sub_abs_le_abs_sub (fl (x - m)) (x - m)
      linarith
    have h5 : (1 - unitRoundoff p) * (oz * σ) ≤ fl (oz * σ) := by
      have h6 := (abs_le.1 (hfl (oz * σ))).1
      rw [abs_of_nonneg (mul_nonneg hoz.le hσ0)] at h6
      linarith
    have h6 : (1 - unitRoundoff p) * (oz * ((1 - unitRoundoff p) ^ (xs.length + 5) * τ)) ≤ (1 - unitRoundoff p) * (oz * σ) :=
      mul_le_mul_of_nonneg_left (mul_le_mul_of_nonneg_left hlow hoz.le) (by linarith)
    show gap p xs.length oz * τ < |x - m|
    unfold gap
    rw [div_mul_eq_mul_div, div_lt_iff₀ (by linarith)]
    calc _ = (1 - unitRoundoff p) * (oz * ((1 - unitRoundoff p) ^ (xs.length + 5) * τ)) := by ring
      _ < (1 + unitRoundoff p) * |x - m| := by linarith
      _ = _ := by ring
  obtain ⟨k1, k2⟩ := kept_near h2 hgap q hfew
  obtain ⟨t, t1, t2⟩ := g2 k1
  have hlen := length_partition q xs
  refine ⟨t, t1, ?_, ?_⟩
  · rw [g1, show xs.length - (xs.filter q).length = (xs.filter fun x => !q x).length by omega]
    exact hfew
  · have hle : (xs.filter q).length ≤ xs.length := List.length_filter_le _ _
    have hγ : (1 + unitRoundoff p) ^ ((xs.filter q).length + 1) - 1 ≤ (1 + unitRoundoff p) ^ (xs.length + 1) - 1 := by
      have := pow_le_pow_right₀ (by linarith : (1 : ℝ) ≤ 1 + unitRoundoff p) (by omega : (xs.filter q).length + 1 ≤ xs.length + 1)
      linarith
    have hγ0 : 0 ≤ (1 + unitRoundoff p) ^ ((xs.filter q).length + 1) - 1 := by
      have := one_le_pow₀ (by linarith : (1 : ℝ) ≤ 1 + unitRoundoff p) (n := (xs.filter q).length + 1)
      linarith
    have h3 := (mul_le_mul_of_nonneg_left (mean_abs_le (xs := xs.filter q) hC0 fun x hx => hC x (List.mem_of_mem_filter hx)) hγ0).trans
      (mul_le_mul_of_nonneg_right hγ hC0)
    have t2' : |t - mean (xs.filter q)| ≤ ((1 + unitRoundoff p) ^ (xs.length + 1) - 1) * C := t2.trans h3
    have h4 := abs_add_le (t - mean (xs.filter q)) (mean (xs.filter q) - mean xs)
    rw [sub_add_sub_cancel] at h4
    linarith

/-- `z / (z² - 1)` decreases. -/
theorem shift_anti {a b : ℝ} (ha : 1 < a) (hab : a ≤ b) : b / (b ^ 2 - 1) ≤ a / (a ^ 2 - 1) := by
  rw [div_le_div_iff₀ (by nlinarith) (by nlinarith)]
  nlinarith [mul_nonneg (by linarith : 0 ≤ b - a) (by nlinarith : 0 ≤ a * b + 1)]

/-- C110: the estimate as the package makes it by default, with the stopping rule, the removal of outliers and all roundings.  `B` bounds
the error of a sample (C107, C108), `C` the size of the exact ones, and `std` is the standard deviation of the computed samples. -/
theorem rounded_stopped_outliers (hp : 1 ≤ p) (h : Nearest p fl) (hk₀ : 2 ≤ k₀) (hs : k₀ ≤ s) (hsp : s ≤ 2 ^ p)
    {F : Matrix (Fin n) (Fin n) ℝ} (hF : F.IsSymm) {Sample : (Fin n → Bool) → ℝ → Prop} {B C : ℝ} (hB0 : 0 ≤ B)
    (hB : ∀ b v, Sample b v → |v - signVector b ⬝ᵥ (F *ᵥ signVector b)| ≤ B)
    (hC : ∀ b, |signVector b ⬝ᵥ (F *ᵥ signVector b)| ≤ C) (order : Equiv.Perm (Fin s)) {z outlierZ : ℝ} (hz : 0 ≤ z)
    (hgap : 1 < gap p s outlierZ) {trace std : (Fin s → Fin n → Bool) → ℝ}
    (htrace : ∀ w, ∃ (cfg : Config (Fl fl)) (ts : List ℕ) (st : State (Fl fl)) (q : Inquiry (Fl fl)) (xs : List ℝ),
      RoundedStops cfg Sample k₀ w ∧ run cfg (init cfg) ts = some st ∧ Finished cfg st ∧
      (st.processed <+: List.ofFn fun i => (order i).1) ∧ st.inqs[0]? = some q ∧
      (st.processed.take q.numSamplesUsed).map (fun i => cfg.value i 0) = xs.map Fl.fin ∧ std w = sampleStd xs ∧
      (averaged cfg (Fl.fin z) (Fl.fin outlierZ) st 0).trace = Fl.fin (trace w)) {e : ℝ} (he : 0 < e)
    [DecidablePred fun w => e + (B + ((1 + unitRoundoff p) ^ (s + 1) - 1) * (C + B) +
      gap p s outlierZ / (gap p s outlierZ ^ 2 - 1) * std w) ≤ |trace w - F.trace|] :
    probability (fun w => e + (B + ((1 + unitRoundoff p) ^ (s + 1) - 1) * (C + B) +
      gap p s outlierZ / (gap p s outlierZ ^ 2 - 1) * std w) ≤ |trace w - F.trace|) ≤ 2 * offDiagonal F / (k₀ * e ^ 2) := by
  classical
  have hu : (0 : ℝ) ≤ unitRoundoff p := (unit_pos p).le
  have hu1 : unitRoundoff p < 1 := unit_below hp
  have hoz : 0 ≤ outlierZ := by
    by_contra hc
    have : gap p s outlierZ ≤ 0 := by
      unfold gap
      exact div_nonpos_of_nonpos_of_nonneg (mul_nonpos_of_nonpos_of_nonneg (not_le.1 hc).le (pow_nonneg (by linarith) _)) (by linarith)
    linarith
  have key : ∀ w, ∃ κ : ℕ, ∃ hκ : k₀ ≤ κ ∧ κ ≤ s,
      |trace w - (∑ i : Fin κ, (fun b => signVector b ⬝ᵥ (F *ᵥ signVector b)) (w (order (Fin.castLE hκ.2 i)))) / κ| ≤
        B + ((1 + unitRoundoff p) ^ (s + 1) - 1) * (C + B) + gap p s outlierZ / (gap p s outlierZ ^ 2 - 1) * std w := fun w => by
    obtain ⟨cfg, ts, st, q, ys, hd, hrun, hf, hord, hq, hys, hstd, ht⟩ := htrace w
    have hsep : Separate cfg := Or.inr hd.inquiries
    have hN : 0 < cfg.numInquiries := by rw [hd.inquiries]; omega
    have hex : Exclusive cfg := Or.inr (by rw [hsep.required, hd.inquiries])
    obtain ⟨a1, a2, a3, a4, a5⟩ := sample_accounting hsep hN hd.threads hrun hf hq
    rw [hd.min, hd.max, min_eq_left hs] at a1
    rw [hd.max] at a3
    have hks : q.numSamplesUsed ≤ s := by omega
    rw [trace_is_average_of_values hsep hN hex hrun hq, take_processed hord a2 hks] at ht
    rw [take_processed hord a2 hks] at hys
    choose v hv hval using hd.value
    generalize q.numSamplesUsed = κ at *
    have hlist : (List.ofFn fun i : Fin κ => (order (Fin.castLE hks i)).1).map (fun i => cfg.value i 0) =
        (List.ofFn fun i : Fin κ => v (order (Fin.castLE hks i))).map (Fl.fin (fl := fl)) := by
      rw [List.map_ofFn, List.map_ofFn]
      congr 1
      funext i
      exact hval _
    rw [hlist] at ht hys
    have hinj : Function.Injective (Fl.fin (fl := fl)) := fun _ _ h => by injection h
    rw [← List.map_injective_iff.2 hinj hys] at hstd
    set xs := List.ofFn fun i : Fin κ => v (order (Fin.castLE hks i)) with hxs
    have hlen : xs.length = κ := by rw [hxs, List.length_ofFn]
    have hC0 : 0 ≤ C := (abs_nonneg _).trans (hC fun _ => true)
    have habs : ∀ x ∈ xs, |x| ≤ C + B := fun x hx => by
      obtain ⟨k, rfl⟩ := List.mem_ofFn.1 hx
      have k1 := abs_le.1 (hB _ _ (hv (order (Fin.castLE hks k))))
      have k2 := abs_le.1 (hC (w (order (Fin.castLE hks k))))
      rw [abs_le]
      constructor <;> linarith [k1.1, k1.2, k2.1, k2.2]
    have hgapκ : gap p s outlierZ ≤ gap p xs.length outlierZ := gap_anti hp (by omega) hoz
    obtain ⟨t, t1, -, t3⟩ := rounded_outliers_bounded hp h (ez := z) (oz := outlierZ) hz (xs := xs) (by omega) (by omega)
      (lt_of_lt_of_le hgap hgapκ) (by linarith) habs
    have htw : t = trace w := by
      have := t1.symm.trans ht
      injection this
    rw [htw, ← hstd] at t3
    have hstd0 : 0 ≤ std w := by rw [hstd]; exact Real.sqrt_nonneg _
    have h1 := mul_le_mul_of_nonneg_right (shift_anti hgap hgapκ) hstd0
    have hγs : ((1 + unitRoundoff p) ^ (xs.length + 1) - 1) * (C + B) ≤ ((1 + unitRoundoff p) ^ (s + 1) - 1) * (C + B) := by
      refine mul_le_mul_of_nonneg_right ?_ (by linarith)
      have := pow_le_pow_right₀ (by linarith : (1 : ℝ) ≤ 1 + unitRoundoff p) (by omega : xs.length + 1 ≤ s + 1)
      linarith
    have hκ0 : (0 : ℝ) < κ := by exact_mod_cast (by omega : 0 < κ)
    have h2 : |mean xs - (∑ i : Fin κ, (fun b => signVector b ⬝ᵥ (F *ᵥ signVector b)) (w (order (Fin.castLE hks i)))) / κ| ≤ B := by
      rw [hxs, mean_ofFn, ← sub_div, ← Finset.sum_sub_distrib, abs_div, abs_of_pos hκ0, div_le_iff₀ hκ0]
      refine (Finset.abs_sum_le_sum_abs _ _).trans ((Finset.sum_le_sum fun k _ => hB _ _ (hv (order (Fin.castLE hks k)))).trans
        (le_of_eq ?_))
      rw [Finset.sum_const, Finset.card_univ, Fintype.card_fin, nsmul_eq_mul]
      ring
    refine ⟨κ, ⟨a1, hks⟩, ?_⟩
    have h3 := abs_add_le (trace w - mean xs)
      (mean xs - (∑ i : Fin κ, (fun b => signVector b ⬝ᵥ (F *ᵥ signVector b)) (w (order (Fin.castLE hks i)))) / κ)
    rw [sub_add_sub_cancel] at h3
    linarith
  choose κ hκ hκt using key
  have h1 := stopped_average (fun b : Fin n → Bool => signVector b ⬝ᵥ (F *ᵥ signVector b)) (by omega : 0 < k₀) hs hκ order he
  simp only [expected_form F] at h1
  rw [variance_form hF] at h1
  refine le_trans ?_ h1
  unfold probability
  refine div_le_div_of_nonneg_right ?_ (Nat.cast_nonneg _)
  rw [Nat.cast_le]
  refine Finset.card_le_card fun w hw => ?_
  rw [Finset.mem_filter] at hw ⊢
  refine ⟨hw.1, ?_⟩
  have h2 := hκt w
  have h3 := hw.2
  set S := (∑ i : Fin (κ w), (fun b => signVector b ⬝ᵥ (F *ᵥ signVector b)) (w (order (Fin.castLE (hκ w).2 i)))) / κ w with hS
  have h4 := abs_sub_abs_le_abs_sub (trace w - F.trace) (trace w - S)
  rw [show trace w - F.trace - (trace w - S) = S - F.trace by ring] at h4
  show e ≤ |S - F.trace|
  linarith

/-- In double precision and with a thousand samples the default threshold of `3.29` is hardly smaller. -/
example : 3289 / 1000 ≤ gap 53 1000 (329 / 100) := by
  have hu : unitRoundoff 53 ≤ 1 / 10 ^ 15 := by
    unfold unitRoundoff
    rw [_root_.zpow_neg, zpow_natCast]
    norm_num
  have hu0 : 0 < unitRoundoff 53 := unit_pos 53
  have h1 : 1 - 1006 * unitRoundoff 53 ≤ (1 - unitRoundoff 53) ^ (1000 + 6) := by
    have := one_add_mul_le_pow (a := -unitRoundoff 53) (by linarith) 1006
    rw [show (1 : ℝ) - unitRoundoff 53 = 1 + -unitRoundoff 53 by ring]
    refine le_trans (le_of_eq ?_) this
    push_cast
    ring
  unfold gap
  rw [le_div_iff₀ (by linarith)]
  generalize (1 - unitRoundoff 53) ^ (1000 + 6) = P at *
  norm_num at hu
  linarith

/-- A run on one thread that may stop early, for samples that are computed from the vector. -/
noncomputable def roundedStoppingRun (sample : (Fin n → Bool) → ℝ) (w : Fin s → Fin n → Bool) : Config (Fl fl) :=
  { roundedRun sample w with numThreads := 1, minNumSamples := 2, rtol := Fl.fin (1 / 2) }

/-- Such runs meet the hypotheses, with a threshold of two standard deviations. -/
example (hp : 1 ≤ p) (h : Nearest p fl) (hs : 2 ≤ s) (hsp : s ≤ 2 ^ p) (hgap : 1 < gap p s 2) {Sample : (Fin n → Bool) → ℝ → Prop}
    (hS : ∀ b, ∃ v, Sample b v) :
    ∃ trace std : (Fin s → Fin n → Bool) → ℝ, ∀ w, ∃ (cfg : Config (Fl fl)) (ts : List ℕ) (st : State (Fl fl)) (q : Inquiry (Fl fl))
      (xs : List ℝ), RoundedStops cfg Sample 2 w ∧ run cfg (init cfg) ts = some st ∧ Finished cfg st ∧
      (st.processed <+: List.ofFn fun i => ((1 : Equiv.Perm (Fin s)) i).1) ∧ st.inqs[0]? = some q ∧
      (st.processed.take q.numSamplesUsed).map (fun i => cfg.value i 0) = xs.map Fl.fin ∧ std w = sampleStd xs ∧
      (averaged cfg (Fl.fin 1) (Fl.fin 2) st 0).trace = Fl.fin (trace w) := by
  choose sample hsample using hS
  have : ∀ w : Fin s → Fin n → Bool, ∃ t σ : ℝ, ∃ (cfg : Config (Fl fl)) (ts : List ℕ) (st : State (Fl fl)) (q : Inquiry (Fl fl))
      (xs : List ℝ), RoundedStops cfg Sample 2 w ∧ run cfg (init cfg) ts = some st ∧ Finished cfg st ∧
      (st.processed <+: List.ofFn fun i => ((1 : Equiv.Perm (Fin s)) i).1) ∧ st.inqs[0]? = some q ∧
      (st.processed.take q.numSamplesUsed).map (fun i => cfg.value i 0) = xs.map Fl.fin ∧ σ = sampleStd xs ∧
      (averaged cfg (Fl.fin 1) (Fl.fin 2) st 0).trace = Fl.fin t := fun w => by
    have hval : ∀ i : Fin s, (roundedStoppingRun (fl := fl) sample w).value i 0 = Fl.fin (sample (w i)) := fun i => by
      simp [roundedStoppingRun, roundedRun]
    have hd : RoundedStops (roundedStoppingRun (fl := fl) sample w) Sample 2 w :=
      ⟨by simp [roundedStoppingRun], rfl, rfl, rfl, fun i => ⟨_, hsample (w i), hval i⟩⟩
    obtain ⟨ts, st, hrun, hf⟩ := (loop_terminates (roundedStoppingRun (fl := fl) sample w)).2 [] _ rfl
    have hsep : Separate (roundedStoppingRun (fl := fl) sample w) := Or.inr hd.inquiries
    have hN : 0 < (roundedStoppingRun (fl := fl) sample w).numInquiries := by rw [hd.inquiries]; omega
    have hex : Exclusive (roundedStoppingRun (fl := fl) sample w) := Or.inr (by rw [hsep.required, hd.inquiries])
    obtain ⟨q, hq⟩ : ∃ q, st.inqs[0]? = some q := by
      have hlen : st.inqs.length = 1 := by rw [(inv_run hsep hN hrun).numInqs, hd.inquiries]
      exact ⟨_, List.getElem?_eq_getElem (by omega : 0 < st.inqs.length)⟩
    obtain ⟨a1, a2, a3, a4, a5⟩ := sample_accounting hsep hN hd.threads hrun hf hq
    rw [hd.min, hd.max, min_eq_left hs] at a1
    rw [hd.max] at a3
    have hks : q.numSamplesUsed ≤ s := by omega
    have hpre := one_thread_prefix rfl hd.max hd.inquiries hrun hf
    have ht := trace_is_average_of_values hsep hN hex hrun hq (Fl.fin 1) (Fl.fin 2)
    have htake := take_processed hpre a2 hks
    have hlist : (List.ofFn fun i : Fin q.numSamplesUsed => ((1 : Equiv.Perm (Fin s)) (Fin.castLE hks i)).1).map
        (fun i => (roundedStoppingRun (fl := fl) sample w).value i 0) =
        (List.ofFn fun i : Fin q.numSamplesUsed => sample (w (Fin.castLE hks i))).map (Fl.fin (fl := fl)) := by
      rw [List.map_ofFn, List.map_ofFn]
      congr 1
      funext i
      exact hval _
    rw [htake, hlist] at ht
    obtain ⟨C, hC⟩ : ∃ C : ℝ, ∀ x ∈ List.ofFn fun i : Fin q.numSamplesUsed => sample (w (Fin.castLE hks i)), |x| ≤ C := by
      refine ⟨∑ i : Fin s, |sample (w i)|, fun x hx => ?_⟩
      obtain ⟨i, rfl⟩ := List.mem_ofFn.1 hx
      exact Finset.single_le_sum (f := fun i : Fin s => |sample (w i)|) (fun _ _ => abs_nonneg _) (Finset.mem_univ (Fin.castLE hks i))
    have hC0 : 0 ≤ max C 0 := le_max_right _ _
    obtain ⟨t, t1, -⟩ := rounded_outliers_bounded hp h (ez := 1) (oz := 2) (by norm_num)
      (xs := List.ofFn fun i : Fin q.numSamplesUsed => sample (w (Fin.castLE hks i))) (by simp; omega) (by simp; omega)
      (lt_of_lt_of_le hgap (gap_anti hp (by simp; omega) (by norm_num))) hC0 fun x hx => (hC x hx).trans (le_max_left _ _)
    exact ⟨t, _, _, ts, st, q, _, hd, hrun, hf, hpre, hq, by rw [htake, hlist], rfl, by rw [ht]; exact t1⟩
  choose trace std htrace using this
  exact ⟨trace, std, htrace⟩

end Imate.Props
