import Verif.Props.StoppedEstimate

/-!
# C110: how far the removal of outliers moves the estimate
-/

namespace Imate.Props

open Matrix Spec Convergence Estimator Imate.Accuracy
open Imate.Lanczos (signVector)

variable {n s k₀ : ℕ}

theorem sum_partition (f : ℝ → ℝ) (q : ℝ → Bool) (xs : List ℝ) :
    ((xs.filter q).map f).sum + ((xs.filter fun x => !q x).map f).sum = (xs.map f).sum := by
  induction xs with
  | nil => simp
  | cons x xs ih =>
    cases h : q x
    · simp only [List.filter_cons, h, Bool.not_false, if_true, List.map_cons, List.sum_cons, Bool.false_eq_true, if_false]
      linarith
    · simp only [List.filter_cons, h, Bool.not_true, if_true, List.map_cons, List.sum_cons, Bool.false_eq_true, if_false]
      linarith

theorem length_partition (q : ℝ → Bool) (xs : List ℝ) : (xs.filter q).length + (xs.filter fun x => !q x).length = xs.length := by
  induction xs with
  | nil => simp
  | cons x xs ih => cases h : q x <;> simp [List.filter_cons, h] <;> omega

theorem sum_sq_le (f : ℝ → ℝ) (xs : List ℝ) : (xs.map f).sum ^ 2 ≤ xs.length * (xs.map fun x => f x ^ 2).sum := by
  induction xs with
  | nil => simp
  | cons x xs ih =>
    simp only [List.map_cons, List.sum_cons, List.length_cons]
    push_cast
    set S := (xs.map f).sum
    set Q := (xs.map fun x => f x ^ 2).sum
    rcases Nat.eq_zero_or_pos xs.length with h0 | h0
    · have : xs = [] := List.length_eq_zero_iff.1 h0
      subst this
      simp [S, Q]
    · have hn : (0 : ℝ) < xs.length := by exact_mod_cast h0
      have h1 : 2 * S * f x ≤ Q + xs.length * f x ^ 2 := by
        have h2 : 0 ≤ (S - xs.length * f x) ^ 2 := sq_nonneg _
        have h3 : xs.length * (2 * S * f x) ≤ xs.length * (Q + xs.length * f x ^ 2) := by nlinarith
        exact le_of_mul_le_mul_left h3 hn
      nlinarith

theorem sum_ge_length {xs : List ℝ} {f : ℝ → ℝ} {c : ℝ} (h : ∀ x ∈ xs, c ≤ f x) : xs.length * c ≤ (xs.map f).sum := by
  have := List.card_nsmul_le_sum (xs.map f) c (by
    intro y hy
    obtain ⟨x, hx, rfl⟩ := List.mem_map.1 hy
    exact h x hx)
  rwa [List.length_map, nsmul_eq_mul] at this

theorem sum_deviations {xs : List ℝ} (h : xs ≠ []) : (xs.map fun x => x - mean xs).sum = 0 := by
  have h1 : ∀ (c : ℝ) (l : List ℝ), (l.map fun x => x - c).sum = l.sum - l.length * c := fun c l => by
    induction l with
    | nil => simp
    | cons x l ih =>
      simp only [List.map_cons, List.sum_cons, List.length_cons, ih]
      push_cast
      ring
  rw [h1]
  unfold mean
  have : (xs.length : ℝ) ≠ 0 := by
    have := List.length_pos_iff.2 h
    positivity
  field_simp
  ring

/-- Few samples are far from a centre, in terms of the squared distances of all samples from it. -/
theorem few_far_of {xs : List ℝ} {ν : ℝ} (hN : 0 < ν) {z c : ℝ} (hz : 0 ≤ z) (q : ℝ → Bool)
    (hfar : ∀ x ∈ xs.filter fun x => !q x, z * Real.sqrt (sqDev c xs / ν) < |x - c|) :
    ((xs.filter fun x => !q x).length : ℝ) * z ^ 2 ≤ ν := by
  set out := xs.filter fun x => !q x with hout
  have hdev0 : ∀ l : List ℝ, 0 ≤ (l.map fun x => (x - c) ^ 2).sum := fun l =>
    List.sum_nonneg (by intro y hy; obtain ⟨x, _, rfl⟩ := List.mem_map.1 hy; positivity)
  have hpart := sum_partition (fun x => (x - c) ^ 2) q xs
  rw [← hout] at hpart
  have hout2 : (out.map fun x => (x - c) ^ 2).sum ≤ sqDev c xs := by
    have := hdev0 (xs.filter q)
    unfold sqDev
    linarith
  have hD0 : 0 ≤ sqDev c xs := hdev0 xs
  have hsq : Real.sqrt (sqDev c xs / ν) ^ 2 * ν = sqDev c xs := by
    rw [Real.sq_sqrt (div_nonneg hD0 hN.le)]
    field_simp
  set τ := Real.sqrt (sqDev c xs / ν)
  have hτ0 : 0 ≤ τ := Real.sqrt_nonneg _
  have h1 : (out.length : ℝ) * (z * τ) ^ 2 ≤ (out.map fun x => (x - c) ^ 2).sum :=
    sum_ge_length fun x hx => by
      rw [← sq_abs (x - c)]
      exact pow_le_pow_left₀ (mul_nonneg hz hτ0) (hfar x hx).le 2
  rcases hτ0.lt_or_eq with hpos | h0
  · have h2 : τ ^ 2 * ((out.length : ℝ) * z ^ 2) ≤ τ ^ 2 * ν := by
      calc _ = (out.length : ℝ) * (z * τ) ^ 2 := by ring
        _ ≤ _ := h1.trans hout2
        _ = _ := hsq.symm
    exact le_of_mul_le_mul_left h2 (by positivity)
  · have h2 : out = [] := by
      by_contra hc
      obtain ⟨x, hx⟩ := List.exists_mem_of_ne_nil _ hc
      have h3 := hfar x hx
      rw [← h0, mul_zero] at h3
      have h4 : (x - c) ^ 2 ≤ (out.map fun x => (x - c) ^ 2).sum :=
        List.single_le_sum (by intro y hy; obtain ⟨x, _, rfl⟩ := List.mem_map.1 hy; positivity) _
          (List.mem_map.2 ⟨x, hx, rfl⟩)
      rw [← h0] at hsq
      have h5 : 0 < (x - c) ^ 2 := by rw [← sq_abs]; positivity
      linarith
    rw [h2]
    simp
    linarith

theorem few_far {xs : List ℝ} (h : 2 ≤ xs.length) {z c : ℝ} (hz : 0 ≤ z) (q : ℝ → Bool)
    (hfar : ∀ x ∈ xs.filter fun x => !q x, z * Real.sqrt (sqDev c xs / (xs.length - 1)) < |x - c|) :
    ((xs.filter fun x => !q x).length : ℝ) * z ^ 2 ≤ xs.length - 1 := by
  have hs : (2 : ℝ) ≤ xs.length := by exact_mod_cast h
  exact few_far_of (by linarith) hz q hfar

/-- If few samples are removed the mean moves a little. -/
theorem kept_near_of {xs : List ℝ} {ν : ℝ} (hN0 : 0 < ν) (hν : ν ≤ xs.length) {z : ℝ} (hz : 1 < z) (q : ℝ → Bool)
    (hfew : ((xs.filter fun x => !q x).length : ℝ) * z ^ 2 ≤ ν) :
    xs.filter q ≠ [] ∧ |mean (xs.filter q) - mean xs| ≤ z / (z ^ 2 - 1) * Real.sqrt (sqDev (mean xs) xs / ν) := by
  have hne : xs ≠ [] := by
    rintro rfl
    simp at hν
    linarith
  set out := xs.filter fun x => !q x with hout
  set kept := xs.filter q with hkept
  have hlen := length_partition q xs
  rw [← hkept, ← hout] at hlen
  have hlen' : (kept.length : ℝ) + out.length = xs.length := by exact_mod_cast hlen
  have hdev0 : ∀ l : List ℝ, 0 ≤ (l.map fun x => (x - mean xs) ^ 2).sum := fun l =>
    List.sum_nonneg (by intro y hy; obtain ⟨x, _, rfl⟩ := List.mem_map.1 hy; positivity)
  have hσ : Real.sqrt (sqDev (mean xs) xs / ν) ^ 2 * ν = (xs.map fun x => (x - mean xs) ^ 2).sum := by
    unfold sqDev
    rw [Real.sq_sqrt (div_nonneg (hdev0 xs) hN0.le)]
    field_simp
  have hσ0 : 0 ≤ Real.sqrt (sqDev (mean xs) xs / ν) := Real.sqrt_nonneg _
  set σ := Real.sqrt (sqDev (mean xs) xs / ν)
  have hpart := sum_partition (fun x => (x - mean xs) ^ 2) q xs
  rw [← hkept, ← hout, ← hσ] at hpart
  have hout2 : (out.map fun x => (x - mean xs) ^ 2).sum ≤ σ ^ 2 * ν := by
    have := hdev0 kept
    linarith
  have hz2 : 0 < z ^ 2 - 1 := by nlinarith
  have hr0 : (0 : ℝ) < kept.length := by
    by_contra hc
    have h1 : (kept.length : ℝ) = 0 := le_antisymm (not_lt.1 hc) (Nat.cast_nonneg _)
    have h2 : (out.length : ℝ) = xs.length := by linarith
    rw [h2] at hfew
    nlinarith
  have hrne : kept ≠ [] := by
    intro h0
    rw [h0] at hr0
    simp at hr0
  refine ⟨hrne, ?_⟩
  -- the deviations of the retained samples are those of the outliers
  have hdev := sum_partition (fun x => x - mean xs) q xs
  rw [← hkept, ← hout, sum_deviations hne] at hdev
  have hshift : (mean kept - mean xs) * kept.length = (kept.map fun x => x - mean xs).sum := by
    have h1 : ∀ (c : ℝ) (l : List ℝ), (l.map fun x => x - c).sum = l.sum - l.length * c := fun c l => by
      induction l with
      | nil => simp
      | cons x l ih =>
        simp only [List.map_cons, List.sum_cons, List.length_cons, ih]
        push_cast
        ring
    rw [h1]
    have : mean kept * kept.length = kept.sum := by
      unfold mean
      field_simp
    linarith
  have hcs := sum_sq_le (fun x => x - mean xs) out
  have hsq : ((mean kept - mean xs) * kept.length) ^ 2 ≤
      out.length * (σ ^ 2 * ν) := by
    rw [hshift, show (kept.map fun x => x - mean xs).sum = -(out.map fun x => x - mean xs).sum by linarith, neg_sq]
    exact hcs.trans (mul_le_mul_of_nonneg_left hout2 (Nat.cast_nonneg _))
  -- `(r d)² ≤ k σ² (s - 1) ≤ σ² (s - 1)² / z²` and `r ≥ (s - 1) (1 - 1 / z²)`
  set d := mean kept - mean xs
  set r : ℝ := (kept.length : ℝ)
  set k : ℝ := (out.length : ℝ)
  have hr : ν * (z ^ 2 - 1) ≤ r * z ^ 2 := by
    have : r = xs.length - k := by linarith
    rw [this]
    nlinarith
  have h1 : (r * d * z) ^ 2 ≤ (σ * ν) ^ 2 := by
    have h2 : (d * r) ^ 2 * z ^ 2 ≤ k * (σ ^ 2 * ν) * z ^ 2 := mul_le_mul_of_nonneg_right hsq (by positivity)
    have h3 : k * z ^ 2 * (σ ^ 2 * ν) ≤ ν * (σ ^ 2 * ν) := mul_le_mul_of_nonneg_right hfew (by positivity)
    calc _ = (d * r) ^ 2 * z ^ 2 := by ring
      _ ≤ _ := h2
      _ = k * z ^ 2 * (σ ^ 2 * ν) := by ring
      _ ≤ _ := h3
      _ = _ := by ring
  have h2 := abs_le_of_sq_le_sq h1 (mul_nonneg hσ0 hN0.le)
  have h3 : r * z * |d| ≤ σ * ν := by
    have : |r * d * z| = r * z * |d| := by
      rw [abs_mul, abs_mul, abs_of_pos hr0, abs_of_pos (by linarith : (0 : ℝ) < z)]
      ring
    rw [← this]
    exact h2
  have h4 : ν * ((z ^ 2 - 1) * |d|) ≤ ν * (z * σ) := by
    calc _ = ν * (z ^ 2 - 1) * |d| := by ring
      _ ≤ r * z ^ 2 * |d| := mul_le_mul_of_nonneg_right hr (abs_nonneg _)
      _ = z * (r * z * |d|) := by ring
      _ ≤ z * (σ * ν) := mul_le_mul_of_nonneg_left h3 (by linarith)
      _ = _ := by ring
  have h5 := le_of_mul_le_mul_left h4 hN0
  rw [div_mul_eq_mul_div, le_div_iff₀ hz2]
  linarith

theorem kept_near {xs : List ℝ} (h : 2 ≤ xs.length) {z : ℝ} (hz : 1 < z) (q : ℝ → Bool)
    (hfew : ((xs.filter fun x => !q x).length : ℝ) * z ^ 2 ≤ xs.length - 1) :
    xs.filter q ≠ [] ∧ |mean (xs.filter q) - mean xs| ≤ z / (z ^ 2 - 1) * sampleStd xs := by
  have hs : (2 : ℝ) ≤ xs.length := by exact_mod_cast h
  exact kept_near_of (by linarith) (by linarith) hz q hfew

/-- The number of outliers, and how far the mean moves when they are left out. -/
theorem retained_near {xs : List ℝ} (h : 2 ≤ xs.length) {z : ℝ} (hz : 1 < z) :
    ((xs.length : ℝ) - (retained z xs).length) * z ^ 2 ≤ xs.length - 1 ∧
      |mean (retained z xs) - mean xs| ≤ z / (z ^ 2 - 1) * sampleStd xs := by
  set q : ℝ → Bool := fun x => decide (|x - mean xs| ≤ z * sampleStd xs) with hq
  have hkept : retained z xs = xs.filter q := rfl
  have hlen : ((xs.filter q).length : ℝ) + (xs.filter fun x => !q x).length = xs.length := by exact_mod_cast length_partition q xs
  have hfew := few_far h (c := mean xs) (by linarith : 0 ≤ z) q fun x hx => by
    have h1 := (List.mem_filter.1 hx).2
    by_contra hc
    rw [show q x = true from decide_eq_true (not_lt.1 hc)] at h1
    cases h1
  refine ⟨?_, by rw [hkept]; exact (kept_near h hz q hfew).2⟩
  rw [hkept, show (xs.length : ℝ) - (xs.filter q).length = (xs.filter fun x => !q x).length by linarith]
  exact hfew

/-- C110: with a threshold of `outlierZ > 1` standard deviations, fewer than one sample in `outlierZ²` is removed, and the reported trace
differs from the mean of all samples by at most `outlierZ / (outlierZ² - 1)` standard deviations. -/
theorem outliers_bounded {xs : List ℝ} (h : 2 ≤ xs.length) (errorZ : ℝ) {outlierZ : ℝ} (hz : 1 < outlierZ) :
    ∃ t, (averageEstimate (XR.fin errorZ) (XR.fin outlierZ) (xs.map XR.fin)).trace = XR.fin t ∧
      ((averageEstimate (XR.fin errorZ) (XR.fin outlierZ) (xs.map XR.fin)).numOutliers : ℝ) * outlierZ ^ 2 ≤ xs.length - 1 ∧
      |t - mean xs| ≤ outlierZ / (outlierZ ^ 2 - 1) * sampleStd xs := by
  obtain ⟨h1, h2⟩ := retained_near h hz
  obtain ⟨e1, e2, -⟩ := estimate_is_mean_of_retained h errorZ outlierZ (some_sample_retained h hz.le)
  refine ⟨_, e1, ?_, h2⟩
  rw [e2, Nat.cast_sub (show (retained outlierZ xs).length ≤ xs.length from List.length_filter_le _ _)]
  exact h1

/-- With the default level the threshold is above `3.29`: less than a tenth of the samples, and a third of a standard deviation. -/
example {xs : List ℝ} (h : 2 ≤ xs.length) {z : ℝ} (hz : (329 / 100 : ℝ) ≤ z) :
    ∃ t, (averageEstimate (XR.fin 2) (XR.fin z) (xs.map XR.fin)).trace = XR.fin t ∧ |t - mean xs| ≤ 34 / 100 * sampleStd xs := by
  obtain ⟨t, h1, -, h3⟩ := outliers_bounded h 2 (by linarith : 1 < z)
  refine ⟨t, h1, h3.trans (mul_le_mul_of_nonneg_right ?_ (Real.sqrt_nonneg _))⟩
  rw [div_le_iff₀ (by nlinarith)]
  nlinarith

/-- C110 with the stopping rule (C109): the trace reported with outliers removed. -/
theorem stopped_estimate_outliers {F : Matrix (Fin n) (Fin n) ℝ} (hF : F.IsSymm) (hk₀ : 2 ≤ k₀) (hs : k₀ ≤ s) {z outlierZ : ℝ}
    (hz : 1 < outlierZ) (order : Equiv.Perm (Fin s)) {trace std : (Fin s → Fin n → Bool) → ℝ}
    (htrace : ∀ w, ∃ (cfg : Config (XR ℝ)) (ts : List ℕ) (st : State (XR ℝ)) (q : Inquiry (XR ℝ)) (xs : List ℝ), Draws cfg F w ∧
      cfg.minNumSamples = k₀ ∧ run cfg (init cfg) ts = some st ∧ Finished cfg st ∧
      (st.processed <+: List.ofFn fun i => (order i).1) ∧ st.inqs[0]? = some q ∧
      (st.processed.take q.numSamplesUsed).map (fun i => cfg.value i 0) = xs.map XR.fin ∧ std w = sampleStd xs ∧
      (averaged cfg (.fin z) (.fin outlierZ) st 0).trace = .fin (trace w)) {e : ℝ} (he : 0 < e)
    [DecidablePred fun w => e + outlierZ / (outlierZ ^ 2 - 1) * std w ≤ |trace w - F.trace|] :
    probability (fun w => e + outlierZ / (outlierZ ^ 2 - 1) * std w ≤ |trace w - F.trace|) ≤ 2 * offDiagonal F / (k₀ * e ^ 2) := by
  classical
  have key : ∀ w, ∃ κ : ℕ, ∃ hκ : k₀ ≤ κ ∧ κ ≤ s,
      |trace w - (∑ i : Fin κ, (fun b => signVector b ⬝ᵥ (F *ᵥ signVector b)) (w (order (Fin.castLE hκ.2 i)))) / κ| ≤
        outlierZ / (outlierZ ^ 2 - 1) * std w := fun w => by
    obtain ⟨cfg, ts, st, q, xs, hd, hmin, hrun, hf, hord, hq, hxs, hstd, ht⟩ := htrace w
    have hsep : Separate cfg := Or.inr hd.inquiries
    have hN : 0 < cfg.numInquiries := by rw [hd.inquiries]; omega
    have hex : Exclusive cfg := Or.inr (by rw [hsep.required, hd.inquiries])
    obtain ⟨a1, a2, a3, a4, a5⟩ := sample_accounting hsep hN hd.threads hrun hf hq
    rw [hmin, hd.max, min_eq_left hs] at a1
    rw [hd.max] at a3
    refine ⟨q.numSamplesUsed, ⟨a1, by omega⟩, ?_⟩
    rw [trace_is_average_of_values hsep hN hex hrun hq, take_processed hord a2 (by omega)] at ht
    rw [take_processed hord a2 (by omega)] at hxs
    have hlist : (List.ofFn fun i : Fin q.numSamplesUsed => (order (Fin.castLE (by omega) i)).1).map (fun i => cfg.value i 0) =
        (List.ofFn fun i : Fin q.numSamplesUsed => signVector (w (order (Fin.castLE (by omega) i))) ⬝ᵥ
          (F *ᵥ signVector (w (order (Fin.castLE (by omega) i))))).map XR.fin := by
      rw [List.map_ofFn, List.map_ofFn]
      congr 1
      funext i
      exact hd.value _
    rw [hlist] at ht hxs
    have hinj : Function.Injective (XR.fin : ℝ → XR ℝ) := fun _ _ h => XR.fin.inj h
    rw [← List.map_injective_iff.2 hinj hxs] at hstd
    obtain ⟨t, t1, -, t3⟩ := outliers_bounded (xs := List.ofFn fun i : Fin q.numSamplesUsed =>
      signVector (w (order (Fin.castLE (by omega) i))) ⬝ᵥ (F *ᵥ signVector (w (order (Fin.castLE (by omega) i))))) (by simp; omega) z hz
    rw [XR.fin.inj (t1.symm.trans ht), ← hstd, mean_ofFn] at t3
    exact t3
  choose κ hκ hκt using key
  have h1 := stopped_average (fun b : Fin n → Bool => signVector b ⬝ᵥ (F *ᵥ signVector b)) (by omega : 0 < k₀) hs hκ order he
  simp only [expected_form F] at h1
  rw [variance_form hF] at h1
  refine le_trans ?_ h1
  unfold probability
  refine div_le_div_of_nonneg_right ?_ (Nat.cast_nonneg _)
  rw [Nat.cast_le]
  refine Finset.card_le_card fun w hw => ?_
  rw [Finset.mem_filter] at hw ⊢
  refine ⟨hw.1, ?_⟩
  have h2 := hκt w
  have h3 := hw.2
  set S := (∑ i : Fin (κ w), (fun b => signVector b ⬝ᵥ (F *ᵥ signVector b)) (w (order (Fin.castLE (hκ w).2 i)))) / κ w with hS
  have h4 := abs_sub_abs_le_abs_sub (trace w - F.trace) (trace w - S)
  rw [show trace w - F.trace - (trace w - S) = S - F.trace by ring] at h4
  show e ≤ |S - F.trace|
  linarith

/-- One thread that stops early and removes what is more than two standard deviations off meets the hypotheses. -/
example (F : Matrix (Fin n) (Fin n) ℝ) (hs : 2 ≤ s) (z : ℝ) :
    ∃ trace std : (Fin s → Fin n → Bool) → ℝ, ∀ w, ∃ (cfg : Config (XR ℝ)) (ts : List ℕ) (st : State (XR ℝ)) (q : Inquiry (XR ℝ))
      (xs : List ℝ), Draws cfg F w ∧
      cfg.minNumSamples = 2 ∧ run cfg (init cfg) ts = some st ∧ Finished cfg st ∧
      (st.processed <+: List.ofFn fun i => ((1 : Equiv.Perm (Fin s)) i).1) ∧ st.inqs[0]? = some q ∧
      (st.processed.take q.numSamplesUsed).map (fun i => cfg.value i 0) = xs.map XR.fin ∧ std w = sampleStd xs ∧
      (averaged cfg (.fin z) (.fin 2) st 0).trace = .fin (trace w) := by
  have : ∀ w : Fin s → Fin n → Bool, ∃ t σ : ℝ, ∃ (cfg : Config (XR ℝ)) (ts : List ℕ) (st : State (XR ℝ)) (q : Inquiry (XR ℝ))
      (xs : List ℝ), Draws cfg F w ∧
      cfg.minNumSamples = 2 ∧ run cfg (init cfg) ts = some st ∧ Finished cfg st ∧
      (st.processed <+: List.ofFn fun i => ((1 : Equiv.Perm (Fin s)) i).1) ∧ st.inqs[0]? = some q ∧
      (st.processed.take q.numSamplesUsed).map (fun i => cfg.value i 0) = xs.map XR.fin ∧ σ = sampleStd xs ∧
      (averaged cfg (.fin z) (.fin 2) st 0).trace = .fin t := fun w => by
    have hd : Draws (stoppingRun F w) F w := ⟨by simp [stoppingRun], rfl, rfl, fun i => by simp [stoppingRun, fixedRun]⟩
    obtain ⟨ts, st, hrun, hf⟩ := (loop_terminates (stoppingRun F w)).2 [] _ rfl
    have hsep : Separate (stoppingRun F w) := Or.inr hd.inquiries
    have hN : 0 < (stoppingRun F w).numInquiries := by rw [hd.inquiries]; omega
    have hex : Exclusive (stoppingRun F w) := Or.inr (by rw [hsep.required, hd.inquiries])
    obtain ⟨q, hq⟩ := hd.inquiry hrun
    obtain ⟨a1, a2, a3, a4, a5⟩ := sample_accounting hsep hN hd.threads hrun hf hq
    have h2 : (stoppingRun F w).minNumSamples = 2 := rfl
    rw [h2, hd.max, min_eq_left hs] at a1
    rw [hd.max] at a3
    have hpre := one_thread_prefix rfl hd.max hd.inquiries hrun hf
    have ht := trace_is_average_of_values hsep hN hex hrun hq (.fin z) (.fin 2)
    have hlist : (List.ofFn fun i : Fin q.numSamplesUsed => ((1 : Equiv.Perm (Fin s)) (Fin.castLE (by omega) i)).1).map
        (fun i => (stoppingRun F w).value i 0) =
        (List.ofFn fun i : Fin q.numSamplesUsed => signVector (w (Fin.castLE (by omega) i)) ⬝ᵥ
          (F *ᵥ signVector (w (Fin.castLE (by omega) i)))).map XR.fin := by
      rw [List.map_ofFn, List.map_ofFn]
      congr 1
      funext i
      exact hd.value _
    have htake := take_processed hpre a2 (by omega)
    rw [htake, hlist] at ht
    obtain ⟨t, t1, -⟩ := outliers_bounded (xs := List.ofFn fun i : Fin q.numSamplesUsed => signVector (w (Fin.castLE (by omega) i)) ⬝ᵥ
          (F *ᵥ signVector (w (Fin.castLE (by omega) i)))) (by simp; omega) z (by norm_num : (1 : ℝ) < 2)
    exact ⟨t, _, _, ts, st, q, _, hd, rfl, hrun, hf, hpre, hq, by rw [htake, hlist], rfl, by rw [ht]; exact t1⟩
  choose trace std htrace using this
  exact ⟨trace, std, htrace⟩

end Imate.Props
