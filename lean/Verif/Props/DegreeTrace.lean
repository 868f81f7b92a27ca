import Verif.Props.DegreeMono
import Verif.Props.EstimateRange

/-!
# C116: the reported trace of two runs with the same vectors and a fixed number of samples

The two runs may differ in the number of threads and in the schedule; neither drops an outlier.
-/

namespace Imate.Props

open Matrix Imate.Lanczos Imate.Spec Imate.Gauss Imate.Accuracy
open Convergence Estimator

variable {n N : Nat} {z : ℕ → Fin n → ℝ} {ext : External ℝ} {opt opt' : Options ℝ} {op : Operator ℝ n}
  {f : ℝ → ℝ} {M : ℝ → Matrix (Fin n) (Fin n) ℝ} {cfg cfg' : Config (XR ℝ)} {t : ℝ}

/-- A run with one inquiry, with the parameter `t`, and with exactly `N` samples (`min_num_samples` and `max_num_samples` are `N`), whose
number `i` is what a sample computes for the vector `z i`; the contents of the work arrays are arbitrary. -/
structure FixedRun (cfg : Config (XR ℝ)) (ext : External ℝ) (opt : Options ℝ) (op : Operator ℝ n) (f : ℝ → ℝ) (t : ℝ) (N : ℕ)
    (z : ℕ → Fin n → ℝ) : Prop where
  threads : 0 < cfg.numThreads
  inquiries : cfg.numInquiries = 1
  samples : cfg.minNumSamples = N ∧ cfg.maxNumSamples = N
  value : ∀ i < N, ∃ (junkAlpha junkBeta : Array ℝ) (e0 v : ℝ), junkAlpha.size = opt.degree ∧ junkBeta.size = opt.degree ∧
    slqSample ext opt op f #[t] 1 (z i) junkAlpha junkBeta #[false] #[e0] = .ok (#[false], #[v]) ∧ cfg.value i 0 = .fin v

/-- An estimate without outliers is the mean. -/
theorem estimate_without_outliers {errorZ outlierZ : XR ℝ} {xs : List ℝ} (h0 : xs ≠ [])
    (h : (averageEstimate errorZ outlierZ (xs.map XR.fin)).numOutliers = 0) :
    (averageEstimate errorZ outlierZ (xs.map XR.fin)).trace = XR.fin (mean xs) := by
  unfold averageEstimate at h ⊢
  simp only at h ⊢
  rw [h, Nat.sub_zero, List.filter_eq_self.2, ← meanOf_fin h0]
  · rfl
  · intro x hx
    have := List.countP_eq_zero.1 h x hx
    simpa using this

/-- The trace reported by such a run is the mean of the values, in whatever order they were computed. -/
theorem FixedRun.trace (hrun : FixedRun cfg ext opt op f t N z) (hN : 0 < N) {v : ℕ → ℝ} (hv : ∀ i < N, cfg.value i 0 = .fin (v i))
    {ts : List ℕ} {st : State (XR ℝ)} (hst : run cfg (init cfg) ts = some st) (hf : Finished cfg st) {errorZ outlierZ : XR ℝ}
    (ho : (averaged cfg errorZ outlierZ st 0).numOutliers = 0) :
    (averaged cfg errorZ outlierZ st 0).trace = .fin ((∑ i ∈ Finset.range N, v i) / N) := by
  have hsep : Separate cfg := Or.inr hrun.inquiries
  have hI : 0 < cfg.numInquiries := by rw [hrun.inquiries]; omega
  have hex : Exclusive cfg := Or.inr (by rw [hsep.required, hrun.inquiries])
  have hlen : st.inqs.length = 1 := by rw [(inv_run hsep hI hst).numInqs, hrun.inquiries]
  obtain ⟨q, hq⟩ : ∃ q, st.inqs[0]? = some q := ⟨st.inqs[0], List.getElem?_eq_getElem (by omega)⟩
  obtain ⟨a1, a2, a3, a4, a5⟩ := sample_accounting hsep hI hrun.threads hst hf hq
  rw [hrun.samples.1, hrun.samples.2, Nat.min_self] at a1
  rw [hrun.samples.2] at a3 a5
  have hused : st.processed.take q.numSamplesUsed = st.processed := List.take_of_length_le (by omega)
  have hperm : st.processed.Perm (List.range N) := by
    refine (List.subperm_of_subset a4 fun i hi => List.mem_range.2 (a5 i hi)).perm_of_length_le ?_
    rw [List.length_range]
    omega
  have hlist : st.processed.map (fun i => cfg.value i 0) = (st.processed.map v).map XR.fin := by
    rw [List.map_map]
    exact List.map_congr_left fun i hi => hv i (a5 i hi)
  rw [trace_is_average_of_values hsep hI hex hst hq, hused, hlist] at ho ⊢
  have hl : st.processed.length = N := by omega
  rw [estimate_without_outliers (fun h0 => by
    have := congrArg List.length h0
    rw [List.length_map, hl, List.length_nil] at this
    omega) ho]
  congr 1
  unfold mean
  rw [List.length_map, hl, (hperm.map v).sum_eq]
  congr 1

/-- The two lists of values. -/
theorem fixed_values (hrun : FixedRun cfg ext opt op f t N z) : ∃ v : ℕ → ℝ, ∀ i < N, cfg.value i 0 = .fin (v i) := by
  refine ⟨fun i => if h : i < N then (hrun.value i h).choose_spec.choose_spec.choose_spec.choose else 0, fun i hi => ?_⟩
  simp only [dif_pos hi]
  exact (hrun.value i hi).choose_spec.choose_spec.choose_spec.choose_spec.2.2.2

section
variable {errorZ outlierZ errorZ' outlierZ' : XR ℝ} {ts ts' : List ℕ} {st st' : State (XR ℝ)}
  {Q : Matrix (Fin n) (Fin n) ℝ} {lam : Fin n → ℝ}

/-- **C116, the reported trace of `traceinv`.** -/
theorem slq_traceinv_trace_finer (hfin : Finer opt opt') (hr : ExactRun ext opt op M #[t]) (hn : 0 < n) (hN : 0 < N)
    (hz : ∀ i < N, Rademacher (z i))
    (hrun : FixedRun cfg ext opt op f t N z) (hrun' : FixedRun cfg' ext opt' op f t N z)
    (hf : ∀ x, 0 < x → f (ext.pow x opt.exponent) = x⁻¹)
    (hQ : Spectral (target opt.gram (M t)) Q lam) (hl : ∀ i, 0 < lam i)
    (hst : run cfg (init cfg) ts = some st) (hend : Finished cfg st) (ho : (averaged cfg errorZ outlierZ st 0).numOutliers = 0)
    (hst' : run cfg' (init cfg') ts' = some st') (hend' : Finished cfg' st')
    (ho' : (averaged cfg' errorZ' outlierZ' st' 0).numOutliers = 0) :
    ∃ trace trace', (averaged cfg errorZ outlierZ st 0).trace = .fin trace ∧
      (averaged cfg' errorZ' outlierZ' st' 0).trace = .fin trace' ∧ trace ≤ trace' ∧
      trace' ≤ (∑ i ∈ Finset.range N, z i ⬝ᵥ ((target opt.gram (M t))⁻¹ *ᵥ z i)) / N := by
  obtain ⟨v, hv⟩ := fixed_values hrun
  obtain ⟨v', hv'⟩ := fixed_values hrun'
  have key : ∀ i < N, v i ≤ v' i ∧ v' i ≤ z i ⬝ᵥ ((target opt.gram (M t))⁻¹ *ᵥ z i) := fun i hi => by
    obtain ⟨ja, jb, e0, w, hja, hjb, hs, hw⟩ := hrun.value i hi
    obtain ⟨ja', jb', e0', w', hja', hjb', hs', hw'⟩ := hrun'.value i hi
    obtain ⟨e, e', h1, h1', h3⟩ := slq_traceinv_finer (num := 1) (converged := #[false]) (estimate := #[e0]) (estimate' := #[e0'])
      hfin hr (Or.inr rfl) hn (hz i hi) rfl rfl rfl rfl hja hjb hja' hjb' hf
    rw [hs] at h1
    rw [hs'] at h1'
    obtain rfl : #[w] = e := by simpa using h1
    obtain rfl : #[w'] = e' := by simpa using h1'
    obtain ⟨x, x', h4, h4', h5⟩ := h3 0 (by norm_num) t rfl rfl
    obtain rfl : w = x := by simpa using h4
    obtain rfl : w' = x' := by simpa using h4'
    rw [hv i hi] at hw
    rw [hv' i hi] at hw'
    cases hw
    cases hw'
    exact h5 Q lam hQ hl
  have hN' : (0 : ℝ) ≤ N := Nat.cast_nonneg _
  exact ⟨_, _, hrun.trace hN hv hst hend ho, hrun'.trace hN hv' hst' hend' ho',
    div_le_div_of_nonneg_right (Finset.sum_le_sum fun i hi => (key i (Finset.mem_range.1 hi)).1) hN',
    div_le_div_of_nonneg_right (Finset.sum_le_sum fun i hi => (key i (Finset.mem_range.1 hi)).2) hN'⟩

/-- **C116, the reported trace of `logdet`.** -/
theorem slq_logdet_trace_finer (hfin : Finer opt opt') (hr : ExactRun ext opt op M #[t]) (hn : 0 < n) (hN : 0 < N)
    (hz : ∀ i < N, Rademacher (z i))
    (hrun : FixedRun cfg ext opt op f t N z) (hrun' : FixedRun cfg' ext opt' op f t N z) {p : ℝ} (hp : 0 ≤ p)
    (hf : ∀ x, 0 < x → f (ext.pow x opt.exponent) = p * Real.log x)
    (hQ : Spectral (target opt.gram (M t)) Q lam) (hl : ∀ i, 0 < lam i)
    (hst : run cfg (init cfg) ts = some st) (hend : Finished cfg st) (ho : (averaged cfg errorZ outlierZ st 0).numOutliers = 0)
    (hst' : run cfg' (init cfg') ts' = some st') (hend' : Finished cfg' st')
    (ho' : (averaged cfg' errorZ' outlierZ' st' 0).numOutliers = 0) :
    ∃ trace trace', (averaged cfg errorZ outlierZ st 0).trace = .fin trace ∧
      (averaged cfg' errorZ' outlierZ' st' 0).trace = .fin trace' ∧ trace' ≤ trace ∧
      (∑ i ∈ Finset.range N, p * z i ⬝ᵥ (matrixFunction Real.log Q lam *ᵥ z i)) / N ≤ trace' := by
  obtain ⟨v, hv⟩ := fixed_values hrun
  obtain ⟨v', hv'⟩ := fixed_values hrun'
  have key : ∀ i < N, p * z i ⬝ᵥ (matrixFunction Real.log Q lam *ᵥ z i) ≤ v' i ∧ v' i ≤ v i := fun i hi => by
    obtain ⟨ja, jb, e0, w, hja, hjb, hs, hw⟩ := hrun.value i hi
    obtain ⟨ja', jb', e0', w', hja', hjb', hs', hw'⟩ := hrun'.value i hi
    obtain ⟨e, e', h1, h1', h3⟩ := slq_logdet_finer (num := 1) (converged := #[false]) (estimate := #[e0]) (estimate' := #[e0'])
      hfin hr (Or.inr rfl) hn (hz i hi) rfl rfl rfl rfl hja hjb hja' hjb' hp hf
    rw [hs] at h1
    rw [hs'] at h1'
    obtain rfl : #[w] = e := by simpa using h1
    obtain rfl : #[w'] = e' := by simpa using h1'
    obtain ⟨x, x', h4, h4', h5⟩ := h3 0 (by norm_num) t rfl rfl
    obtain rfl : w = x := by simpa using h4
    obtain rfl : w' = x' := by simpa using h4'
    rw [hv i hi] at hw
    rw [hv' i hi] at hw'
    cases hw
    cases hw'
    exact h5 Q lam hQ hl
  have hN' : (0 : ℝ) ≤ N := Nat.cast_nonneg _
  exact ⟨_, _, hrun.trace hN hv hst hend ho, hrun'.trace hN hv' hst' hend' ho',
    div_le_div_of_nonneg_right (Finset.sum_le_sum fun i hi => (key i (Finset.mem_range.1 hi)).2) hN',
    div_le_div_of_nonneg_right (Finset.sum_le_sum fun i hi => (key i (Finset.mem_range.1 hi)).1) hN'⟩

/-- **C116, the reported trace of the exponential.** -/
theorem slq_trexp_trace_finer (hfin : Finer opt opt') (hr : ExactRun ext opt op M #[t]) (hn : 0 < n) (hN : 0 < N)
    (hz : ∀ i < N, Rademacher (z i))
    (hrun : FixedRun cfg ext opt op f t N z) (hrun' : FixedRun cfg' ext opt' op f t N z) {c : ℝ}
    (hf : ∀ x, f (ext.pow x opt.exponent) = Real.exp (c * x))
    (hQ : Spectral (target opt.gram (M t)) Q lam)
    (hst : run cfg (init cfg) ts = some st) (hend : Finished cfg st) (ho : (averaged cfg errorZ outlierZ st 0).numOutliers = 0)
    (hst' : run cfg' (init cfg') ts' = some st') (hend' : Finished cfg' st')
    (ho' : (averaged cfg' errorZ' outlierZ' st' 0).numOutliers = 0) :
    ∃ trace trace', (averaged cfg errorZ outlierZ st 0).trace = .fin trace ∧
      (averaged cfg' errorZ' outlierZ' st' 0).trace = .fin trace' ∧ trace ≤ trace' ∧
      trace' ≤ (∑ i ∈ Finset.range N, z i ⬝ᵥ (matrixFunction (fun x => Real.exp (c * x)) Q lam *ᵥ z i)) / N := by
  obtain ⟨v, hv⟩ := fixed_values hrun
  obtain ⟨v', hv'⟩ := fixed_values hrun'
  have key : ∀ i < N, v i ≤ v' i ∧ v' i ≤ z i ⬝ᵥ (matrixFunction (fun x => Real.exp (c * x)) Q lam *ᵥ z i) := fun i hi => by
    obtain ⟨ja, jb, e0, w, hja, hjb, hs, hw⟩ := hrun.value i hi
    obtain ⟨ja', jb', e0', w', hja', hjb', hs', hw'⟩ := hrun'.value i hi
    obtain ⟨e, e', h1, h1', h3⟩ := slq_trexp_finer (num := 1) (converged := #[false]) (estimate := #[e0]) (estimate' := #[e0'])
      hfin hr (Or.inr rfl) hn (hz i hi) rfl rfl rfl rfl hja hjb hja' hjb' hf
    rw [hs] at h1
    rw [hs'] at h1'
    obtain rfl : #[w] = e := by simpa using h1
    obtain rfl : #[w'] = e' := by simpa using h1'
    obtain ⟨x, x', h4, h4', h5⟩ := h3 0 (by norm_num) t rfl rfl
    obtain rfl : w = x := by simpa using h4
    obtain rfl : w' = x' := by simpa using h4'
    rw [hv i hi] at hw
    rw [hv' i hi] at hw'
    cases hw
    cases hw'
    exact h5 Q lam hQ
  have hN' : (0 : ℝ) ≤ N := Nat.cast_nonneg _
  exact ⟨_, _, hrun.trace hN hv hst hend ho, hrun'.trace hN hv' hst' hend' ho',
    div_le_div_of_nonneg_right (Finset.sum_le_sum fun i hi => (key i (Finset.mem_range.1 hi)).1) hN',
    div_le_div_of_nonneg_right (Finset.sum_le_sum fun i hi => (key i (Finset.mem_range.1 hi)).2) hN'⟩

end

/-! ### Non-vacuity -/

/-- Any numbers as the samples of a run with `k` threads and exactly ten samples. -/
noncomputable def tenOf (k : ℕ) (v : ℕ → ℝ) : Config (XR ℝ) :=
  ⟨k, 1, 10, 10, 1, false, 1, .fin 2, .fin 0, .fin (1 / 100), fun i _ => .fin (v i), fun _ _ => .nan,
    fun _ _ => .nan⟩

private theorem ten_run (m : ℕ) (hm : 1 ≤ m) (k : ℕ) (hk : 0 < k) (s : ℕ → Fin 2 → Bool) : ∃ v : ℕ → ℝ,
    FixedRun (tenOf k v) someExternal ⟨false, 1, 2, m, 1/100⟩ (oneAndOp 4) (fun x => x⁻¹) 0 10 (fun i => signVector (s i)) := by
  have hr : ExactRun someExternal ⟨false, 1, 2, m, 1/100⟩ (oneAndOp 4) (fun _ => oneAnd 4) #[0] := by
    obtain ⟨h1, h2, h3, h4, h5, h6, h7⟩ := oneAnd_run 4
    exact ⟨h1, h2, h3, h4, fun h => absurd h (by simp), h6, hm⟩
  have h : ∀ i, ∃ v, slqSample someExternal ⟨false, 1, 2, m, 1/100⟩ (oneAndOp 4) (fun x => x⁻¹) #[0] 1 (signVector (s i))
      (Array.replicate m 0) (Array.replicate m 0) #[false] #[0] = .ok (#[false], #[v]) := fun i => by
    obtain ⟨e, h1, h2, -⟩ := slq_sample_range (z := signVector (s i)) hr (Or.inl rfl) (by norm_num)
      (signVector_rademacher _) (num := 1) (converged := #[false]) (estimate := #[0])
      (junkAlpha := Array.replicate m 0) (junkBeta := Array.replicate m 0) rfl rfl rfl (by simp) (by simp)
      (f := fun x => x⁻¹)
    obtain ⟨v, rfl⟩ := Array.size_eq_one_iff.1 h2
    exact ⟨v, h1⟩
  choose v hv using h
  exact ⟨v, ⟨hk, rfl, ⟨rfl, rfl⟩, fun i _ => ⟨Array.replicate m 0, Array.replicate m 0, 0, v i, by simp, by simp, hv i, rfl⟩⟩⟩

/-- `tr A⁻¹` of `diag(1, 4)` with ten samples, one step on one thread and three steps on four: whatever is drawn, and in whatever order the
samples are computed, the second run reports at least as much as the first and at most `5 / 4`; the outlier level is zero. -/
example (s : ℕ → Fin 2 → Bool) : ∃ v v' ts st ts' st' trace trace',
    run (tenOf 1 v) (init (tenOf 1 v)) ts = some st ∧ Finished (tenOf 1 v) st ∧
    run (tenOf 4 v') (init (tenOf 4 v')) ts' = some st' ∧ Finished (tenOf 4 v') st' ∧
    (averaged (tenOf 1 v) (.fin 2) .pinf st 0).trace = .fin trace ∧ (averaged (tenOf 4 v') (.fin 2) .pinf st' 0).trace = .fin trace' ∧
    trace ≤ trace' ∧ trace' ≤ 5 / 4 := by
  obtain ⟨v, hrun⟩ := ten_run 1 le_rfl 1 (by norm_num) s
  obtain ⟨v', hrun'⟩ := ten_run 3 (by norm_num) 4 (by norm_num) s
  obtain ⟨ts, st, h1, h2⟩ := (loop_terminates (tenOf 1 v)).2 [] _ rfl
  obtain ⟨ts', st', h1', h2'⟩ := (loop_terminates (tenOf 4 v')).2 [] _ rfl
  have hr : ExactRun someExternal ⟨false, 1, 2, 1, 1/100⟩ (oneAndOp 4) (fun _ => oneAnd 4) #[0] := by
    obtain ⟨h1, h2, h3, h4, h5, h6, h7⟩ := oneAnd_run 4
    exact ⟨h1, h2, h3, h4, fun h => absurd h (by simp), h6, le_rfl⟩
  have hout : ∀ (cfg : Config (XR ℝ)) st, (averaged cfg (.fin 2) .pinf st 0).numOutliers = 0 := fun cfg st => by
    have hF : (0 : ℝ) < (⟨id, fun _ => 1, id, Real.sqrt, 3⟩ : ErfInv.MathFns ℝ).sqrt 2 := Real.sqrt_pos.2 (by norm_num)
    unfold averaged
    split
    · rename_i q _
      have := (outlier_level_zero_keeps_all _ hF (.fin 2) ((column cfg st 0).take q.numSamplesUsed)).1
      rw [sub_zero, zScore_one _ hF] at this
      exact this
    · rfl
  obtain ⟨trace, trace', h3, h3', h4, h5⟩ := slq_traceinv_trace_finer (opt := ⟨false, 1, 2, 1, 1/100⟩)
    (opt' := ⟨false, 1, 2, 3, 1/100⟩) (M := fun _ => oneAnd 4) (errorZ := .fin 2) (errorZ' := .fin 2) (Q := 1) (lam := ![1, 4])
    ⟨rfl, rfl, by norm_num, by norm_num, le_rfl⟩ hr (by norm_num) (by norm_num)
    (fun i _ => signVector_rademacher _) hrun hrun' (fun x _ => by simp [someExternal]) (oneAnd_spectral 4)
    (by intro i; fin_cases i <;> norm_num) h1 h2 (hout _ _) h1' h2' (hout _ _)
  refine ⟨v, v', ts, st, ts', st', trace, trace', h1, h2, h1', h2', h3, h3', h4, h5.trans ?_⟩
  have hinv : (oneAnd 4)⁻¹ = Matrix.diagonal ![1, 4⁻¹] := by
    apply Matrix.inv_eq_right_inv
    rw [oneAnd, Matrix.diagonal_mul_diagonal, ← Matrix.diagonal_one]
    congr 1
    funext i
    fin_cases i <;> simp
  have hone : ∀ i, signVector (s i) ⬝ᵥ ((oneAnd 4)⁻¹ *ᵥ signVector (s i)) = 5 / 4 := fun i => by
    rw [hinv]
    simp only [Matrix.mulVec_diagonal, dotProduct, Fin.sum_univ_two]
    rcases signVector_rademacher (s i) 0 with h | h <;> rcases signVector_rademacher (s i) 1 with h' | h' <;>
      rw [h, h'] <;> norm_num
  rw [show target false (oneAnd 4) = oneAnd 4 from rfl, Finset.sum_congr rfl fun i _ => hone i]
  norm_num

end Imate.Props
