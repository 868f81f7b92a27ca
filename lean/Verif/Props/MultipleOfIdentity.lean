import Verif.Props.EstimateRange
import Verif.Props.HutchinsonRange

/-!
# C119: matrices for which a single sample is exact

The matrix (with `gram`, its Gramian) is a multiple of the identity.
-/

namespace Imate.Props

open Matrix Imate.Lanczos Imate.Spec Imate.Gauss Imate.Accuracy
open Convergence Estimator

section
variable {n : Nat} {ext : External ℝ} {opt : Options ℝ} {op : Operator ℝ n}
  {f : ℝ → ℝ} {M : ℝ → Matrix (Fin n) (Fin n) ℝ} {cfg : Config (XR ℝ)} {t c : ℝ}

theorem mean_replicate {m : ℕ} (hm : 0 < m) (x : ℝ) : mean (List.replicate m x) = x := by
  have : (m : ℝ) ≠ 0 := by exact_mod_cast hm.ne'
  unfold mean
  rw [List.sum_replicate, List.length_replicate, nsmul_eq_mul]
  field_simp

theorem std_replicate {m : ℕ} (hm : 0 < m) (x : ℝ) : sampleStd (List.replicate m x) = 0 := by
  unfold sampleStd sqDev
  rw [mean_replicate hm]
  simp

theorem error_replicate {m : ℕ} (hm : 0 < m) (z x : ℝ) : standardError z (List.replicate m x) = 0 := by
  unfold standardError
  rw [std_replicate hm]
  simp

/-- The average of equal samples. -/
theorem estimate_replicate {m : ℕ} (hm : 2 ≤ m) (x errorZ : ℝ) {outlierZ : ℝ} (hz : 1 ≤ outlierZ) :
    averageEstimate (XR.fin errorZ) (XR.fin outlierZ) ((List.replicate m x).map XR.fin) = ⟨XR.fin x, XR.fin 0, 0⟩ := by
  have hlen : 2 ≤ (List.replicate m x).length := by simpa using hm
  have hk := some_sample_retained hlen hz
  have hr : retained outlierZ (List.replicate m x) = List.replicate m x := by
    unfold retained
    rw [List.filter_eq_self]
    intro y hy
    rw [List.eq_of_mem_replicate hy, mean_replicate (by omega), std_replicate (by omega)]
    simp
  obtain ⟨h1, h2, h3⟩ := estimate_is_mean_of_retained hlen errorZ outlierZ hk
  rw [hr] at h1 h2 h3
  rw [mean_replicate (by omega)] at h1
  have h4 := h3 hlen
  rw [error_replicate (by omega)] at h4
  rw [Nat.sub_self] at h2
  cases h : averageEstimate (XR.fin errorZ) (XR.fin outlierZ) ((List.replicate m x).map XR.fin)
  rw [h] at h1 h2 h4
  simp only at h1 h2 h4
  rw [h1, h2, h4]

theorem spectral_multiple (c : ℝ) : Spectral (c • (1 : Matrix (Fin n) (Fin n) ℝ)) 1 fun _ => c := by
  refine ⟨by simp, by simp, ?_⟩
  rw [Matrix.one_mul, transpose_one, Matrix.mul_one, smul_one_eq_diagonal]

/-- Every number of the run is `n f(c)`. -/
theorem multiple_values (hrun : SampledRun cfg ext opt op f t) (hr : ExactRun ext opt op M #[t]) (hn : 0 < n)
    (hM : target opt.gram (M t) = c • 1) {i : ℕ} (hi : i < cfg.maxNumSamples) :
    cfg.value i 0 = .fin (n * f (ext.pow c opt.exponent)) := by
  obtain ⟨z, ja, jb, e0, v, hz, hja, hjb, hs, hv⟩ := hrun.value i hi
  obtain ⟨e, h1, -, h3⟩ := slq_sample_range (f := f) (z := z) (num := 1) (converged := #[false]) (estimate := #[e0])
    hr (Or.inr rfl) hn hz rfl rfl rfl hja hjb
  rw [hs] at h1
  obtain rfl : #[v] = e := by simpa using h1
  obtain ⟨v', h4, h5⟩ := h3 0 (by norm_num) t rfl rfl
  obtain rfl : v = v' := by simpa using h4
  have h6 := h5 1 (fun _ => c) c c (f (ext.pow c opt.exponent)) (f (ext.pow c opt.exponent)) (hM ▸ spectral_multiple c)
    (fun _ => ⟨le_rfl, le_rfl⟩) fun x h1 h2 => by
      obtain rfl := le_antisymm h1 h2
      exact ⟨le_rfl, le_rfl⟩
  rw [hv, le_antisymm h6.2 h6.1]

/-- The used samples of a run whose samples are all equal. -/
theorem equal_column (hrun : SampledRun cfg ext opt op f t) {x : ℝ}
    (hv : ∀ i < cfg.maxNumSamples, cfg.value i 0 = .fin x) {ts : List ℕ} {st : State (XR ℝ)} (hst : run cfg (init cfg) ts = some st)
    (hf : Finished cfg st) {q : Inquiry (XR ℝ)} (hq : st.inqs[0]? = some q) :
    (column cfg st 0).take q.numSamplesUsed =
      (List.replicate q.numSamplesUsed x).map XR.fin := by
  have hsep : Separate cfg := Or.inr hrun.inquiries
  have hN : 0 < cfg.numInquiries := by rw [hrun.inquiries]; omega
  have hex : Exclusive cfg := Or.inr (by rw [hsep.required, hrun.inquiries])
  obtain ⟨a1, a2, a3, a4, a5⟩ := sample_accounting hsep hN hrun.threads hst hf hq
  have h := (averaged_samples_computed hsep hN hst hq).1
  have ho := (ownInv_run hex hst).samples
  rw [List.map_replicate]
  refine List.eq_replicate_iff.2 ⟨?_, fun b hb => ?_⟩
  · rw [List.length_take]
    unfold column
    rw [List.length_map]
    omega
  · unfold column at hb
    rw [← List.map_take] at hb
    obtain ⟨i, hi, rfl⟩ := List.mem_map.1 hb
    obtain ⟨own, hown⟩ := h i hi
    have hne := ho i 0
    rw [hown] at hne ⊢
    cases own with
    | true => exact hv i (a5 i (List.mem_of_mem_take hi))
    | false => exact absurd rfl hne

/-- The result of a run whose samples are all equal. -/
theorem equal_samples_exact (hrun : SampledRun cfg ext opt op f t) {x : ℝ}
    (hv : ∀ i < cfg.maxNumSamples, cfg.value i 0 = .fin x) {ts : List ℕ} {st : State (XR ℝ)} (hst : run cfg (init cfg) ts = some st)
    (hf : Finished cfg st) (errorZ : ℝ) {outlierZ : ℝ} (hz : 1 ≤ outlierZ) :
    averaged cfg (.fin errorZ) (.fin outlierZ) st 0 = ⟨.fin x, .fin 0, 0⟩ := by
  have hsep : Separate cfg := Or.inr hrun.inquiries
  have hN : 0 < cfg.numInquiries := by rw [hrun.inquiries]; omega
  have hlen : st.inqs.length = 1 := by rw [(inv_run hsep hN hst).numInqs, hrun.inquiries]
  obtain ⟨q, hq⟩ : ∃ q, st.inqs[0]? = some q := ⟨st.inqs[0], List.getElem?_eq_getElem (by omega)⟩
  obtain ⟨a1, -⟩ := sample_accounting hsep hN hrun.threads hst hf hq
  unfold averaged
  rw [hq]
  dsimp only
  rw [equal_column hrun hv hst hf hq]
  have := hrun.samples
  exact estimate_replicate (by omega) _ _ hz

/-- When a run whose samples are all equal stops. -/
theorem equal_samples_stop (hrun : SampledRun cfg ext opt op f t) {x : ℝ}
    (hv : ∀ i < cfg.maxNumSamples, cfg.value i 0 = .fin x) {ts : List ℕ} {st : State (XR ℝ)} (hst : run cfg (init cfg) ts = some st)
    (hf : Finished cfg st) (hmm : cfg.minNumSamples ≤ cfg.maxNumSamples) {z atol rtol : ℝ} (hcz : cfg.z = .fin z) (hca : cfg.atol = .fin atol)
    (hcr : cfg.rtol = .fin rtol) (hpos : 0 < atol ∨ 0 < rtol * x) :
    ∃ q, st.inqs[0]? = some q ∧ q.converged = true ∧ q.numSamplesUsed = cfg.minNumSamples := by
  have hsep : Separate cfg := Or.inr hrun.inquiries
  have hN : 0 < cfg.numInquiries := by rw [hrun.inquiries]; omega
  have hlen : st.inqs.length = 1 := by rw [(inv_run hsep hN hst).numInqs, hrun.inquiries]
  obtain ⟨q, hq⟩ : ∃ q, st.inqs[0]? = some q := ⟨st.inqs[0], List.getElem?_eq_getElem (by omega)⟩
  obtain ⟨a1, a2, -⟩ := sample_accounting hsep hN hrun.threads hst hf hq
  rw [Nat.min_eq_left hmm] at a1
  have hmin := hrun.samples.1
  obtain ⟨b1, b2⟩ := converged_meaning hsep hN hst hq
  have hcol := equal_column hrun hv hst hf hq
  have hmet : meetsTol cfg.z cfg.atol cfg.rtol ((column cfg st 0).take cfg.minNumSamples) = true := by
    have e : (column cfg st 0).take cfg.minNumSamples = (List.replicate cfg.minNumSamples x).map XR.fin := by
      rw [← Nat.min_eq_left a1, ← List.take_take, hcol, ← List.map_take, List.take_replicate]
    rw [e, hcz, hca, hcr, meetsTol_fin (by simpa using hmin), error_replicate (by omega), mean_replicate (by omega)]
    exact decide_eq_true (lt_max_iff.2 hpos)
  refine ⟨q, hq, ?_⟩
  cases hc : q.converged with
  | false => exact absurd ⟨le_rfl, by omega, by omega, hmet⟩ ((b2 hc).2 cfg.minNumSamples)
  | true =>
    refine ⟨rfl, le_antisymm ?_ a1⟩
    by_contra hlt
    exact (b1 hc).2 cfg.minNumSamples (by omega) ⟨le_rfl, by omega, by omega, hmet⟩

/-- The used samples of the run. -/
theorem multiple_column (hrun : SampledRun cfg ext opt op f t) (hr : ExactRun ext opt op M #[t]) (hn : 0 < n)
    (hM : target opt.gram (M t) = c • 1) {ts : List ℕ} {st : State (XR ℝ)} (hst : run cfg (init cfg) ts = some st)
    (hf : Finished cfg st) {q : Inquiry (XR ℝ)} (hq : st.inqs[0]? = some q) :
    (column cfg st 0).take q.numSamplesUsed =
      (List.replicate q.numSamplesUsed (n * f (ext.pow c opt.exponent))).map XR.fin :=
  equal_column hrun (fun _ => multiple_values hrun hr hn hM) hst hf hq

/-- **C119, the result.**  Trace `n f(c)`, error zero, no outliers, for every number of threads, schedule, draw and degree. -/
theorem slq_multiple_exact (hrun : SampledRun cfg ext opt op f t) (hr : ExactRun ext opt op M #[t]) (hn : 0 < n)
    (hM : target opt.gram (M t) = c • 1) {ts : List ℕ} {st : State (XR ℝ)} (hst : run cfg (init cfg) ts = some st)
    (hf : Finished cfg st) (errorZ : ℝ) {outlierZ : ℝ} (hz : 1 ≤ outlierZ) :
    averaged cfg (.fin errorZ) (.fin outlierZ) st 0 = ⟨.fin (n * f (ext.pow c opt.exponent)), .fin 0, 0⟩ :=
  equal_samples_exact hrun (fun _ => multiple_values hrun hr hn hM) hst hf errorZ hz

/-- **C119, stopping.**  If `n f(c)` is positive and one of the tolerances is, the run converges with exactly `min_num_samples` samples. -/
theorem slq_multiple_stops (hrun : SampledRun cfg ext opt op f t) (hr : ExactRun ext opt op M #[t]) (hn : 0 < n)
    (hM : target opt.gram (M t) = c • 1) {ts : List ℕ} {st : State (XR ℝ)} (hst : run cfg (init cfg) ts = some st)
    (hf : Finished cfg st) (hmm : cfg.minNumSamples ≤ cfg.maxNumSamples) {z atol rtol : ℝ} (hcz : cfg.z = .fin z) (hca : cfg.atol = .fin atol)
    (hcr : cfg.rtol = .fin rtol) (hpos : 0 < atol ∨ 0 < rtol * (n * f (ext.pow c opt.exponent))) :
    ∃ q, st.inqs[0]? = some q ∧ q.converged = true ∧ q.numSamplesUsed = cfg.minNumSamples :=
  equal_samples_stop hrun (fun _ => multiple_values hrun hr hn hM) hst hf hmm hcz hca hcr hpos

/-- **C119 is violated**: if `n f(c)` is zero or negative, as for the log-determinant of the identity or of a matrix below it, and `error_atol`
is zero, the default, the run uses `max_num_samples` samples and reports that it did not converge, although its error is zero. -/
theorem slq_multiple_never_stops (hrun : SampledRun cfg ext opt op f t) (hr : ExactRun ext opt op M #[t]) (hn : 0 < n)
    (hM : target opt.gram (M t) = c • 1) {ts : List ℕ} {st : State (XR ℝ)} (hst : run cfg (init cfg) ts = some st)
    (hf : Finished cfg st) {z rtol : ℝ} (hz : 0 ≤ z) (hrt : 0 ≤ rtol) (hcz : cfg.z = .fin z) (hca : cfg.atol = .fin 0)
    (hcr : cfg.rtol = .fin rtol) (hneg : f (ext.pow c opt.exponent) ≤ 0) :
    ∃ q, st.inqs[0]? = some q ∧ q.converged = false ∧ q.numSamplesUsed = cfg.maxNumSamples := by
  have hsep : Separate cfg := Or.inr hrun.inquiries
  have hN : 0 < cfg.numInquiries := by rw [hrun.inquiries]; omega
  have hlen : st.inqs.length = 1 := by rw [(inv_run hsep hN hst).numInqs, hrun.inquiries]
  obtain ⟨q, hq⟩ : ∃ q, st.inqs[0]? = some q := ⟨st.inqs[0], List.getElem?_eq_getElem (by omega)⟩
  obtain ⟨a1, a2, -⟩ := sample_accounting hsep hN hrun.threads hst hf hq
  have hmin := hrun.samples
  obtain ⟨b1, b2⟩ := converged_meaning hsep hN hst hq
  have hc : q.converged = false := by
    by_contra hc
    have h1 := (b1 (by simpa using hc)).1.2.2.2
    rw [multiple_column hrun hr hn hM hst hf hq, hcz, hca, hcr, negative_estimate_never_converges (by simp; omega) hz hrt (by
      rw [mean_replicate (by omega)]
      exact mul_nonpos_of_nonneg_of_nonpos (Nat.cast_nonneg _) hneg)] at h1
    cases h1
  have h := inv_run hsep hN hst
  have hp := (each_index_exactly_once hrun.threads hst hf).length_eq
  rw [List.length_append, List.length_range] at hp
  have hsk : st.skipped = [] := by
    by_contra hne
    have := h.all_flags (h.skipped hne) 0 q hq
    rw [hc] at this; simp at this
  rw [hsk] at hp
  refine ⟨q, hq, hc, ?_⟩
  rw [(b2 hc).1]
  simpa using hp

end

/-- **C119 for the Hutchinson method**, under the conditions of C35: if the sampled matrix is `c` times the identity, the returned trace is `n c`.
Missing: the exponents and the case excluded in C35. -/
theorem hutchinson_multiple_exact_partial {n : ℕ} {solve : Hutchinson.Solver ℝ} {a : Hutchinson.Assume} {eps : ℝ} (he : 0 < eps) (he1 : eps ≤ 1)
    (clock : ℕ → ℕ → BitVec 64) (seed : BitVec 64) (orthogonalize : Bool) (hn : 1 ≤ n) (hs : SolverSpec solve)
    {A : Matrix (Fin n) (Fin n) ℝ} (hA : Admissible a A) {p : ℤ} (hp : -1 ≤ p)
    (hu : 1 ≤ p → IsUnit A.det) (gram : Bool) (B C : Option (Matrix (Fin n) (Fin n) ℝ)) (hBC : C.isSome → B.isSome)
    (hex : ¬ (gram = true ∧ p = -1 ∧ B.isSome)) {st : Hutchinson.Settings ℝ} {c : ℝ} (hG : sampledMatrix gram A p B C = c • 1)
    {r : Hutchinson.Outcome ℝ}
    (h : Hutchinson.hutchinson solve eps clock seed orthogonalize (square A) (B.map square) (C.map square) gram (.int p) a st = .ok r) :
    r.trace = XR.fin (n * c) := by
  obtain ⟨t, h1, h2, h3⟩ := hutchinson_range_partial he he1 clock seed orthogonalize hn hs hA hp hu gram B C hBC hex (lo := c) (hi := c)
    (fun v hv => by
      rw [hG, smul_mulVec, one_mulVec, dotProduct_smul, hv, smul_eq_mul, mul_one]
      exact ⟨le_rfl, le_rfl⟩) h
  rw [h1, le_antisymm h3 h2]

/-! ### Non-vacuity -/

private theorem one_run (f : ℝ → ℝ) (s : ℕ → Fin 2 → Bool) : ∃ v : ℕ → ℝ,
    SampledRun (runOf v) someExternal ⟨false, 1, 2, 3, 1/100⟩ (oneAndOp 1) f 0 := by
  have h : ∀ i, ∃ v, slqSample someExternal ⟨false, 1, 2, 3, 1/100⟩ (oneAndOp 1) f #[0] 1 (signVector (s i))
      (Array.replicate 3 0) (Array.replicate 3 0) #[false] #[0] = .ok (#[false], #[v]) := fun i => by
    obtain ⟨e, h1, h2, -⟩ := slq_sample_range (z := signVector (s i)) (oneAnd_run 1) (Or.inl rfl) (by norm_num)
      (signVector_rademacher _) (num := 1) (converged := #[false]) (estimate := #[0])
      (junkAlpha := Array.replicate 3 0) (junkBeta := Array.replicate 3 0) rfl rfl rfl (by simp) (by simp)
      (f := f)
    obtain ⟨v, rfl⟩ := Array.size_eq_one_iff.1 h2
    exact ⟨v, h1⟩
  choose v hv using h
  exact ⟨v, ⟨by simp [runOf], rfl, by simp [runOf], fun i _ => ⟨signVector (s i), Array.replicate 3 0, Array.replicate 3 0, 0, v i,
      signVector_rademacher _, by simp, by simp, hv i, rfl⟩⟩⟩

private theorem oneAnd_one : target false (oneAnd 1) = (1 : ℝ) • (1 : Matrix (Fin 2) (Fin 2) ℝ) := by
  show oneAnd 1 = _
  rw [oneAnd, one_smul, ← Matrix.diagonal_one]
  congr 1
  funext i
  fin_cases i <;> rfl

/-- The identity of order two: whatever is drawn, `traceinv` stops after two samples with the trace 2; `logdet` gives 0 and takes ten samples. -/
example (s : ℕ → Fin 2 → Bool) :
    (∃ v ts st q, run (runOf v) (init (runOf v)) ts = some st ∧ Finished (runOf v) st ∧ st.inqs[0]? = some q ∧
      averaged (runOf v) (.fin 2) (.fin 3) st 0 = ⟨.fin 2, .fin 0, 0⟩ ∧ q.converged = true ∧ q.numSamplesUsed = 2) ∧
    ∃ v ts st q, run (runOf v) (init (runOf v)) ts = some st ∧ Finished (runOf v) st ∧ st.inqs[0]? = some q ∧
      averaged (runOf v) (.fin 2) (.fin 3) st 0 = ⟨.fin 0, .fin 0, 0⟩ ∧ q.converged = false ∧ q.numSamplesUsed = 10 := by
  constructor
  · obtain ⟨v, hrun⟩ := one_run (fun x => x⁻¹) s
    obtain ⟨ts, st, h1, h2⟩ := (loop_terminates (runOf v)).2 [] _ rfl
    have h3 := slq_multiple_exact hrun (oneAnd_run 1) (by norm_num) oneAnd_one h1 h2 2 (outlierZ := 3) (by norm_num)
    obtain ⟨q, h4, h5, h6⟩ := slq_multiple_stops hrun (oneAnd_run 1) (by norm_num) oneAnd_one h1 h2 (by simp [runOf]) (z := 2)
      (atol := 0) (rtol := 1 / 100) rfl rfl rfl (Or.inr (by simp [someExternal]))
    exact ⟨v, ts, st, q, h1, h2, h4, by rw [h3]; simp [someExternal], h5, h6⟩
  · obtain ⟨v, hrun⟩ := one_run Real.log s
    obtain ⟨ts, st, h1, h2⟩ := (loop_terminates (runOf v)).2 [] _ rfl
    have h3 := slq_multiple_exact hrun (oneAnd_run 1) (by norm_num) oneAnd_one h1 h2 2 (outlierZ := 3) (by norm_num)
    obtain ⟨q, h4, h5, h6⟩ := slq_multiple_never_stops hrun (oneAnd_run 1) (by norm_num) oneAnd_one h1 h2 (z := 2)
      (rtol := 1 / 100) (by norm_num) (by norm_num) rfl rfl rfl (by simp [someExternal])
    exact ⟨v, ts, st, q, h1, h2, h4, by rw [h3]; simp [someExternal], h5, h6⟩

end Imate.Props
