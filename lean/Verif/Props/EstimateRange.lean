import Verif.Props.SlqConvergence
import Verif.Props.Accuracy
import Verif.Props.Functions

/-!
# C115: the range of the SLQ estimates

If the eigenvalues of the matrix lie in `[a, b]` and the function lies between `lo` and `hi` on that interval, every
sample, and the reported trace, lies between `n lo` and `n hi`, for every degree, tolerance, draw and schedule.
-/

namespace Imate.Props

open Matrix Imate.Lanczos Imate.Spec Imate.Gauss Imate.Accuracy
open Convergence Estimator

variable {n : Nat} {z : Fin n → ℝ} {ext : External ℝ} {opt : Options ℝ} {op : Operator ℝ n}
  {parameters junkAlpha junkBeta estimate : Array ℝ} {converged : Array Bool} {num : Nat}
  {f : ℝ → ℝ} {M : ℝ → Matrix (Fin n) (Fin n) ℝ}

theorem sampleRule_between {N Q : Matrix (Fin n) (Fin n) ℝ} {lam : Fin n → ℝ} {a b value lo hi : ℝ} {m : Nat}
    {delta g : ℝ → ℝ} (h : SampleRule N z m delta g value) (hQ : Spectral N Q lam) (hl : ∀ i, lam i ∈ Set.Icc a b)
    (hg : ∀ x ∈ Set.Icc a b, lo ≤ g x ∧ g x ≤ hi) : (z ⬝ᵥ z) * lo ≤ value ∧ value ≤ (z ⬝ᵥ z) * hi := by
  obtain ⟨k, V, T, P, w, th, hk, hkm, hkry, hT, hP, hst, rfl⟩ := h
  have hth := hkry.ritz_mem hQ hP hl
  have hrule := hkry.rule hQ hP hT hk hl
  have hmass := hrule.mass
  rw [hQ.weights_sum] at hmass
  have h1 := wsum_mono hrule.tau_nonneg (x := th) (f := fun _ => lo) (g := g) fun i => (hg _ (hth i)).1
  have h2 := wsum_mono hrule.tau_nonneg (x := th) (f := g) (g := fun _ => hi) fun i => (hg _ (hth i)).2
  rw [wsum_const, hmass, mul_comm] at h1 h2
  exact ⟨h1, h2⟩

/-- **C115, one sample.**  With or without `gram`, for any number of inquiries that are iterated on their own. -/
theorem slq_sample_range (hr : ExactRun ext opt op M parameters) (hop : op.relationKnown = false ∨ num = 1) (hn : 0 < n)
    (hz : Rademacher z) (hpar : parameters.size = num) (hconv : converged.size = num) (hest : estimate.size = num)
    (hja : junkAlpha.size = opt.degree) (hjb : junkBeta.size = opt.degree) :
    ∃ e, slqSample ext opt op f parameters num z junkAlpha junkBeta converged estimate = .ok (converged, e) ∧ e.size = num ∧
      ∀ j < num, ∀ t, parameters[j]? = some t → converged[j]? = some false → ∃ value, e[j]? = some value ∧
        ∀ Q lam a b lo hi, Spectral (target opt.gram (M t)) Q lam → (∀ i, a ≤ lam i ∧ lam i ≤ b) →
          (∀ x, a ≤ x → x ≤ b → lo ≤ f (ext.pow x opt.exponent) ∧ f (ext.pow x opt.exponent) ≤ hi) →
          n * lo ≤ value ∧ value ≤ n * hi := by
  obtain ⟨e, h1, h2, h3⟩ := slqSample_rule (f := f) hr hop hn hz hpar hconv hest hja hjb
  refine ⟨e, h1, h2, fun j hj t ht hc => ?_⟩
  obtain ⟨value, hv, hrule⟩ := (h3 j hj t ht).2 hc
  refine ⟨value, hv, fun Q lam a b lo hi hQ hl hg => ?_⟩
  have h4 := sampleRule_between hrule hQ hl fun x hx => hg x hx.1 hx.2
  rwa [rademacher_dot hz] at h4

/-- **C115, one sample for `A + t I`** when one iteration serves all parameters; `a` and `b` bound the eigenvalues of
`A + t I`. -/
theorem slq_shared_sample_range {A : Matrix (Fin n) (Fin n) ℝ} (hop : AffineIdentity op A)
    (hA : A.IsSymm) (hsqrt : ext.sqrt = Real.sqrt) (heig : EighSpec ext.eigh)
    (hgram : opt.gram = false) (hnum : 1 < num)
    (htol : 0 < opt.tol) (hm : 1 ≤ opt.degree) (hn : 0 < n) (hz : Rademacher z)
    (hpar : parameters.size = num) (hconv : converged.size = num) (hest : estimate.size = num)
    (hja : junkAlpha.size = opt.degree) (hjb : junkBeta.size = opt.degree) :
    ∃ e, slqSample ext opt op f parameters num z junkAlpha junkBeta converged estimate =
        .ok (Array.replicate num false, e) ∧ e.size = num ∧
      ∀ j < num, ∀ t, parameters[j]? = some t → ∃ value, e[j]? = some value ∧
        ∀ Q lam a b lo hi, Spectral (A + t • (1 : Matrix (Fin n) (Fin n) ℝ)) Q lam → (∀ i, a ≤ lam i ∧ lam i ≤ b) →
          (∀ x, a ≤ x → x ≤ b → lo ≤ f (ext.pow x opt.exponent) ∧ f (ext.pow x opt.exponent) ≤ hi) →
          n * lo ≤ value ∧ value ≤ n * hi := by
  obtain ⟨e, h1, h2, h3⟩ := slqSample_shared_rule (f := f) hop hA hsqrt heig hgram hnum htol hm hn hz hpar hconv hest
    hja hjb
  refine ⟨e, h1, h2, fun j hj t ht => ?_⟩
  obtain ⟨value, hv, hrule⟩ := h3 j hj t ht
  refine ⟨value, hv, fun Q lam a b lo hi hQ hl hg => ?_⟩
  have h4 := sampleRule_between hrule hQ hl fun x hx => hg x hx.1 hx.2
  rwa [rademacher_dot hz] at h4

/-- The run of the estimator has one inquiry, with the parameter `t`, and each of its numbers is what a sample computes
for some vector of signs; the vectors and the contents of the work arrays are arbitrary. -/
structure SampledRun (cfg : Config (XR ℝ)) (ext : External ℝ) (opt : Options ℝ) (op : Operator ℝ n) (f : ℝ → ℝ)
    (t : ℝ) : Prop where
  threads : 0 < cfg.numThreads
  inquiries : cfg.numInquiries = 1
  samples : 2 ≤ cfg.minNumSamples ∧ 2 ≤ cfg.maxNumSamples
  value : ∀ i < cfg.maxNumSamples, ∃ (z : Fin n → ℝ) (junkAlpha junkBeta : Array ℝ) (e0 v : ℝ), Rademacher z ∧
    junkAlpha.size = opt.degree ∧ junkBeta.size = opt.degree ∧
    slqSample ext opt op f #[t] 1 z junkAlpha junkBeta #[false] #[e0] = .ok (#[false], #[v]) ∧ cfg.value i 0 = .fin v

/-- **C115, the reported trace**, for every number of threads, schedule, stopping point and outlier threshold of at least one
standard deviation. -/
theorem slq_estimate_range {t : ℝ} {cfg : Config (XR ℝ)} (hrun : SampledRun cfg ext opt op f t)
    (hr : ExactRun ext opt op M #[t]) (hn : 0 < n)
    {Q : Matrix (Fin n) (Fin n) ℝ} {lam : Fin n → ℝ} {a b lo hi : ℝ}
    (hQ : Spectral (target opt.gram (M t)) Q lam) (hl : ∀ i, a ≤ lam i ∧ lam i ≤ b)
    (hg : ∀ x, a ≤ x → x ≤ b → lo ≤ f (ext.pow x opt.exponent) ∧ f (ext.pow x opt.exponent) ≤ hi)
    {ts : List ℕ} {st : State (XR ℝ)} (hst : run cfg (init cfg) ts = some st) (hf : Finished cfg st)
    (errorZ : ℝ) {outlierZ : ℝ} (hz : 1 ≤ outlierZ) :
    ∃ trace, (averaged cfg (.fin errorZ) (.fin outlierZ) st 0).trace = .fin trace ∧ n * lo ≤ trace ∧ trace ≤ n * hi := by
  have hsep : Separate cfg := Or.inr hrun.inquiries
  have hN : 0 < cfg.numInquiries := by rw [hrun.inquiries]; omega
  have hex : Exclusive cfg := Or.inr (by rw [hsep.required, hrun.inquiries])
  have hlen : st.inqs.length = 1 := by rw [(inv_run hsep hN hst).numInqs, hrun.inquiries]
  obtain ⟨q, hq⟩ : ∃ q, st.inqs[0]? = some q := ⟨st.inqs[0], List.getElem?_eq_getElem (by omega)⟩
  obtain ⟨a1, a2, a3, a4, a5⟩ := sample_accounting hsep hN hrun.threads hst hf hq
  rw [trace_is_average_of_values hsep hN hex hst hq]
  have hval : ∀ i < cfg.maxNumSamples, ∃ v, cfg.value i 0 = .fin v ∧ n * lo ≤ v ∧ v ≤ n * hi := fun i hi' => by
    obtain ⟨z, ja, jb, e0, v, hz, hja, hjb, hs, hv⟩ := hrun.value i hi'
    obtain ⟨e, h1, -, h3⟩ := slq_sample_range (f := f) (z := z) (num := 1) (converged := #[false]) (estimate := #[e0])
      hr (Or.inr rfl) hn hz rfl rfl rfl hja hjb
    rw [hs] at h1
    obtain rfl : #[v] = e := by simpa using h1
    obtain ⟨v', h4, h5⟩ := h3 0 (by norm_num) t rfl rfl
    obtain rfl : v = v' := by simpa using h4
    exact ⟨v, hv, h5 Q lam a b lo hi hQ hl hg⟩
  set value : ℕ → ℝ := fun i => if h : i < cfg.maxNumSamples then (hval i h).choose else 0 with hvalue
  have hlist : (st.processed.take q.numSamplesUsed).map (fun i => cfg.value i 0) =
      ((st.processed.take q.numSamplesUsed).map value).map XR.fin := by
    rw [List.map_map]
    refine List.map_congr_left fun i hi' => ?_
    have h := a5 i (List.mem_of_mem_take hi')
    simp only [Function.comp, hvalue, dif_pos h]
    exact (hval i h).choose_spec.1
  rw [hlist]
  have := hrun.samples
  refine estimate_between (by simp only [List.length_map, List.length_take]; omega) errorZ hz fun x hx => ?_
  obtain ⟨i, hi', rfl⟩ := List.mem_map.1 hx
  have h := a5 i (List.mem_of_mem_take hi')
  simp only [hvalue, dif_pos h]
  exact (hval i h).choose_spec.2

/-- The function that is evaluated is the one that the method `slq` of `api` passes, with the power `p`. -/
def Evaluates (api : Functions.Api) (p : ℝ) (ext : External ℝ) (opt : Options ℝ) (f : ℝ → ℝ) (a b : ℝ) : Prop :=
  ∀ x, a ≤ x → x ≤ b → Functions.slqValue api p x = some (f (ext.pow x opt.exponent))

section
variable {t p a b : ℝ} {cfg : Config (XR ℝ)} {Q : Matrix (Fin n) (Fin n) ℝ} {lam : Fin n → ℝ}
  {ts : List ℕ} {st : State (XR ℝ)} {errorZ outlierZ : ℝ}

/-- **C115 for `eigencount`.**  The number of eigenvalues is estimated between zero and `n`, for every matrix and exponent. -/
theorem slq_eigencount_range (hrun : SampledRun cfg ext opt op f t) (hr : ExactRun ext opt op M #[t]) (hn : 0 < n)
    (hQ : Spectral (target opt.gram (M t)) Q lam) (hl : ∀ i, a ≤ lam i ∧ lam i ≤ b) {c d : ℝ}
    (hf : Evaluates (.eigencount c d) p ext opt f a b)
    (hst : run cfg (init cfg) ts = some st) (hfin : Finished cfg st) (hz : 1 ≤ outlierZ) :
    ∃ trace, (averaged cfg (.fin errorZ) (.fin outlierZ) st 0).trace = .fin trace ∧ 0 ≤ trace ∧ trace ≤ n := by
  have h := slq_estimate_range hrun hr hn hQ hl (lo := 0) (hi := 1) (fun x h1 h2 => by
    have h3 : Functions.indicator c d (Eigen.powR x p) = _ := hf x h1 h2
    unfold Functions.indicator at h3
    split at h3
    · split at h3 <;> rw [← Option.some.inj h3] <;> norm_num
    · rw [← Option.some.inj h3]; norm_num
    · rw [← Option.some.inj h3]; norm_num) hst hfin errorZ hz
  simpa using h

/-- **C115 for `density`.**  The density is estimated between zero and `n` times the maximum of the Gaussian. -/
theorem slq_density_range (hrun : SampledRun cfg ext opt op f t) (hr : ExactRun ext opt op M #[t]) (hn : 0 < n)
    (hQ : Spectral (target opt.gram (M t)) Q lam) (hl : ∀ i, a ≤ lam i ∧ lam i ≤ b) {mu sigma : ℝ} (hs : 0 < sigma)
    (hf : Evaluates (.density mu sigma) p ext opt f a b)
    (hst : run cfg (init cfg) ts = some st) (hfin : Finished cfg st) (hz : 1 ≤ outlierZ) :
    ∃ trace, (averaged cfg (.fin errorZ) (.fin outlierZ) st 0).trace = .fin trace ∧ 0 ≤ trace ∧
      trace ≤ n / (√(2 * Real.pi) * sigma) := by
  have hc : 0 < 1 / (√(2 * Real.pi) * sigma) := by
    have := Real.pi_pos
    positivity
  have h := slq_estimate_range hrun hr hn hQ hl (lo := 0) (hi := 1 / (√(2 * Real.pi) * sigma)) (fun x h1 h2 => by
    have h3 : Functions.gaussian mu sigma (Eigen.powR x p) = _ := hf x h1 h2
    unfold Functions.gaussian at h3
    rw [gauss_constant hs] at h3
    split at h3
    · rw [← Option.some.inj h3]
      refine ⟨by positivity, mul_le_of_le_one_right hc.le (Real.exp_le_one_iff.2 ?_)⟩
      rename_i y _
      nlinarith [sq_nonneg ((y - mu) / sigma)]
    · rw [← Option.some.inj h3]; exact ⟨le_rfl, hc.le⟩
    · cases h3) hst hfin errorZ hz
  simpa only [mul_one_div, mul_zero] using h

/-- **C115 for `traceinv`.**  The trace of the inverse of the power `p ≥ 0` of a matrix with eigenvalues in `[a, b]`, `a > 0`, is
estimated between `n / b ^ p` and `n / a ^ p`; in particular it is positive. -/
theorem slq_traceinv_range (hrun : SampledRun cfg ext opt op f t) (hr : ExactRun ext opt op M #[t]) (hn : 0 < n)
    (hQ : Spectral (target opt.gram (M t)) Q lam) (ha : 0 < a) (hl : ∀ i, a ≤ lam i ∧ lam i ≤ b) (hp : 0 ≤ p)
    (hf : Evaluates .traceinv p ext opt f a b)
    (hst : run cfg (init cfg) ts = some st) (hfin : Finished cfg st) (hz : 1 ≤ outlierZ) :
    ∃ trace, (averaged cfg (.fin errorZ) (.fin outlierZ) st 0).trace = .fin trace ∧ n / b ^ p ≤ trace ∧
      trace ≤ n / a ^ p := by
  have h := slq_estimate_range hrun hr hn hQ hl (lo := 1 / b ^ p) (hi := 1 / a ^ p) (fun x h1 h2 => by
    have hx : 0 < x := ha.trans_le h1
    have h3 := hf x h1 h2
    unfold Functions.slqValue Functions.applied Functions.slqFunction Functions.inverse at h3
    rw [Eigen.powR_pos hx] at h3
    simp only [(Real.rpow_pos_of_pos hx p).ne', if_false] at h3
    rw [← Option.some.inj h3]
    exact ⟨one_div_le_one_div_of_le (Real.rpow_pos_of_pos hx p) (Real.rpow_le_rpow hx.le h2 hp),
      one_div_le_one_div_of_le (Real.rpow_pos_of_pos ha p) (Real.rpow_le_rpow ha.le h1 hp)⟩) hst hfin errorZ hz
  simpa only [mul_one_div, mul_zero] using h

/-- **C115 for `logdet`.**  Between `n p log a` and `n p log b`. -/
theorem slq_logdet_range (hrun : SampledRun cfg ext opt op f t) (hr : ExactRun ext opt op M #[t]) (hn : 0 < n)
    (hQ : Spectral (target opt.gram (M t)) Q lam) (ha : 0 < a) (hl : ∀ i, a ≤ lam i ∧ lam i ≤ b) (hp : 0 ≤ p)
    (hf : Evaluates .logdet p ext opt f a b)
    (hst : run cfg (init cfg) ts = some st) (hfin : Finished cfg st) (hz : 1 ≤ outlierZ) :
    ∃ trace, (averaged cfg (.fin errorZ) (.fin outlierZ) st 0).trace = .fin trace ∧ n * (p * Real.log a) ≤ trace ∧
      trace ≤ n * (p * Real.log b) := by
  refine slq_estimate_range hrun hr hn hQ hl (fun x h1 h2 => ?_) hst hfin errorZ hz
  have hx : 0 < x := ha.trans_le h1
  have h3 := hf x h1 h2
  unfold Functions.slqValue Functions.applied Functions.slqFunction Functions.logarithm at h3
  rw [Eigen.powR_pos hx] at h3
  simp only [Real.rpow_pos_of_pos hx p, if_true] at h3
  rw [← Option.some.inj h3, Real.log_rpow hx]
  exact ⟨mul_le_mul_of_nonneg_left (Real.log_le_log ha h1) hp, mul_le_mul_of_nonneg_left (Real.log_le_log hx h2) hp⟩

/-- **C115 for `trexp`** with exponent one: between `n exp(c a)` and `n exp(c b)` if `c ≥ 0`, and the other way round if `c ≤ 0`;
in particular it is positive. -/
theorem slq_trexp_range (hrun : SampledRun cfg ext opt op f t) (hr : ExactRun ext opt op M #[t]) (hn : 0 < n)
    (hQ : Spectral (target opt.gram (M t)) Q lam) (hl : ∀ i, a ≤ lam i ∧ lam i ≤ b) {c : ℝ}
    (hf : Evaluates (.trexp c) 1 ext opt f a b)
    (hst : run cfg (init cfg) ts = some st) (hfin : Finished cfg st) (hz : 1 ≤ outlierZ) :
    ∃ trace, (averaged cfg (.fin errorZ) (.fin outlierZ) st 0).trace = .fin trace ∧
      n * Real.exp (min (c * a) (c * b)) ≤ trace ∧ trace ≤ n * Real.exp (max (c * a) (c * b)) := by
  refine slq_estimate_range hrun hr hn hQ hl (fun x h1 h2 => ?_) hst hfin errorZ hz
  have h3 := hf x h1 h2
  unfold Functions.slqValue Functions.applied Functions.slqFunction Functions.exponential at h3
  have h4 := Eigen.powR_natCast x 1
  rw [Nat.cast_one, pow_one] at h4
  rw [h4] at h3
  rw [← Option.some.inj h3, Real.exp_le_exp, Real.exp_le_exp, mul_comm x c]
  rcases le_total 0 c with hc | hc
  · exact ⟨(min_le_left _ _).trans (mul_le_mul_of_nonneg_left h1 hc), (mul_le_mul_of_nonneg_left h2 hc).trans (le_max_right _ _)⟩
  · exact ⟨(min_le_right _ _).trans (mul_le_mul_of_nonpos_left h2 hc), (mul_le_mul_of_nonpos_left h1 hc).trans (le_max_left _ _)⟩

end

/-! ### Non-vacuity -/

/-- Any numbers as the samples of a run with three threads that stops after two to ten samples. -/
noncomputable def runOf (v : ℕ → ℝ) : Config (XR ℝ) :=
  ⟨3, 1, 2, 10, 1, false, 1, .fin 2, .fin 0, .fin (1 / 100), fun i _ => .fin (v i), fun _ _ => .nan,
    fun _ _ => .nan⟩

/-- `tr A⁻¹` of `diag(1, 4)`: whatever vectors are drawn, there is such a run, it ends, and reports a number between `1 / 2` and `2`. -/
example (s : ℕ → Fin 2 → Bool) : ∃ v : ℕ → ℝ,
    SampledRun (runOf v) someExternal ⟨false, 1, 2, 3, 1/100⟩ (oneAndOp 4) (fun x => x⁻¹) 0 ∧
    ∃ ts st trace, run (runOf v) (init (runOf v)) ts = some st ∧ Finished (runOf v) st ∧
      (averaged (runOf v) (.fin 2) (.fin 3) st 0).trace = .fin trace ∧ 1 / 2 ≤ trace ∧ trace ≤ 2 := by
  have h : ∀ i, ∃ v, slqSample someExternal ⟨false, 1, 2, 3, 1/100⟩ (oneAndOp 4) (fun x => x⁻¹) #[0] 1 (signVector (s i))
      (Array.replicate 3 0) (Array.replicate 3 0) #[false] #[0] = .ok (#[false], #[v]) := fun i => by
    obtain ⟨e, h1, h2, -⟩ := slq_sample_range (z := signVector (s i)) (oneAnd_run 4) (Or.inl rfl) (by norm_num)
      (signVector_rademacher _) (num := 1) (converged := #[false]) (estimate := #[0])
      (junkAlpha := Array.replicate 3 0) (junkBeta := Array.replicate 3 0) rfl rfl rfl (by simp) (by simp)
      (f := fun x => x⁻¹)
    obtain ⟨v, rfl⟩ := Array.size_eq_one_iff.1 h2
    exact ⟨v, h1⟩
  choose v hv using h
  have hrun : SampledRun (runOf v) someExternal ⟨false, 1, 2, 3, 1/100⟩ (oneAndOp 4) (fun x => x⁻¹) 0 :=
    ⟨by simp [runOf], rfl, by simp [runOf], fun i _ => ⟨signVector (s i), Array.replicate 3 0, Array.replicate 3 0, 0, v i,
      signVector_rademacher _, by simp, by simp, hv i, rfl⟩⟩
  obtain ⟨ts, st, h1, h2⟩ := (loop_terminates (runOf v)).2 [] _ rfl
  obtain ⟨trace, h3, h4, h5⟩ := slq_traceinv_range (p := 1) (a := 1) (b := 4) (errorZ := 2) (outlierZ := 3) (Q := 1) (lam := ![1, 4])
    hrun (oneAnd_run 4) (by norm_num) (oneAnd_spectral 4) (by norm_num) (by intro i; fin_cases i <;> norm_num) (by norm_num)
    (fun x hx _ => by
      have hx0 : 0 < x := by linarith
      show Functions.inverse (Eigen.powR x 1) = _
      rw [Eigen.powR_pos hx0, Real.rpow_one]
      simp [Functions.inverse, someExternal, hx0.ne']) h1 h2 (by norm_num)
  refine ⟨v, hrun, ts, st, trace, h1, h2, h3, ?_, ?_⟩
  · rw [Real.rpow_one] at h4
    norm_num at h4 ⊢
    linarith
  · rw [Real.rpow_one] at h5
    norm_num at h5 ⊢
    linarith

end Imate.Props
