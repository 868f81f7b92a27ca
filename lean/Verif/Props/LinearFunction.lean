import Verif.Props.DegreeTrace
import Verif.Props.MultipleOfIdentity

/-!
# C120: the SLQ method for functions that are linear in the eigenvalue

The trace itself (`p = 1`) and its shifts and multiples: neither the degree nor the tolerance matters, and for diagonal matrices no sample has an
error.
-/

namespace Imate.Props

open Matrix Polynomial Imate.Lanczos Imate.Spec Imate.Gauss Imate.Accuracy
open Convergence Estimator

variable {n : Nat} {ext : External ℝ} {opt opt' : Options ℝ} {op : Operator ℝ n}
  {f : ℝ → ℝ} {M : ℝ → Matrix (Fin n) (Fin n) ℝ} {cfg cfg' : Config (XR ℝ)} {t c0 c1 : ℝ}

theorem sampleRule_linear {N : Matrix (Fin n) (Fin n) ℝ} {z : Fin n → ℝ} {value : ℝ} {m : Nat} {delta g : ℝ → ℝ}
    (h : SampleRule N z m delta g value) (hN : N.IsSymm) (hg : ∀ x, g x = c0 + c1 * x) :
    value = c0 * (z ⬝ᵥ z) + c1 * z ⬝ᵥ (N *ᵥ z) := by
  obtain ⟨Q, lam, hQ⟩ := exists_spectral hN
  obtain ⟨k, V, T, P, w, th, hk, hkm, hkry, hT, hP, hst, rfl⟩ := h
  obtain ⟨a, b, hl⟩ : ∃ a b, ∀ i, lam i ∈ Set.Icc a b := by
    rcases isEmpty_or_nonempty (Fin n) with h0 | h0
    · exact ⟨0, 0, fun i => h0.elim i⟩
    · obtain ⟨i0, hi0⟩ := Finite.exists_min lam
      obtain ⟨i1, hi1⟩ := Finite.exists_max lam
      exact ⟨lam i0, lam i1, fun i => ⟨hi0 i, hi1 i⟩⟩
  have hrule := hkry.rule hQ hP hT hk hl
  have hdeg : (C c0 + C c1 * X : ℝ[X]).natDegree < 2 * k := by
    have : (C c0 + C c1 * X : ℝ[X]).natDegree ≤ 1 := by
      rw [add_comm]
      exact natDegree_linear_le
    omega
  have h1 := hrule.exact _ hdeg
  have h2 : g = fun x => (C c0 + C c1 * X : ℝ[X]).eval x := by
    funext x
    rw [hg]
    simp
  rw [h2, h1, hQ.form, ← hQ.weights_sum]
  unfold wsum
  rw [Finset.mul_sum, Finset.mul_sum, ← Finset.sum_add_distrib]
  refine Finset.sum_congr rfl fun i _ => ?_
  simp
  ring

theorem target_symm (hr : ExactRun ext opt op M #[t]) : (target opt.gram (M t)).IsSymm := by
  unfold target
  cases hg : opt.gram with
  | false => exact (hr.symmetric hg).2 t
  | true => exact isSymm_transpose_mul_self _

/-- **C120, one sample.**  The value is `c0 n + c1 zᵀ A z` (with `gram`, with the Gramian), for every degree, tolerance and orthogonalization. -/
theorem slq_linear_sample (hr : ExactRun ext opt op M #[t]) (hn : 0 < n) {z : Fin n → ℝ} (hz : Rademacher z)
    {junkAlpha junkBeta : Array ℝ} (hja : junkAlpha.size = opt.degree) (hjb : junkBeta.size = opt.degree)
    (hf : ∀ x, f (ext.pow x opt.exponent) = c0 + c1 * x) (e0 : ℝ) :
    slqSample ext opt op f #[t] 1 z junkAlpha junkBeta #[false] #[e0] =
      .ok (#[false], #[c0 * n + c1 * z ⬝ᵥ (target opt.gram (M t) *ᵥ z)]) := by
  obtain ⟨e, h1, h2, h3⟩ := slqSample_rule (f := f) (num := 1) (converged := #[false]) (estimate := #[e0])
    hr (Or.inr rfl) hn hz rfl rfl rfl hja hjb
  obtain ⟨v, rfl⟩ := Array.size_eq_one_iff.1 h2
  obtain ⟨value, hv, hrule⟩ := (h3 0 (by norm_num) t rfl).2 rfl
  obtain rfl : v = value := by simpa using hv
  rw [h1, sampleRule_linear hrule (target_symm hr) hf, rademacher_dot hz]

/-- **C120, one sample for `A + t I`** when one iteration serves all parameters: every parameter gets its own exact form. -/
theorem slq_linear_shared_sample {A : Matrix (Fin n) (Fin n) ℝ} (hop : AffineIdentity op A) (hA : A.IsSymm) (hsqrt : ext.sqrt = Real.sqrt)
    (heig : EighSpec ext.eigh) (hgram : opt.gram = false) {num : Nat} (hnum : 1 < num) (htol : 0 < opt.tol) (hm : 1 ≤ opt.degree) (hn : 0 < n)
    {z : Fin n → ℝ} (hz : Rademacher z) {parameters junkAlpha junkBeta estimate : Array ℝ} {converged : Array Bool}
    (hpar : parameters.size = num) (hconv : converged.size = num) (hest : estimate.size = num)
    (hja : junkAlpha.size = opt.degree) (hjb : junkBeta.size = opt.degree) (hf : ∀ x, f (ext.pow x opt.exponent) = c0 + c1 * x) :
    slqSample ext opt op f parameters num z junkAlpha junkBeta converged estimate =
      .ok (Array.replicate num false, parameters.map fun t => c0 * n + c1 * (z ⬝ᵥ (A *ᵥ z) + t * n)) := by
  obtain ⟨e, h1, h2, h3⟩ := slqSample_shared_rule (f := f) hop hA hsqrt heig hgram hnum htol hm hn hz hpar hconv hest hja hjb
  rw [h1]
  congr 2
  apply Array.ext
  · rw [h2, Array.size_map, hpar]
  · intro j hj _
    have hj' : j < parameters.size := by omega
    obtain ⟨value, hv, hrule⟩ := h3 j (by omega) parameters[j] (Array.getElem?_eq_getElem hj')
    rw [Array.getElem?_eq_getElem hj] at hv
    obtain rfl : e[j] = value := by simpa using hv
    have hsym : (A + parameters[j] • (1 : Matrix (Fin n) (Fin n) ℝ)).IsSymm := hA.add (isSymm_one.smul _)
    rw [sampleRule_linear hrule hsym hf, rademacher_dot hz, add_mulVec, smul_mulVec, one_mulVec, dotProduct_add, dotProduct_smul,
      rademacher_dot hz, Array.getElem_map, smul_eq_mul]

/-- **C120, several runs.**  Two calls with the same vectors give the same samples, whatever their degrees, tolerances and orthogonalization. -/
theorem slq_linear_degree_irrelevant (hr : ExactRun ext opt op M #[t]) (hr' : ExactRun ext opt' op M #[t]) (hn : 0 < n)
    (hgram : opt.gram = opt'.gram) (hexp : opt.exponent = opt'.exponent) {z : Fin n → ℝ} (hz : Rademacher z)
    {junkAlpha junkBeta junkAlpha' junkBeta' : Array ℝ} (hja : junkAlpha.size = opt.degree) (hjb : junkBeta.size = opt.degree)
    (hja' : junkAlpha'.size = opt'.degree) (hjb' : junkBeta'.size = opt'.degree)
    (hf : ∀ x, f (ext.pow x opt.exponent) = c0 + c1 * x) (e0 e0' : ℝ) :
    slqSample ext opt op f #[t] 1 z junkAlpha junkBeta #[false] #[e0] =
      slqSample ext opt' op f #[t] 1 z junkAlpha' junkBeta' #[false] #[e0'] := by
  rw [slq_linear_sample hr hn hz hja hjb hf, slq_linear_sample hr' hn hz hja' hjb' (fun x => hexp ▸ hf x), hgram]

/-- **C120, sums of matrices.**  For the same vector the sample of `A + B` is the sum of the samples of `A` and `B`, whatever the settings of the three
calls, for symmetric matrices and `p = 1`. -/
theorem slq_trace_additive {opt'' : Options ℝ} {op' op'' : Operator ℝ n} {M' M'' : ℝ → Matrix (Fin n) (Fin n) ℝ}
    (hr : ExactRun ext opt op M #[t]) (hr' : ExactRun ext opt' op' M' #[t]) (hr'' : ExactRun ext opt'' op'' M'' #[t]) (hn : 0 < n)
    (hg : opt.gram = false) (hg' : opt'.gram = false) (hg'' : opt''.gram = false) (hsum : M'' t = M t + M' t)
    (hf : ∀ x, f (ext.pow x opt.exponent) = x) (hf' : ∀ x, f (ext.pow x opt'.exponent) = x) (hf'' : ∀ x, f (ext.pow x opt''.exponent) = x)
    {z : Fin n → ℝ} (hz : Rademacher z) {ja jb ja' jb' ja'' jb'' : Array ℝ} (hja : ja.size = opt.degree) (hjb : jb.size = opt.degree)
    (hja' : ja'.size = opt'.degree) (hjb' : jb'.size = opt'.degree) (hja'' : ja''.size = opt''.degree) (hjb'' : jb''.size = opt''.degree)
    (e0 e0' e0'' : ℝ) :
    ∃ x x', slqSample ext opt op f #[t] 1 z ja jb #[false] #[e0] = .ok (#[false], #[x]) ∧
      slqSample ext opt' op' f #[t] 1 z ja' jb' #[false] #[e0'] = .ok (#[false], #[x']) ∧
      slqSample ext opt'' op'' f #[t] 1 z ja'' jb'' #[false] #[e0''] = .ok (#[false], #[x + x']) := by
  have hl : ∀ {e : ℝ}, (∀ x, f (ext.pow x e) = x) → ∀ x, f (ext.pow x e) = 0 + 1 * x := fun h x => by rw [h, zero_add, one_mul]
  refine ⟨_, _, slq_linear_sample hr hn hz hja hjb (hl hf) e0, slq_linear_sample hr' hn hz hja' hjb' (hl hf') e0', ?_⟩
  rw [slq_linear_sample hr'' hn hz hja'' hjb'' (hl hf'') e0'', hg, hg', hg'']
  unfold target
  simp only [Bool.false_eq_true, if_false]
  rw [hsum, add_mulVec, dotProduct_add]
  congr 4
  ring

/-- **C120, the reported trace** of a run with a fixed number of samples that drops no outlier. -/
theorem slq_linear_trace {N : ℕ} {z : ℕ → Fin n → ℝ} (hr : ExactRun ext opt op M #[t]) (hn : 0 < n) (hN : 0 < N)
    (hz : ∀ i < N, Rademacher (z i)) (hrun : FixedRun cfg ext opt op f t N z)
    (hf : ∀ x, f (ext.pow x opt.exponent) = c0 + c1 * x) {errorZ outlierZ : XR ℝ} {ts : List ℕ} {st : State (XR ℝ)}
    (hst : run cfg (init cfg) ts = some st) (hend : Finished cfg st) (ho : (averaged cfg errorZ outlierZ st 0).numOutliers = 0) :
    (averaged cfg errorZ outlierZ st 0).trace =
      .fin (c0 * n + c1 * ((∑ i ∈ Finset.range N, z i ⬝ᵥ (target opt.gram (M t) *ᵥ z i)) / N)) := by
  have key : ∀ i < N, cfg.value i 0 = .fin (c0 * n + c1 * z i ⬝ᵥ (target opt.gram (M t) *ᵥ z i)) := fun i hi => by
    obtain ⟨ja, jb, e0, w, hja, hjb, hs, hw⟩ := hrun.value i hi
    rw [slq_linear_sample hr hn (hz i hi) hja hjb hf] at hs
    rw [hw]
    congr 1
    simpa using hs.symm
  rw [hrun.trace hN key hst hend ho, Finset.sum_add_distrib, Finset.sum_const, Finset.card_range, nsmul_eq_mul, ← Finset.mul_sum]
  have : (N : ℝ) ≠ 0 := by exact_mod_cast hN.ne'
  congr 1
  field_simp

theorem offDiagonal_linear (N : Matrix (Fin n) (Fin n) ℝ) (c0 c1 : ℝ) :
    offDiagonal (c0 • (1 : Matrix (Fin n) (Fin n) ℝ) + c1 • N) = c1 ^ 2 * offDiagonal N := by
  unfold offDiagonal
  rw [Finset.mul_sum]
  refine Finset.sum_congr rfl fun i _ => ?_
  rw [Finset.mul_sum]
  refine Finset.sum_congr rfl fun j _ => ?_
  split
  · simp
  · next h =>
    rw [Matrix.add_apply, Matrix.smul_apply, Matrix.smul_apply, Matrix.one_apply_ne h, smul_zero, zero_add, smul_eq_mul, mul_pow]

/-- **C120, calibration.**  The statement of C70 for these functions needs no condition on the Lanczos runs, and holds with `gram`: with `s` samples
and no removal of outliers the expected result is the exact trace, the mean square error is `2 c1² / s` times the sum of the squares off the diagonal,
the reported error is calibrated, and large errors are as unlikely as Chebyshev says. -/
theorem slq_linear_calibrated (hr : ExactRun ext opt op M #[t]) (hn : 0 < n) (hf : ∀ x, f (ext.pow x opt.exponent) = c0 + c1 * x)
    {s : ℕ} (hs : 2 ≤ s) (z : ℝ) :
    ∃ trace error : (Fin s → Fin n → Bool) → ℝ,
      (∀ (w : Fin s → Fin n → Bool) (cfg : Config (XR ℝ)) ts st, 0 < cfg.numThreads → cfg.numInquiries = 1 → cfg.minNumSamples = s →
        cfg.maxNumSamples = s →
        (∀ i : Fin s, ∃ (junkAlpha junkBeta : Array ℝ) (e0 x : ℝ), junkAlpha.size = opt.degree ∧ junkBeta.size = opt.degree ∧
          slqSample ext opt op f #[t] 1 (signVector (w i)) junkAlpha junkBeta #[false] #[e0] = .ok (#[false], #[x]) ∧ cfg.value i 0 = .fin x) →
        run cfg (init cfg) ts = some st → Finished cfg st →
        averaged cfg (.fin z) .pinf st 0 = ⟨.fin (trace w), .fin (error w), 0⟩) ∧
      expected trace = c0 * n + c1 * (target opt.gram (M t)).trace ∧
      expected (fun w => (trace w - (c0 * n + c1 * (target opt.gram (M t)).trace)) ^ 2) = 2 * (c1 ^ 2 * offDiagonal (target opt.gram (M t))) / s ∧
      expected (fun w => error w ^ 2) = z ^ 2 * expected (fun w => (trace w - (c0 * n + c1 * (target opt.gram (M t)).trace)) ^ 2) ∧
      ∀ e > 0, ∀ [DecidablePred fun w => e ≤ |trace w - (c0 * n + c1 * (target opt.gram (M t)).trace)|],
        probability (fun w => e ≤ |trace w - (c0 * n + c1 * (target opt.gram (M t)).trace)|) ≤
          2 * (c1 ^ 2 * offDiagonal (target opt.gram (M t))) / (s * e ^ 2) := by
  have hF : (c0 • (1 : Matrix (Fin n) (Fin n) ℝ) + c1 • target opt.gram (M t)).IsSymm :=
    (isSymm_one.smul _).add ((target_symm hr).smul _)
  have htr : (c0 • (1 : Matrix (Fin n) (Fin n) ℝ) + c1 • target opt.gram (M t)).trace = c0 * n + c1 * (target opt.gram (M t)).trace := by
    rw [trace_add, trace_smul, trace_smul, trace_one, Fintype.card_fin, smul_eq_mul, smul_eq_mul]
  obtain ⟨tr, er, h1, h2, h3, h4, h5⟩ := estimate_calibrated_partial hF hs z
  rw [htr] at h2
  rw [htr, offDiagonal_linear] at h3
  rw [htr] at h4
  refine ⟨tr, er, fun w cfg ts st k1 k2 k3 k4 k5 hrun hfin => ?_, h2, h3, h4, ?_⟩
  · refine h1 w cfg ts st ⟨k1, k2, k4, fun i => ?_⟩ k3 hrun hfin
    obtain ⟨ja, jb, e0, x, hja, hjb, hx, hv⟩ := k5 i
    rw [slq_linear_sample hr hn (signVector_rademacher _) hja hjb hf] at hx
    have hx' : c0 * n + c1 * signVector (w i) ⬝ᵥ (target opt.gram (M t) *ᵥ signVector (w i)) = x := by simpa using hx
    rw [hv, ← hx', add_mulVec, dotProduct_add, smul_mulVec, smul_mulVec, dotProduct_smul, dotProduct_smul, one_mulVec,
      rademacher_dot (signVector_rademacher _), smul_eq_mul, smul_eq_mul]
  · rw [htr, offDiagonal_linear] at h5
    exact h5

/-- The quadratic form of a vector of signs in a diagonal matrix. -/
theorem rademacher_diagonal {z : Fin n → ℝ} (hz : Rademacher z) (d : Fin n → ℝ) : z ⬝ᵥ (diagonal d *ᵥ z) = (diagonal d).trace := by
  rw [trace_diagonal]
  refine Finset.sum_congr rfl fun i _ => ?_
  rw [mulVec_diagonal]
  rcases hz i with h | h <;> rw [h] <;> ring

theorem diagonal_values {d : Fin n → ℝ} (hrun : SampledRun cfg ext opt op f t) (hr : ExactRun ext opt op M #[t]) (hn : 0 < n)
    (hM : target opt.gram (M t) = diagonal d) (hf : ∀ x, f (ext.pow x opt.exponent) = c0 + c1 * x) {i : ℕ} (hi : i < cfg.maxNumSamples) :
    cfg.value i 0 = .fin (c0 * n + c1 * (target opt.gram (M t)).trace) := by
  obtain ⟨z, ja, jb, e0, v, hz, hja, hjb, hs, hv⟩ := hrun.value i hi
  rw [slq_linear_sample hr hn hz hja hjb hf, hM, rademacher_diagonal hz] at hs
  rw [hv, hM]
  congr 1
  simpa using hs.symm

/-- **C120, diagonal matrices.**  If the matrix (with `gram`, the Gramian: orthogonal columns) is diagonal, the reported trace is exact, the
error zero, and there are no outliers, for every number of threads, schedule, draw and degree. -/
theorem slq_diagonal_exact {d : Fin n → ℝ} (hrun : SampledRun cfg ext opt op f t) (hr : ExactRun ext opt op M #[t]) (hn : 0 < n)
    (hM : target opt.gram (M t) = diagonal d) (hf : ∀ x, f (ext.pow x opt.exponent) = c0 + c1 * x)
    {ts : List ℕ} {st : State (XR ℝ)} (hst : run cfg (init cfg) ts = some st)
    (hend : Finished cfg st) (errorZ : ℝ) {outlierZ : ℝ} (hz : 1 ≤ outlierZ) :
    averaged cfg (.fin errorZ) (.fin outlierZ) st 0 = ⟨.fin (c0 * n + c1 * (target opt.gram (M t)).trace), .fin 0, 0⟩ :=
  equal_samples_exact hrun (fun _ => diagonal_values hrun hr hn hM hf) hst hend errorZ hz

/-- **C120, stopping for diagonal matrices.**  With a positive absolute tolerance, or a positive relative tolerance and trace, the run converges with exactly `min_num_samples` samples. -/
theorem slq_diagonal_stops {d : Fin n → ℝ} (hrun : SampledRun cfg ext opt op f t) (hr : ExactRun ext opt op M #[t]) (hn : 0 < n)
    (hM : target opt.gram (M t) = diagonal d) (hf : ∀ x, f (ext.pow x opt.exponent) = c0 + c1 * x)
    {ts : List ℕ} {st : State (XR ℝ)} (hst : run cfg (init cfg) ts = some st)
    (hend : Finished cfg st) (hmm : cfg.minNumSamples ≤ cfg.maxNumSamples) {z atol rtol : ℝ} (hcz : cfg.z = .fin z)
    (hca : cfg.atol = .fin atol) (hcr : cfg.rtol = .fin rtol)
    (hpos : 0 < atol ∨ 0 < rtol * (c0 * n + c1 * (target opt.gram (M t)).trace)) :
    ∃ q, st.inqs[0]? = some q ∧ q.converged = true ∧ q.numSamplesUsed = cfg.minNumSamples :=
  equal_samples_stop hrun (fun _ => diagonal_values hrun hr hn hM hf) hst hend hmm hcz hca hcr hpos

/-- **C119 for the Hutchinson method and diagonal matrices**, under the conditions of C35 and with `orthogonalize=False`: if the sampled matrix is diagonal, every returned
trace is exact.  Missing: the exponents and the case excluded in C35. -/
theorem hutchinson_diagonal_exact_partial {solve : Hutchinson.Solver ℝ} {a : Hutchinson.Assume} {eps : ℝ} (he : 0 < eps) (he1 : eps ≤ 1)
    (clock : ℕ → ℕ → BitVec 64) (seed : BitVec 64) (hn : 1 ≤ n) (hs : SolverSpec solve)
    {A : Matrix (Fin n) (Fin n) ℝ} (hA : Admissible a A) {p : ℤ} (hp : -1 ≤ p)
    (hu : 1 ≤ p → IsUnit A.det) (gram : Bool) (B C : Option (Matrix (Fin n) (Fin n) ℝ)) (hBC : C.isSome → B.isSome)
    (hex : ¬ (gram = true ∧ p = -1 ∧ B.isSome)) {st : Hutchinson.Settings ℝ} {d : Fin n → ℝ} (hG : sampledMatrix gram A p B C = diagonal d)
    {r : Hutchinson.Outcome ℝ}
    (h : Hutchinson.hutchinson solve eps clock seed false (square A) (B.map square) (C.map square) gram (.int p) a st = .ok r) :
    r.trace = XR.fin (sampledMatrix gram A p B C).trace := by
  obtain ⟨V, samples, conv, q, h1, h2, h3, h4, rfl⟩ := hutchinson_ok he he1 (A := square A) hn h
  rcases column_vectors_sound hn he he1 clock seed (Hutchinson.clampSamples (square A) st.maxNumSamples) false with
    h7 | ⟨V', h7, -, -, -, h9⟩
  · cases h7.1
  have hVV : V' = V := by
    have := h7.symm.trans h1
    injection this
  subst hVV
  obtain ⟨x, -, h10⟩ := h9 rfl
  obtain ⟨-, g2⟩ := sample_form hs hA hp hu gram B C hBC hex
  set G := sampledMatrix gram A p B C
  obtain ⟨-, -, -, k4, -⟩ := Hutchinson.sampling_ok h3
  have k5 := k4 (V'.toList.map fun v => n * (v ⬝ᵥ (G *ᵥ v))) (by
    rw [List.map_map, List.map_map]
    refine List.map_congr_left fun v _ => ?_
    exact g2 v)
  rw [List.nil_append] at k5
  rw [k5] at h4
  obtain ⟨t, h5, h6, h8⟩ := python_estimate_between (lo := G.trace) (hi := G.trace) (fun y hy => by
    obtain ⟨v, hv, rfl⟩ := List.mem_map.1 (List.mem_of_mem_take hy)
    obtain ⟨i, hi', rfl⟩ := List.mem_iff_getElem.1 hv
    have e : V'.toList[i] = (1 / Real.sqrt n) • drawnVector x n i := by
      have := h10 i (by simpa using hi')
      simpa using this
    obtain ⟨b, hb, -⟩ := (rademacher_enumeration (n := n)).2 _ (drawnVector_rademacher x n i)
    rw [e, ← hb, scaled_form hn, hG, rademacher_diagonal (signVector_rademacher b)]
    exact ⟨le_rfl, le_rfl⟩) h4
  show q.trace = _
  rw [h5, le_antisymm h8 h6]

/-! ### Non-vacuity -/

private theorem four_run (s : ℕ → Fin 2 → Bool) : ∃ v : ℕ → ℝ,
    SampledRun (runOf v) someExternal ⟨false, 1, 2, 3, 1/100⟩ (oneAndOp 4) id 0 :=
  ⟨fun i => 0 * (2 : ℕ) + 1 * signVector (s i) ⬝ᵥ (target false (oneAnd 4) *ᵥ signVector (s i)),
    by simp [runOf], rfl, by simp [runOf], fun i _ => ⟨signVector (s i), Array.replicate 3 0, Array.replicate 3 0, 0, _,
      signVector_rademacher _, by simp, by simp,
      slq_linear_sample (oneAnd_run 4) (by norm_num) (signVector_rademacher _) (by simp) (by simp)
        (fun x => by simp [someExternal]) 0, rfl⟩⟩

/-- One step and three steps for `diag(1, 4)`. -/
example (s : Fin 2 → Bool) :
    slqSample someExternal ⟨false, 1, 0, 1, 1/10⟩ (oneAndOp 4) id #[0] 1 (signVector s) #[7] #[8] #[false] #[9] =
      slqSample someExternal ⟨false, 1, 2, 3, 1/100⟩ (oneAndOp 4) id #[0] 1 (signVector s) #[0, 0, 0] #[0, 0, 0] #[false] #[0] := by
  have hr : ExactRun someExternal ⟨false, 1, 0, 1, 1/10⟩ (oneAndOp 4) (fun _ => oneAnd 4) #[0] := by
    obtain ⟨h1, h2, h3, h4, h5, h6, h7⟩ := oneAnd_run 4
    exact ⟨h1, h2, h3, h4, fun h => absurd h (by simp), by norm_num, le_rfl⟩
  exact slq_linear_degree_irrelevant (c0 := 0) (c1 := 1) hr (oneAnd_run 4) (by norm_num) rfl rfl (signVector_rademacher s) rfl rfl rfl rfl
    (fun x => by simp [someExternal]) 9 0

/-- `diag(1, 4) + diag(1, 2) = 2 diag(1, 3)`. -/
example (s : Fin 2 → Bool) : ∃ x x',
    slqSample someExternal ⟨false, 1, 2, 3, 1/100⟩ (oneAndOp 4) id #[0] 1 (signVector s) #[0, 0, 0] #[0, 0, 0] #[false] #[0] = .ok (#[false], #[x]) ∧
    slqSample someExternal ⟨false, 1, 2, 3, 1/100⟩ (oneAndOp 2) id #[0] 1 (signVector s) #[0, 0, 0] #[0, 0, 0] #[false] #[0] = .ok (#[false], #[x']) ∧
    slqSample someExternal ⟨false, 1, 0, 1, 1⟩ ⟨false, fun _ x => .ok (diagonal ![2, 6] *ᵥ x), fun _ x => .ok ((diagonal ![2, 6])ᵀ *ᵥ x), fun _ _ _ => 0⟩
      id #[0] 1 (signVector s) #[0] #[0] #[false] #[0] = .ok (#[false], #[x + x']) :=
  slq_trace_additive (oneAnd_run 4) (oneAnd_run 2) (M'' := fun _ => diagonal ![2, 6])
    ⟨rfl, fun _ _ => rfl, fun _ _ => rfl, fun _ => ⟨exists_eigh.choose_spec, fun _ => diagonal_transpose _⟩, fun h => absurd h (by simp),
      by norm_num, le_rfl⟩ (by norm_num) rfl rfl rfl
    (by
      show diagonal ![2, 6] = oneAnd 4 + oneAnd 2
      rw [oneAnd, oneAnd, diagonal_add]
      congr 1
      funext i
      fin_cases i <;> norm_num)
    (fun x => by simp [someExternal]) (fun x => by simp [someExternal]) (fun x => by simp [someExternal]) (signVector_rademacher s)
    rfl rfl rfl rfl rfl rfl 0 0 0

/-- Products with a symmetric matrix that is not diagonal. -/
noncomputable def twoThree : Operator ℝ 2 :=
  ⟨false, fun _ x => .ok (!![2, 1; 1, 3] *ᵥ x), fun _ x => .ok ((!![2, 1; 1, 3] : Matrix (Fin 2) (Fin 2) ℝ)ᵀ *ᵥ x), fun _ _ _ => 0⟩

/-- The trace 5 of a matrix that is not diagonal, with two steps that may stop early: ten samples, mean square error `4 / 10`. -/
example : ∃ trace error : (Fin 10 → Fin 2 → Bool) → ℝ, expected trace = 5 ∧ expected (fun w => error w ^ 2) = 2 ^ 2 * (4 / 10) := by
  have hr : ExactRun someExternal ⟨false, 1, 0, 2, 1⟩ twoThree (fun _ => !![2, 1; 1, 3]) #[0] :=
    ⟨rfl, fun _ _ => rfl, fun _ _ => rfl, fun _ => ⟨exists_eigh.choose_spec, fun _ => by ext i j; fin_cases i <;> fin_cases j <;> rfl⟩,
      fun h => absurd h (by simp), by norm_num, by norm_num⟩
  obtain ⟨tr, er, -, h1, h2, h3, -⟩ := slq_linear_calibrated (f := id) (c0 := 0) (c1 := 1) hr (by norm_num)
    (fun x => by simp [someExternal]) (s := 10) (by norm_num) 2
  have e1 : (target false (!![2, 1; 1, 3] : Matrix (Fin 2) (Fin 2) ℝ)).trace = 5 := by
    norm_num [target, Matrix.trace, Fin.sum_univ_two]
  have e2 : offDiagonal (target false (!![2, 1; 1, 3] : Matrix (Fin 2) (Fin 2) ℝ)) = 2 := by
    simp [target, offDiagonal, Fin.sum_univ_two]; norm_num
  dsimp only at h1 h2 h3
  rw [e1] at h1
  rw [e2] at h2
  exact ⟨tr, er, by rw [h1]; norm_num, by rw [h3, h2]; norm_num⟩

/-- Three parameters in one run, two steps: `tr(diag(1, 4) + t I)` for `t = 0, 1, 2`. -/
example (s : Fin 2 → Bool) :
    slqSample someExternal ⟨false, 1, 0, 2, 1/10⟩ (affineIdentity (oneAnd 4)) id #[0, 1, 2] 3 (signVector s) #[7, 7] #[8, 8]
      #[false, true, false] #[9, 9, 9] = .ok (#[false, false, false], #[5, 7, 9]) := by
  have h := slq_linear_shared_sample (f := id) (c0 := 0) (c1 := 1) (ext := someExternal) (opt := ⟨false, 1, 0, 2, 1/10⟩) (num := 3)
    (parameters := #[0, 1, 2]) (junkAlpha := #[7, 7]) (junkBeta := #[8, 8]) (estimate := #[9, 9, 9]) (converged := #[false, true, false])
    (affineIdentity_spec (oneAnd 4)) (Matrix.diagonal_transpose _) rfl exists_eigh.choose_spec rfl
    (by norm_num) (by norm_num) (by norm_num) (by norm_num) (signVector_rademacher s) rfl rfl rfl rfl rfl (fun x => by simp [someExternal])
  have e : signVector s ⬝ᵥ (oneAnd 4 *ᵥ signVector s) = 5 := by
    rw [oneAnd, rademacher_diagonal (signVector_rademacher s), trace_diagonal, Fin.sum_univ_two]
    norm_num
  rw [h, e]
  norm_num
  rfl

/-- `diag(1, 4)`: whatever is drawn, the trace is 5 after two samples. -/
example (s : ℕ → Fin 2 → Bool) : ∃ v ts st q, run (runOf v) (init (runOf v)) ts = some st ∧ Finished (runOf v) st ∧
    st.inqs[0]? = some q ∧ averaged (runOf v) (.fin 2) (.fin 3) st 0 = ⟨.fin 5, .fin 0, 0⟩ ∧ q.converged = true ∧
    q.numSamplesUsed = 2 := by
  obtain ⟨v, hrun⟩ := four_run s
  obtain ⟨ts, st, h1, h2⟩ := (loop_terminates (runOf v)).2 [] _ rfl
  have hf : ∀ x, (id : ℝ → ℝ) (someExternal.pow x 1) = 0 + 1 * x := fun x => by simp [someExternal]
  have ht : 0 * ((2 : ℕ) : ℝ) + 1 * (target false (oneAnd 4)).trace = 5 := by
    rw [show target false (oneAnd 4) = diagonal ![1, 4] from rfl, trace_diagonal, Fin.sum_univ_two]
    norm_num
  have h3 := slq_diagonal_exact hrun (oneAnd_run 4) (by norm_num) (d := ![1, 4]) rfl hf h1 h2 2 (outlierZ := 3) (by norm_num)
  obtain ⟨q, h4, h5, h6⟩ := slq_diagonal_stops hrun (oneAnd_run 4) (by norm_num) (d := ![1, 4]) rfl hf h1 h2 (by simp [runOf]) (z := 2)
    (atol := 0) (rtol := 1 / 100) rfl rfl rfl (Or.inr (by rw [ht]; norm_num))
  exact ⟨v, ts, st, q, h1, h2, h4, by rw [h3, ht], h5, h6⟩

/-- `diag(1, 2, 2)`: whatever the Hutchinson method draws, the trace of the sampled matrix is five. -/
example {solve : Hutchinson.Solver ℝ} (hs : SolverSpec solve) (clock : ℕ → ℕ → BitVec 64) (seed : BitVec 64) :
    ∃ r, Hutchinson.hutchinson solve (1 / 2 : ℝ) clock seed false (square (diagonal ![(1 : ℝ), 2, 2])) none none false (.int (-1)) .gen
      ⟨2, 2, .fin 0, .fin 0, .fin 2, .fin 3⟩ = .ok r ∧ r.trace = XR.fin 5 := by
  have hS : sampledMatrix false (diagonal ![(1 : ℝ), 2, 2]) (-1) none none = diagonal ![1, 2, 2] := by
    simp [sampledMatrix, subject]
  obtain ⟨r, h⟩ := hutchinson_plain_returns_partial (eps := 1 / 2) (by norm_num) (by norm_num) clock seed (n := 3) (by norm_num) (a := .gen) hs
    (A := diagonal ![(1 : ℝ), 2, 2]) trivial (p := -1) (by norm_num) (fun h => absurd h (by norm_num)) false none none (by simp) (by simp)
    (st := ⟨2, 2, .fin 0, .fin 0, .fin 2, .fin 3⟩) (by norm_num) (by norm_num) (oz := 3) rfl (by norm_num)
  refine ⟨r, h, ?_⟩
  rw [hutchinson_diagonal_exact_partial (eps := 1 / 2) (by norm_num) (by norm_num) clock seed (n := 3) (by norm_num) (a := .gen) hs
    (A := diagonal ![(1 : ℝ), 2, 2]) trivial (p := -1) (by norm_num) (fun h => absurd h (by norm_num)) false none none (by simp) (by simp) hS h,
    hS, trace_diagonal, Fin.sum_univ_three, show (![(1 : ℝ), 2, 2] 2) = 2 from rfl]
  norm_num

end Imate.Props
