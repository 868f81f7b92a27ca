import Verif.Lemmas.Accuracy
import Verif.Props.Convergence
import Verif.Props.Estimator
import Verif.Props.Slq
import Mathlib.Tactic.FinCases
set_option linter.unusedSectionVars false

/-! # C70: the random error of the estimate

`s` independent sign vectors are `w : Fin s → Fin n → Bool`, all equally likely; `expected` and
`probability` (Spec/Accuracy.lean) are over them.  `Draws cfg F w` says that the samples of a run are the
quadratic forms of these vectors. -/

namespace Imate.Props

open Matrix Imate.Lanczos Imate.Spec Imate.Accuracy Polynomial
open Convergence Estimator

/-- The run has one inquiry, and its sample `i` is `zᵢᵀ F zᵢ` with the sign vector `zᵢ` given by `w i`. -/
structure Draws {n s : ℕ} (cfg : Config (XR ℝ)) (F : Matrix (Fin n) (Fin n) ℝ) (w : Fin s → Fin n → Bool) : Prop where
  threads : 0 < cfg.numThreads
  inquiries : cfg.numInquiries = 1
  max : cfg.maxNumSamples = s
  value : ∀ i : Fin s, cfg.value i 0 = .fin (signVector (w i) ⬝ᵥ (F *ᵥ signVector (w i)))

theorem average_all {xs : List ℝ} (h : 2 ≤ xs.length) (z : ℝ) :
    averageEstimate (.fin z) .pinf (xs.map XR.fin) =
      (⟨.fin (mean xs), .fin (standardError z xs), 0⟩ : Averaged (XR ℝ)) := by
  have hne : xs ≠ [] := by rintro rfl; simp at h
  have h1 : (2 : ℝ) ≤ xs.length := by exact_mod_cast h
  have hno : ∀ x, isOutlier (meanOf (xs.map XR.fin)) (FloatLike.mul (XR.pinf : XR ℝ) (stdOf (xs.map XR.fin))) x = false := by
    intro x
    unfold isOutlier
    rcases pinf_mul_std (xs.map XR.fin) with h | h <;> rw [h]
    · rfl
    · show XR.lt XR.pinf _ = false
      cases FloatLike.abs (FloatLike.sub x (meanOf (xs.map XR.fin))) <;> rfl
  unfold averageEstimate
  dsimp only
  have hc : (xs.map XR.fin).countP (fun _ => false) = 0 := by simp
  simp only [hno, Bool.not_false, List.filter_true, hc, Nat.sub_zero, List.length_map, Nat.add_zero]
  have hm := meanOf_fin hne
  have he := errorOf_fin z h
  unfold errorOf stdOf at he
  unfold meanOf at hm he
  rw [List.length_map] at hm he
  rw [if_pos (by omega)] at he
  rw [if_pos (by omega), he, hm]

section
variable {n s : ℕ} {F : Matrix (Fin n) (Fin n) ℝ} {w : Fin s → Fin n → Bool} {cfg : Config (XR ℝ)}
  {ts : List ℕ} {st : State (XR ℝ)}

theorem Draws.inquiry (hd : Draws cfg F w) (hrun : run cfg (init cfg) ts = some st) :
    ∃ q, st.inqs[0]? = some q := by
  have hsep : Separate cfg := Or.inr hd.inquiries
  have hlen : st.inqs.length = 1 := by
    rw [(inv_run hsep (by rw [hd.inquiries]; omega) hrun).numInqs, hd.inquiries]
  exact ⟨_, List.getElem?_eq_getElem (by omega : 0 < st.inqs.length)⟩

/-- All samples are averaged, in whatever order the threads produced them. -/
theorem Draws.averaged (hd : Draws cfg F w) (hmin : cfg.minNumSamples = s) (hs : 2 ≤ s)
    (hrun : run cfg (init cfg) ts = some st) (hf : Finished cfg st) (z : ℝ) :
    Estimator.averaged cfg (.fin z) .pinf st 0 =
      ⟨.fin (mean (List.ofFn fun k => signVector (w k) ⬝ᵥ (F *ᵥ signVector (w k)))),
       .fin (standardError z (List.ofFn fun k => signVector (w k) ⬝ᵥ (F *ᵥ signVector (w k)))), 0⟩ := by
  obtain ⟨q, hq⟩ := hd.inquiry hrun
  have hsep : Separate cfg := Or.inr hd.inquiries
  have hN : 0 < cfg.numInquiries := by rw [hd.inquiries]; omega
  have hex : Exclusive cfg := Or.inr (by rw [hsep.required, hd.inquiries])
  obtain ⟨a1, a2, a3, a4, a5⟩ := sample_accounting hsep hN hd.threads hrun hf hq
  rw [hmin, hd.max, min_self] at a1
  rw [hd.max] at a3
  have hu : q.numSamplesUsed = s := by omega
  have hl : st.processed.length = s := by omega
  rw [trace_is_average_of_values hsep hN hex hrun hq, List.take_of_length_le (by omega)]
  have hperm : st.processed.Perm (List.range s) := by
    refine (List.subperm_of_subset a4 ?_).perm_of_length_le (by simp [hl])
    intro i hi
    have := a5 i hi
    rw [hd.max] at this
    exact List.mem_range.2 this
  rw [averageEstimate_perm _ _ (hperm.map _)]
  have hlist : (List.range s).map (fun i => cfg.value i 0) =
      (List.ofFn fun k => signVector (w k) ⬝ᵥ (F *ᵥ signVector (w k))).map XR.fin := by
    apply List.ext_getElem (by simp)
    intro i h1 h2
    simp only [List.length_map, List.length_range] at h1
    simpa using hd.value ⟨i, h1⟩
  rw [hlist, average_all (by simpa using hs)]

end

theorem mean_ofFn {s : ℕ} (x : Fin s → ℝ) : mean (List.ofFn x) = (∑ k, x k) / s := by
  unfold mean
  rw [List.sum_ofFn, List.length_ofFn]

theorem error_sq_ofFn {s : ℕ} (hs : 2 ≤ s) (z : ℝ) (x : Fin s → ℝ) :
    standardError z (List.ofFn x) ^ 2 = z ^ 2 / (s * (s - 1)) * ∑ k, (x k - (∑ l, x l) / s) ^ 2 := by
  have h1 : (2 : ℝ) ≤ s := by exact_mod_cast hs
  have h2 : sqDev (mean (List.ofFn x)) (List.ofFn x) = ∑ k, (x k - (∑ l, x l) / s) ^ 2 := by
    unfold sqDev
    rw [mean_ofFn, List.map_ofFn, List.sum_ofFn]
    rfl
  unfold standardError sampleStd
  rw [h2, List.length_ofFn, div_pow, mul_pow, Real.sq_sqrt
    (div_nonneg (Finset.sum_nonneg fun _ _ => sq_nonneg _) (by linarith)), Real.sq_sqrt (by linarith)]
  have : (s : ℝ) - 1 ≠ 0 := by linarith
  generalize ∑ k, (x k - (∑ l, x l) / s) ^ 2 = S
  field_simp

/-- **C70.** With a fixed number `s ≥ 2` of samples and no removal of outliers, for every number of threads
and every schedule, and every symmetric matrix `F` (the function of the matrix):
the expected value of the reported trace is the trace of `F`;
its mean square error is `2 Σ_{i≠j} F_ij² / s`;
the reported error `e` is calibrated, `E e² = z² E (trace - tr F)²`;
and the trace is off by `ε` or more with probability at most `2 Σ_{i≠j} F_ij² / (s ε²)`. -/
theorem estimate_calibrated_partial {n s : ℕ} {F : Matrix (Fin n) (Fin n) ℝ} (hF : F.IsSymm) (hs : 2 ≤ s) (z : ℝ) :
    ∃ trace error : (Fin s → Fin n → Bool) → ℝ,
      (∀ w cfg ts st, Draws cfg F w → cfg.minNumSamples = s → run cfg (init cfg) ts = some st → Finished cfg st →
        averaged cfg (.fin z) .pinf st 0 = ⟨.fin (trace w), .fin (error w), 0⟩) ∧
      expected trace = F.trace ∧
      expected (fun w => (trace w - F.trace) ^ 2) = 2 * offDiagonal F / s ∧
      expected (fun w => error w ^ 2) = z ^ 2 * expected (fun w => (trace w - F.trace) ^ 2) ∧
      ∀ e > 0, ∀ [DecidablePred fun w => e ≤ |trace w - F.trace|],
        probability (fun w => e ≤ |trace w - F.trace|) ≤ 2 * offDiagonal F / (s * e ^ 2) := by
  have h1 : (2 : ℝ) ≤ s := by exact_mod_cast hs
  have ht := expected_form F
  have hmse := mean_square_error (s := s) (by omega) (fun x : Fin n → Bool => signVector x ⬝ᵥ (F *ᵥ signVector x))
  rw [ht, variance_form hF] at hmse
  refine ⟨fun w => mean (List.ofFn fun k => signVector (w k) ⬝ᵥ (F *ᵥ signVector (w k))),
    fun w => standardError z (List.ofFn fun k => signVector (w k) ⬝ᵥ (F *ᵥ signVector (w k))),
    fun w cfg ts st hd hmin hrun hf => hd.averaged hmin hs hrun hf z, ?_, ?_, ?_, ?_⟩
  · simp only [mean_ofFn]
    rw [← ht]
    exact sample_mean (by omega) (fun x : Fin n → Bool => signVector x ⬝ᵥ (F *ᵥ signVector x))
  · simp only [mean_ofFn]
    exact hmse
  · simp only [mean_ofFn, error_sq_ofFn hs]
    rw [expected_smul, hmse]
    have := deviations (s := s) (by omega) (fun x : Fin n → Bool => signVector x ⬝ᵥ (F *ᵥ signVector x))
    rw [ht, variance_form hF] at this
    rw [this]
    have : (s : ℝ) - 1 ≠ 0 := by linarith
    field_simp
  · intro e he _
    refine (chebyshev _ _ he).trans (le_of_eq ?_)
    simp only [mean_ofFn]
    rw [hmse, div_div]

/-- Every choice of vectors is drawn by a run that finishes. -/
noncomputable def fixedRun {n s : ℕ} (F : Matrix (Fin n) (Fin n) ℝ) (w : Fin s → Fin n → Bool) : Config (XR ℝ) where
  numThreads := 3
  chunkSize := 2
  minNumSamples := s
  maxNumSamples := s
  numInquiries := 1
  relationKnown := false
  numProducts := 4
  z := .fin 2
  atol := .fin 0
  rtol := .fin (1/100)
  value := fun i _ => if h : i < s then .fin (signVector (w ⟨i, h⟩) ⬝ᵥ (F *ᵥ signVector (w ⟨i, h⟩))) else .nan
  mixedValue := fun _ _ => .nan
  garbageValue := fun _ _ => .nan

example {n s : ℕ} (F : Matrix (Fin n) (Fin n) ℝ) (w : Fin s → Fin n → Bool) :
    Draws (fixedRun F w) F w ∧ (fixedRun F w).minNumSamples = s ∧
    ∃ ts st, run (fixedRun F w) (init (fixedRun F w)) ts = some st ∧ Finished (fixedRun F w) st := by
  refine ⟨⟨by simp [fixedRun], rfl, rfl, fun i => by simp [fixedRun]⟩, rfl, ?_⟩
  obtain ⟨ts, st, h1, h2⟩ := (loop_terminates (fixedRun F w)).2 [] _ rfl
  exact ⟨ts, st, h1, h2⟩

/-- A matrix with a non-trivial variance: trace 5, mean square error `4 / s`. -/
example : (!![2, 1; 1, 3] : Matrix (Fin 2) (Fin 2) ℝ).IsSymm ∧ offDiagonal !![2, 1; 1, 3] = 2 := by
  constructor
  · ext i j; fin_cases i <;> fin_cases j <;> rfl
  · simp [offDiagonal, Fin.sum_univ_two]; norm_num

/-! ### The same for the Lanczos quadrature -/

theorem aeval_symm {n : ℕ} {A : Matrix (Fin n) (Fin n) ℝ} (hA : A.IsSymm) (p : ℝ[X]) : (aeval A p).IsSymm := by
  rw [aeval_eq_sum_range]
  unfold Matrix.IsSymm
  rw [Matrix.transpose_sum]
  refine Finset.sum_congr rfl fun i _ => ?_
  rw [Matrix.transpose_smul, (hA.pow i).eq]

/-- **C70**, end to end: the samples are what the stochastic Lanczos quadrature computes for the drawn sign
vectors, for a function that is a polynomial of degree below twice the Lanczos degree, with full Lanczos runs;
then the result is calibrated around the trace of the function of the matrix. -/
theorem slq_calibrated_partial {n s : ℕ} {ext : External ℝ} {opt : Options ℝ} {op : Operator ℝ n}
    {junkAlpha junkBeta : Array ℝ} {f : ℝ → ℝ} {M : ℝ → Matrix (Fin n) (Fin n) ℝ} {t : ℝ}
    (hsqrt : ext.sqrt = Real.sqrt) (heig : EighSpec ext.eigh) (hgram : opt.gram = false)
    (hM : ∀ t, (M t).IsSymm) (hdot : ∀ t x, op.dot t x = .ok (M t *ᵥ x))
    (htol : 0 < opt.tol) (hm : 1 ≤ opt.degree) (hn : 0 < n)
    (hja : junkAlpha.size = opt.degree) (hjb : junkBeta.size = opt.degree)
    (p : ℝ[X]) (hp : p.natDegree < 2 * opt.degree) (hf : ∀ x, f (ext.pow x opt.exponent) = p.eval x)
    (hfull : ∀ s : Fin n → Bool, ∃ c, lanczos Real.sqrt ext.eps (op.dot t) (signVector s) opt.degree
      opt.tol opt.orthogonalize junkAlpha junkBeta = .ok c ∧
      (c.size = opt.degree ∨ c.beta.getD (c.size - 1) 0 = 0)) (e0 : ℝ) (hs : 2 ≤ s) (z : ℝ) :
    ∃ trace error : (Fin s → Fin n → Bool) → ℝ,
      (∀ (w : Fin s → Fin n → Bool) (cfg : Config (XR ℝ)) ts st, 0 < cfg.numThreads → cfg.numInquiries = 1 → cfg.minNumSamples = s → cfg.maxNumSamples = s →
        (∀ i : Fin s, ∃ x, slqSample ext opt op f #[t] 1 (signVector (w i)) junkAlpha junkBeta #[false] #[e0] =
          .ok (#[false], #[x]) ∧ cfg.value i 0 = .fin x) →
        run cfg (init cfg) ts = some st → Finished cfg st →
        averaged cfg (.fin z) .pinf st 0 = ⟨.fin (trace w), .fin (error w), 0⟩) ∧
      expected trace = (aeval (M t) p).trace ∧
      expected (fun w => (trace w - (aeval (M t) p).trace) ^ 2) = 2 * offDiagonal (aeval (M t) p) / s ∧
      expected (fun w => error w ^ 2) = z ^ 2 * expected (fun w => (trace w - (aeval (M t) p).trace) ^ 2) := by
  obtain ⟨tr, er, h1, h2, h3, h4, -⟩ := estimate_calibrated_partial (aeval_symm (hM t) p) hs z
  refine ⟨tr, er, fun w cfg ts st c1 c2 c3 c4 c5 hrun hfin => ?_, h2, h3, h4⟩
  refine h1 w cfg ts st ⟨c1, c2, c4, fun i => ?_⟩ c3 hrun hfin
  obtain ⟨x, hx, hv⟩ := c5 i
  rw [slq_sample_poly hsqrt heig hgram hM hdot htol hm hn hja hjb p hp hf hfull e0 (w i)] at hx
  rw [hv]
  simp only [Except.ok.injEq, Prod.mk.injEq, true_and] at hx
  have : signVector (w i) ⬝ᵥ (aeval (M t) p *ᵥ signVector (w i)) = x := by
    simpa using hx
  rw [this]

/-- Non-vacuity: the matrix of the example of `slq_unbiased`, one Lanczos step, ten samples. -/
example (z : ℝ) : ∃ trace error : (Fin 10 → Fin 2 → Bool) → ℝ,
    expected trace = 6 ∧ expected (fun w => error w ^ 2) = z ^ 2 * (4 / 10) := by
  obtain ⟨tr, er, -, h1, h2, h3⟩ := slq_calibrated_partial (n := 2) (s := 10) (ext := someExternal)
    (opt := ⟨false, 1, 0, 1, 1/100⟩)
    (op := ⟨false, fun t x => .ok (!![2, 1; 1, 3 + t] *ᵥ x),
      fun t x => .ok (!![2, 1; 1, 3 + t] *ᵥ x), fun _ _ _ => 0⟩)
    (M := fun t => !![2, 1; 1, 3 + t]) (f := id) (t := 1) (junkAlpha := #[0]) (junkBeta := #[0])
    rfl exists_eigh.choose_spec rfl
    (by intro t; ext i j; fin_cases i <;> fin_cases j <;> rfl) (fun _ _ => rfl) (by norm_num)
    (by norm_num) (by norm_num) rfl rfl X (by rw [natDegree_X]; norm_num)
    (by intro x; simp [someExternal])
    (by
      intro s
      obtain ⟨c', hc', hr⟩ := lanczos_result (A := !![2, 1; 1, 3 + 1])
        (dot := fun x => .ok (!![2, 1; 1, 3 + 1] *ᵥ x)) (z := signVector s) (fun _ => rfl)
        (by ext i j; fin_cases i <;> fin_cases j <;> rfl)
        (rademacher_ne_zero (signVector_rademacher s) (by norm_num)) someExternal.eps (1/100)
        (by norm_num) 1 0 (alpha := #[0]) (beta := #[0]) (by simp) (by simp)
      have h1 := hr.pos (by norm_num)
      have h2 := hr.le
      exact ⟨c', hc', Or.inl (by show c'.size = 1; omega)⟩) 0 (by norm_num) z
  refine ⟨tr, er, ?_, ?_⟩
  · rw [h1, aeval_X]
    norm_num [Matrix.trace, Fin.sum_univ_two]
  · rw [h3, h2, aeval_X]
    congr 1
    simp [offDiagonal, Fin.sum_univ_two]
    norm_num

/-! ### Where the calibration fails -/

/-- `J + I`, symmetric positive definite. -/
def onesPlusId : Matrix (Fin 3) (Fin 3) ℝ := !![2, 1, 1; 1, 2, 1; 1, 1, 2]

theorem trace_onesPlusId : onesPlusId.trace = 6 := by
  rw [Matrix.trace, Fin.sum_univ_three]
  show (2 : ℝ) + 2 + 2 = 6
  norm_num

/-- `zᵀ (J + I) z = (Σ z)² + 3` in integers. -/
def formInt (b : Fin 3 → Bool) : ℤ :=
  (((if b 0 then 1 else -1) + (if b 1 then 1 else -1) + (if b 2 then 1 else -1)) ^ 2 + 3)

theorem form_onesPlusId (b : Fin 3 → Bool) :
    signVector b ⬝ᵥ (onesPlusId *ᵥ signVector b) = (formInt b : ℝ) := by
  unfold formInt signVector onesPlusId
  simp only [dotProduct, mulVec, Fin.sum_univ_three]
  cases b 0 <;> cases b 1 <;> cases b 2 <;> simp <;> norm_num

theorem formInt_cases (b : Fin 3 → Bool) : formInt b = 4 ∨ formInt b = 12 := by
  unfold formInt
  cases b 0 <;> cases b 1 <;> cases b 2 <;> simp

theorem card_four : (Finset.univ.filter (fun b : Fin 3 → Bool => formInt b = 4)).card = 6 := by decide +kernel

/-- **The confidence level is not kept.**  With `s` samples (all used, any number of threads, any schedule, no
removal of outliers) and any z-score, that is any confidence level below one, the reported interval
`trace ± error` of the matrix `J + I` misses its trace 6 with probability at least `(3/4)^s`. -/
theorem confidence_missed {s : ℕ} (hs : 2 ≤ s) (z : ℝ) :
    ∃ trace error : (Fin s → Fin 3 → Bool) → ℝ,
      (∀ w cfg ts st, Draws cfg onesPlusId w → cfg.minNumSamples = s → run cfg (init cfg) ts = some st →
        Finished cfg st → averaged cfg (.fin z) .pinf st 0 = ⟨.fin (trace w), .fin (error w), 0⟩) ∧
      ∀ [DecidablePred fun w => error w < |trace w - onesPlusId.trace|],
        (3 / 4) ^ s ≤ probability (fun w => error w < |trace w - onesPlusId.trace|) := by
  refine ⟨fun w => mean (List.ofFn fun k => signVector (w k) ⬝ᵥ (onesPlusId *ᵥ signVector (w k))),
    fun w => standardError z (List.ofFn fun k => signVector (w k) ⬝ᵥ (onesPlusId *ᵥ signVector (w k))),
    fun w cfg ts st hd hmin hrun hf => hd.averaged hmin hs hrun hf z, ?_⟩
  intro _
  have h1 : (2 : ℝ) ≤ s := by exact_mod_cast hs
  have hsub : Fintype.piFinset (fun _ : Fin s => Finset.univ.filter (fun b : Fin 3 → Bool => formInt b = 4)) ⊆
      Finset.univ.filter (fun w : Fin s → Fin 3 → Bool =>
        standardError z (List.ofFn fun k => signVector (w k) ⬝ᵥ (onesPlusId *ᵥ signVector (w k))) <
        |mean (List.ofFn fun k => signVector (w k) ⬝ᵥ (onesPlusId *ᵥ signVector (w k))) - onesPlusId.trace|) := by
    intro w hw
    rw [Fintype.mem_piFinset] at hw
    have hx : (fun k => signVector (w k) ⬝ᵥ (onesPlusId *ᵥ signVector (w k))) = fun _ => 4 := by
      funext k
      rw [form_onesPlusId, (Finset.mem_filter.1 (hw k)).2]
      norm_num
    have hm : mean (List.ofFn fun _ : Fin s => (4 : ℝ)) = 4 := by
      rw [mean_ofFn]
      simp
      field_simp
    have he : standardError z (List.ofFn fun _ : Fin s => (4 : ℝ)) = 0 := by
      have : standardError z (List.ofFn fun _ : Fin s => (4 : ℝ)) ^ 2 = 0 := by
        rw [error_sq_ofFn hs]
        have : (∑ _l : Fin s, (4 : ℝ)) / s = 4 := by
          simp
          field_simp
        simp only [this]
        simp
      exact pow_eq_zero_iff (by norm_num) |>.1 this
    rw [Finset.mem_filter, hx, hm, he, trace_onesPlusId]
    exact ⟨Finset.mem_univ _, by norm_num⟩
  have hcard := Finset.card_le_card hsub
  rw [Fintype.card_piFinset] at hcard
  simp only [card_four, Finset.prod_const, Finset.card_univ, Fintype.card_fin] at hcard
  unfold probability
  have h8 : (Fintype.card (Fin s → Fin 3 → Bool) : ℝ) = 8 ^ s := by
    simp
  rw [h8, le_div_iff₀ (by positivity), ← mul_pow]
  calc ((3 / 4 * 8 : ℝ)) ^ s = ((6 ^ s : ℕ) : ℝ) := by push_cast; norm_num
    _ ≤ _ := by exact_mod_cast hcard

/-- With ten samples, the default smallest number, that is more than the 5% promised by default. -/
example : (1 : ℝ) - 0.95 < (3 / 4) ^ 10 := by norm_num

/-- Three times the estimate that stops after two equal samples. -/
def stoppedInt (w : Fin 3 → Fin 3 → Bool) : ℤ :=
  if formInt (w 0) = formInt (w 1) then 3 * formInt (w 0) else formInt (w 0) + formInt (w 1) + formInt (w 2)

/-- Three times the estimate that drops the odd one out. -/
def majorityInt (w : Fin 3 → Fin 3 → Bool) : ℤ :=
  if formInt (w 0) = formInt (w 1) then 3 * formInt (w 0)
  else if formInt (w 0) = formInt (w 2) then 3 * formInt (w 0) else 3 * formInt (w 1)

theorem expected_int (g : (Fin 3 → Fin 3 → Bool) → ℤ) :
    expected (fun w => (g w : ℝ) / 3) = ((∑ w, g w : ℤ) : ℝ) / 1536 := by
  unfold expected
  rw [← Finset.sum_div, ← Int.cast_sum]
  simp
  ring

set_option maxRecDepth 100000 in
theorem sum_stopped : ∑ w, stoppedInt w = 8832 := by decide +kernel

set_option maxRecDepth 100000 in
theorem sum_majority : ∑ w, majorityInt w = 8064 := by decide +kernel

theorem pair_error (z a b : ℝ) : standardError z [a, b] = z * |b - a| / 2 := by
  have h : sqDev (mean [a, b]) [a, b] = (b - a) ^ 2 / 2 := by
    simp [sqDev, mean]
    ring
  have h2 : √((b - a) ^ 2 / 2) = |b - a| / √2 := by
    rw [Real.sqrt_div (sq_nonneg _), Real.sqrt_sq_eq_abs]
  have h3 : √(2 : ℝ) * √2 = 2 := Real.mul_self_sqrt (by norm_num)
  unfold standardError sampleStd
  rw [h]
  have e1 : ((([a, b] : List ℝ).length : ℝ) - 1) = 1 := by norm_num
  have e2 : (([a, b] : List ℝ).length : ℝ) = 2 := by norm_num
  rw [e1, e2, div_one, h2, mul_div_assoc, div_div, h3, mul_div_assoc]

section
variable {w : Fin 3 → Fin 3 → Bool} {cfg : Config (XR ℝ)} {ts : List ℕ} {st : State (XR ℝ)}

/-- The estimate of a run on one thread that asks for at least two of at most three samples. -/
theorem stopped_estimate {z atol rtol : ℝ} (hd : Draws cfg onesPlusId w) (h1 : cfg.numThreads = 1)
    (hmin : cfg.minNumSamples = 2) (hz : cfg.z = .fin z) (ha : cfg.atol = .fin atol) (hr : cfg.rtol = .fin rtol)
    (hr0 : 0 < rtol) (hsmall : max atol (rtol * 8) ≤ 4 * z)
    (hrun : run cfg (init cfg) ts = some st) (hf : Finished cfg st) (ez : ℝ) :
    (Estimator.averaged cfg (.fin ez) .pinf st 0).trace = .fin ((stoppedInt w : ℝ) / 3) := by
  obtain ⟨q, hq⟩ := hd.inquiry hrun
  have hsep : Separate cfg := Or.inr hd.inquiries
  have hN : 0 < cfg.numInquiries := by rw [hd.inquiries]; omega
  have hex : Exclusive cfg := Or.inl h1
  obtain ⟨a1, a2, a3, -, -⟩ := sample_accounting hsep hN hd.threads hrun hf hq
  rw [hmin, hd.max] at a1
  rw [hd.max] at a3
  have hord := single_thread_order h1 hrun
  have hv : ∀ i : Fin 3, cfg.value i 0 = .fin (formInt (w i) : ℝ) := by
    intro i
    rw [hd.value i, form_onesPlusId]
  have hcol : ∀ k ≤ q.numSamplesUsed, (column cfg st 0).take k = (List.range k).map (fun i => cfg.value i 0) := by
    intro k hk
    have hc := (averaged_samples_computed hsep hN hrun hq).1
    have ho := (ownInv_run hex hrun).samples
    unfold column
    rw [← List.map_take]
    have : st.processed.take k = List.range k := by
      rw [hord, List.take_range, Nat.min_eq_left (by omega)]
    rw [this]
    apply List.map_congr_left
    intro i hi
    obtain ⟨own, hown⟩ := hc i (by
      rw [hord, List.take_range, List.mem_range]
      have := List.mem_range.1 hi
      omega)
    cases own with
    | true => rw [hown]; rfl
    | false => exact absurd hown (ho i 0)
  have hmet : meetsTol cfg.z cfg.atol cfg.rtol ((column cfg st 0).take 2) = true ↔
      z * |(formInt (w 1) : ℝ) - formInt (w 0)| / 2 < max atol (rtol * ((formInt (w 0) + formInt (w 1) : ℝ) / 2)) := by
    rw [hcol 2 (by omega), hz, ha, hr]
    have e : (List.range 2).map (fun i => cfg.value i 0) =
        [(formInt (w 0) : ℝ), (formInt (w 1) : ℝ)].map XR.fin := by
      show [cfg.value 0 0, cfg.value 1 0] = _
      have e0 := hv 0
      have e1 := hv 1
      simp only [Fin.val_zero, Fin.val_one] at e0 e1
      rw [e0, e1]
      rfl
    rw [e, meetsTol_fin (by simp), decide_eq_true_eq, pair_error]
    have : mean [(formInt (w 0) : ℝ), (formInt (w 1) : ℝ)] = (formInt (w 0) + formInt (w 1) : ℝ) / 2 := by
      simp [mean]
    rw [this]
  have hcm := converged_meaning hsep hN hrun hq
  have hpos : ∀ b : Fin 3 → Bool, (0 : ℝ) < formInt b := by
    intro b
    rcases formInt_cases b with h | h <;> rw [h] <;> norm_num
  have hres : ∀ xs : List ℝ, 2 ≤ xs.length → q.numSamplesUsed = xs.length →
      (List.range xs.length).map (fun i => cfg.value i 0) = xs.map XR.fin →
      (Estimator.averaged cfg (.fin ez) .pinf st 0).trace = .fin (mean xs) := by
    intro xs h2 hu hx
    rw [trace_is_average_of_values hsep hN hex hrun hq]
    have : st.processed.take q.numSamplesUsed = List.range xs.length := by
      rw [hord, List.take_range, Nat.min_eq_left (by omega), hu]
    rw [this, hx, average_all h2]
  have e0 := hv 0
  have e1 := hv 1
  have e2 := hv 2
  simp only [Fin.val_zero, Fin.val_one, Fin.val_two] at e0 e1 e2
  by_cases heq : formInt (w 0) = formInt (w 1)
  · have hu : q.numSamplesUsed = 2 := by
      by_contra hne
      have hno : ¬ meetsTol cfg.z cfg.atol cfg.rtol ((column cfg st 0).take 2) = true := by
        cases hc : q.converged with
        | true => exact fun h => (hcm.1 hc).2 2 (by omega) ⟨by omega, by omega, by omega, h⟩
        | false => exact fun h => (hcm.2 hc).2 2 ⟨by omega, by omega, by omega, h⟩
      apply hno
      rw [hmet, ← heq, sub_self, abs_zero, mul_zero, zero_div]
      apply lt_max_of_lt_right
      have := hpos (w 0)
      positivity
    rw [hres [(formInt (w 0) : ℝ), (formInt (w 1) : ℝ)] (by simp) (by simpa using hu) (by
      show [cfg.value 0 0, cfg.value 1 0] = _
      rw [e0, e1]; rfl)]
    unfold stoppedInt
    rw [if_pos heq, ← heq]
    simp [mean]
  · have hu : q.numSamplesUsed = 3 := by
      by_contra hne
      have hu2 : q.numSamplesUsed = 2 := by omega
      have hno : ¬ meetsTol cfg.z cfg.atol cfg.rtol ((column cfg st 0).take 2) = true := by
        rw [hmet, not_lt]
        have h8 : |(formInt (w 1) : ℝ) - formInt (w 0)| = 8 ∧ (formInt (w 0) + formInt (w 1) : ℝ) / 2 = 8 := by
          rcases formInt_cases (w 0) with h | h <;> rcases formInt_cases (w 1) with h' | h'
          · exact absurd (h.trans h'.symm) heq
          · rw [h, h']; norm_num
          · rw [h, h']; norm_num
          · exact absurd (h.trans h'.symm) heq
        rw [h8.1, h8.2]
        linarith
      obtain ⟨b1, b2⟩ := all_converged_meaning hsep hN hd.threads hrun hf
      cases hc : q.converged with
      | true =>
        have := (hcm.1 hc).1
        rw [hu2] at this
        exact hno this.2.2.2
      | false =>
        have hl := (hcm.2 hc).1
        cases hall : st.allConverged with
        | true =>
          have := b1.1 hall 0 hN
          rw [flag_of_get hq, hc] at this
          exact absurd this (by simp)
        | false =>
          have := (b2 hall).length_eq
          rw [List.length_range, hd.max] at this
          omega
    rw [hres [(formInt (w 0) : ℝ), (formInt (w 1) : ℝ), (formInt (w 2) : ℝ)] (by simp) (by simpa using hu) (by
      show [cfg.value 0 0, cfg.value 1 0, cfg.value 2 0] = _
      rw [e0, e1, e2]; rfl)]
    unfold stoppedInt
    rw [if_neg heq]
    simp [mean]
    ring

end

/-- **C70 fails when the loop stops by itself.**  The samples decide when to stop, and the estimate is biased:
for the positive definite matrix `J + I` (trace 6), at least two and at most three samples, one thread, and
any tolerances small enough that two different samples do not meet them, the expected value of the reported
trace is 5.75. -/
theorem adaptive_stopping_biased {z atol rtol : ℝ} (hr0 : 0 < rtol) (hsmall : max atol (rtol * 8) ≤ 4 * z) (ez : ℝ) :
    ∃ trace : (Fin 3 → Fin 3 → Bool) → ℝ,
      (∀ w cfg ts st, Draws cfg onesPlusId w → cfg.numThreads = 1 → cfg.minNumSamples = 2 →
        cfg.z = .fin z → cfg.atol = .fin atol → cfg.rtol = .fin rtol →
        run cfg (init cfg) ts = some st → Finished cfg st →
        (averaged cfg (.fin ez) .pinf st 0).trace = .fin (trace w)) ∧
      expected trace = 23 / 4 ∧ onesPlusId.trace = 6 := by
  refine ⟨fun w => (stoppedInt w : ℝ) / 3, fun w cfg ts st hd h1 hmin hz ha hr hrun hf =>
    stopped_estimate hd h1 hmin hz ha hr hr0 hsmall hrun hf ez, ?_, ?_⟩
  · rw [expected_int, sum_stopped]; norm_num
  · exact trace_onesPlusId

/-- The usual tolerances (1% at 95% confidence) are small in this sense. -/
example : (0 : ℝ) < 1 / 100 ∧ max (0 : ℝ) (1 / 100 * 8) ≤ 4 * 1.96 := by norm_num

/-- Every choice of vectors is drawn by such a run. -/
noncomputable def adaptiveRun (w : Fin 3 → Fin 3 → Bool) : Config (XR ℝ) :=
  { fixedRun onesPlusId w with numThreads := 1, minNumSamples := 2 }

example (w : Fin 3 → Fin 3 → Bool) : Draws (adaptiveRun w) onesPlusId w ∧ (adaptiveRun w).numThreads = 1 ∧
    (adaptiveRun w).minNumSamples = 2 ∧ (adaptiveRun w).z = .fin 2 ∧ (adaptiveRun w).atol = .fin 0 ∧
    (adaptiveRun w).rtol = .fin (1/100) ∧
    ∃ ts st, run (adaptiveRun w) (init (adaptiveRun w)) ts = some st ∧ Finished (adaptiveRun w) st := by
  refine ⟨⟨by simp [adaptiveRun], rfl, rfl, fun i => by simp [adaptiveRun, fixedRun]⟩, rfl, rfl, rfl, rfl, rfl, ?_⟩
  obtain ⟨ts, st, h1, h2⟩ := (loop_terminates (adaptiveRun w)).2 [] _ rfl
  exact ⟨ts, st, h1, h2⟩

/-! ### Outliers -/

/-- Of two equal samples and a different one, the different one is removed. -/
theorem odd_one_out {oz : ℝ} (ho : 1 ≤ oz) (ho2 : 3 * oz ^ 2 < 4) (ez : XR ℝ) (a b : ℝ) (hab : a ≠ b) :
    (averageEstimate ez (.fin oz) ([a, a, b].map XR.fin)).trace = .fin a := by
  set d := |b - a| with hd
  have hd0 : 0 < d := abs_pos.2 (sub_ne_zero.2 hab.symm)
  have h3 : (0 : ℝ) < √3 := Real.sqrt_pos.2 (by norm_num)
  have h33 : √(3 : ℝ) * √3 = 3 := Real.mul_self_sqrt (by norm_num)
  have hm : mean [a, a, b] = a + (b - a) / 3 := by
    simp [mean]; ring
  have hs : sampleStd [a, a, b] = d / √3 := by
    have : sqDev (mean [a, a, b]) [a, a, b] / (([a, a, b] : List ℝ).length - 1) = (b - a) ^ 2 / 3 := by
      rw [hm]
      simp [sqDev]
      ring
    unfold sampleStd
    rw [this, Real.sqrt_div (sq_nonneg _), Real.sqrt_sq_eq_abs]
  have hA : ¬ oz * (d / √3) < |a - (a + (b - a) / 3)| := by
    rw [show a - (a + (b - a) / 3) = -((b - a) / 3) by ring, abs_neg, abs_div, ← hd, not_lt,
      show |(3 : ℝ)| = 3 by norm_num]
    have h1 : √(3 : ℝ) ≤ 3 := by nlinarith
    calc d / 3 ≤ d / √3 := div_le_div_of_nonneg_left hd0.le h3 h1
      _ ≤ oz * (d / √3) := le_mul_of_one_le_left (by positivity) ho
  have hB : oz * (d / √3) < |b - (a + (b - a) / 3)| := by
    rw [show b - (a + (b - a) / 3) = (b - a) * (2 / 3) by ring, abs_mul, ← hd, show |(2 / 3 : ℝ)| = 2 / 3 by norm_num]
    have h1 : oz * √3 < 2 := by
      have : (oz * √3) ^ 2 < 2 ^ 2 := by
        rw [mul_pow, Real.sq_sqrt (by norm_num)]; linarith
      exact lt_of_pow_lt_pow_left₀ 2 (by norm_num) this
    have h2 : oz * (d / √3) = d * (oz * √3 / 3) := by
      rw [mul_div_assoc', div_eq_iff h3.ne', show d * (oz * √3 / 3) * √3 = d * oz * (√3 * √3) / 3 by ring, h33]
      ring
    rw [h2]
    apply mul_lt_mul_of_pos_left _ hd0
    linarith
  unfold averageEstimate
  dsimp only
  rw [meanOf_fin (by simp), stdOf_fin (by simp), hm, hs]
  have e : (FloatLike.mul (XR.fin oz) (XR.fin (d / √3)) : XR ℝ) = XR.fin (oz * (d / √3)) := rfl
  rw [e]
  have hf : ([a, a, b].map XR.fin).filter
      (fun x => !isOutlier (XR.fin (a + (b - a) / 3)) (XR.fin (oz * (d / √3))) x) = [a, a].map XR.fin := by
    simp only [List.map_cons, List.map_nil, List.filter_cons, List.filter_nil, isOutlier_fin, decide_eq_false hA,
      decide_eq_true hB]
    rfl
  have hc : ([a, a, b].map XR.fin).countP
      (fun x => isOutlier (XR.fin (a + (b - a) / 3)) (XR.fin (oz * (d / √3))) x) = 1 := by
    simp only [List.map_cons, List.map_nil, List.countP_cons, List.countP_nil, isOutlier_fin, decide_eq_false hA,
      decide_eq_true hB]
    rfl
  rw [hf, hc, sumOf_fin]
  show FloatLike.div (XR.fin _) (XR.fin ((2 : ℕ) : ℝ)) = _
  rw [div_fin _ _ (by norm_num)]
  congr 1
  simp

theorem all_equal_kept {oz : ℝ} (ez : XR ℝ) (a : ℝ) :
    (averageEstimate ez (.fin oz) ([a, a, a].map XR.fin)).trace = .fin a := by
  have hm : mean [a, a, a] = a := by
    simp [mean]; ring
  have hs : sampleStd [a, a, a] = 0 := by
    unfold sampleStd
    rw [hm]
    simp [sqDev]
  unfold averageEstimate
  dsimp only
  rw [meanOf_fin (by simp), stdOf_fin (by simp), hm, hs]
  have e : (FloatLike.mul (XR.fin oz) (XR.fin 0) : XR ℝ) = XR.fin 0 := by
    show XR.fin (oz * 0) = _
    rw [mul_zero]
  rw [e]
  have hA : ¬ (0 : ℝ) < |a - a| := by simp
  have hf : ([a, a, a].map XR.fin).filter (fun x => !isOutlier (XR.fin a) (XR.fin 0) x) = [a, a, a].map XR.fin := by
    simp only [List.map_cons, List.map_nil, List.filter_cons, List.filter_nil, isOutlier_fin, decide_eq_false hA]
    rfl
  have hc : ([a, a, a].map XR.fin).countP (fun x => isOutlier (XR.fin a) (XR.fin 0) x) = 0 := by
    simp only [List.map_cons, List.map_nil, List.countP_cons, List.countP_nil, isOutlier_fin, decide_eq_false hA]
    rfl
  rw [hf, hc, sumOf_fin]
  show FloatLike.div (XR.fin _) (XR.fin ((3 : ℕ) : ℝ)) = _
  rw [div_fin _ _ (by norm_num)]
  exact congrArg XR.fin hm

/-- **C70 fails when outliers are removed.**  For the same matrix and three samples (always all used, any
number of threads, any schedule), with an outlier threshold between 1 and `2/√3` standard deviations, the
expected value of the reported trace is 5.25 and not 6. -/
theorem outlier_removal_biased {oz : ℝ} (ho : 1 ≤ oz) (ho2 : 3 * oz ^ 2 < 4) (ez : ℝ) :
    ∃ trace : (Fin 3 → Fin 3 → Bool) → ℝ,
      (∀ w cfg ts st, Draws cfg onesPlusId w → cfg.minNumSamples = 3 →
        run cfg (init cfg) ts = some st → Finished cfg st →
        (averaged cfg (.fin ez) (.fin oz) st 0).trace = .fin (trace w)) ∧
      expected trace = 21 / 4 ∧ onesPlusId.trace = 6 := by
  refine ⟨fun w => (majorityInt w : ℝ) / 3, fun w cfg ts st hd hmin hrun hf => ?_, ?_, ?_⟩
  · obtain ⟨q, hq⟩ := hd.inquiry hrun
    have hsep : Separate cfg := Or.inr hd.inquiries
    have hN : 0 < cfg.numInquiries := by rw [hd.inquiries]; omega
    have hex : Exclusive cfg := Or.inr (by rw [hsep.required, hd.inquiries])
    obtain ⟨a1, a2, a3, a4, a5⟩ := sample_accounting hsep hN hd.threads hrun hf hq
    rw [hmin, hd.max, min_self] at a1
    rw [hd.max] at a3
    rw [trace_is_average_of_values hsep hN hex hrun hq, List.take_of_length_le (by omega)]
    have hperm : st.processed.Perm (List.range 3) := by
      refine (List.subperm_of_subset a4 ?_).perm_of_length_le (by simp; omega)
      intro i hi
      have := a5 i hi
      rw [hd.max] at this
      exact List.mem_range.2 this
    rw [averageEstimate_perm _ _ (hperm.map _)]
    have hv : ∀ i : Fin 3, cfg.value i 0 = .fin (formInt (w i) : ℝ) := by
      intro i
      rw [hd.value i, form_onesPlusId]
    have e0 := hv 0
    have e1 := hv 1
    have e2 := hv 2
    simp only [Fin.val_zero, Fin.val_one, Fin.val_two] at e0 e1 e2
    have hlist : (List.range 3).map (fun i => cfg.value i 0) =
        [(formInt (w 0) : ℝ), (formInt (w 1) : ℝ), (formInt (w 2) : ℝ)].map XR.fin := by
      show [cfg.value 0 0, cfg.value 1 0, cfg.value 2 0] = _
      rw [e0, e1, e2]; rfl
    rw [hlist]
    show _ = XR.fin ((majorityInt w : ℝ) / 3)
    unfold majorityInt
    have hcast : ∀ x y : ℤ, x ≠ y → (x : ℝ) ≠ y := fun x y h => by exact_mod_cast h
    by_cases h01 : formInt (w 0) = formInt (w 1)
    · rw [if_pos h01, ← h01]
      by_cases h02 : formInt (w 0) = formInt (w 2)
      · rw [← h02, all_equal_kept]
        congr 1; push_cast; ring
      · rw [odd_one_out ho ho2 _ _ _ (hcast _ _ h02)]
        congr 1; push_cast; ring
    · rw [if_neg h01]
      by_cases h02 : formInt (w 0) = formInt (w 2)
      · rw [if_pos h02, ← h02, averageEstimate_perm _ _ (((List.Perm.swap _ _ []).cons _).map XR.fin),
          odd_one_out ho ho2 _ _ _ (hcast _ _ h01)]
        congr 1; push_cast; ring
      · rw [if_neg h02]
        have h12 : formInt (w 2) = formInt (w 1) := by
          rcases formInt_cases (w 0) with h | h <;> rcases formInt_cases (w 1) with h' | h' <;>
            rcases formInt_cases (w 2) with h'' | h'' <;> omega
        rw [h12, averageEstimate_perm _ _ (List.Perm.map XR.fin
          (l₂ := [(formInt (w 1) : ℝ), (formInt (w 1) : ℝ), (formInt (w 0) : ℝ)])
          ((List.Perm.swap _ _ _).trans ((List.Perm.swap _ _ []).cons _))),
          odd_one_out ho ho2 _ _ _ (hcast _ _ (Ne.symm h01))]
        congr 1; push_cast; ring
  · rw [expected_int, sum_majority]; norm_num
  · exact trace_onesPlusId

/-- Such thresholds exist, and `fixedRun` above draws every choice of vectors. -/
example : (1 : ℝ) ≤ 1.1 ∧ 3 * (1.1 : ℝ) ^ 2 < 4 := by norm_num

end Imate.Props
