import Verif.Lemmas.HutchinsonLoop
import Verif.Props.ColumnVectors
import Verif.Props.Convergence
import Mathlib.Tactic.FieldSimp

/-!
# C35: Hutchinson's estimator of the trace of an inverse
-/

namespace Imate.Props

open Imate.Hutchinson Imate.Spec Imate.Convergence Imate.Lanczos Matrix

variable {n : ℕ} {solve : Solver ℝ} {a : Assume}

/-- The assumption about SciPy can be met. -/
theorem solverSpec_satisfiable : ∃ solve : Solver ℝ, SolverSpec solve := by
  classical
  refine ⟨fun _ A b => if h : A.rows = A.cols ∧ b.size = A.rows then
      .ok ⟨A.rows, (A.val.reindex (Equiv.refl _) (finCongr h.1.symm))⁻¹ *ᵥ
        (fun i => b.val (Fin.cast h.2.symm i))⟩ else .error .valueError, ?_, ?_, ?_⟩
  · intro n a A b _ hu
    simp only [and_self, dite_true]
    refine ⟨_, rfl, ?_⟩
    have : (A.reindex (Equiv.refl (Fin n)) (finCongr (rfl : n = n))) = A := by
      ext i j; rfl
    rw [this, mulVec_mulVec, mul_nonsing_inv A hu, one_mulVec]
    rfl
  · intro a A b h
    exact ⟨.valueError, dif_neg (fun h' => h h'.1)⟩
  · intro a A b h
    exact ⟨.valueError, dif_neg (fun h' => h h'.2)⟩

/-! ## One sample -/

theorem sample_form (hs : SolverSpec solve) {A : Matrix (Fin n) (Fin n) ℝ}
    (hA : Admissible a A) {p : ℤ} (hp : -1 ≤ p) (hu : 1 ≤ p → IsUnit A.det) (gram : Bool)
    (B C : Option (Matrix (Fin n) (Fin n) ℝ)) (hBC : C.isSome → B.isSome)
    (hex : ¬ (gram = true ∧ p = -1 ∧ B.isSome)) :
    (sampledMatrix gram A p B C).trace = (documented gram A p B C).trace ∧
      ∀ E : Fin n → ℝ, sampleOf solve (square A) (B.map square) (C.map square) gram (.int p) a ⟨n, E⟩ =
        .ok (n * (E ⬝ᵥ (sampledMatrix gram A p B C *ᵥ E))) := by
  have hv : (Exponent.int p).val = (p : ℚ) := rfl
  by_cases hspec : gram = true ∧ (p = 1 ∨ p = -1) ∧ B = none
  · obtain ⟨rfl, hp1, rfl⟩ := hspec
    have hC : C = none := by
      cases C with
      | none => rfl
      | some C => simp at hBC
    subst hC
    have habs : |(Exponent.int p).val| = 1 := by
      rw [hv]; rcases hp1 with rfl | rfl <;> norm_num
    rcases hp1 with rfl | rfl
    · have hu := hu le_rfl
      rw [show sampledMatrix true A 1 none none = A⁻¹ * A⁻¹ᵀ from if_pos ⟨rfl, rfl, rfl⟩]
      refine ⟨?_, ?_⟩
      · unfold documented subject
        simp only [Option.getD_none, one_mul, if_true, Matrix.zpow_neg_one]
        rw [Matrix.mul_inv_rev, transpose_nonsing_inv]
      · intro E
        have h1 : (Exponent.int 1).val = 1 := by rw [hv]; norm_num
        have hg : gramianIfNeeded (square A) (Option.map (square (n := n)) none) (Option.map (square (n := n)) none) (.int 1)
            true = none := by
          unfold gramianIfNeeded
          rw [if_pos rfl, if_pos ⟨h1, rfl, rfl⟩]
        unfold sampleOf traceEstimate
        rw [hg, if_neg (fun h => h.2.2 ⟨h1, rfl, rfl⟩)]
        have hop : operatorDot solve (square A) none (.int 1) true a (Option.map (square (n := n)) none) ⟨n, E⟩ =
            .ok ⟨n, A⁻¹ᵀ *ᵥ E⟩ := by
          unfold operatorDot
          rw [applyB_square, Except.ok_bind', if_neg (by rw [hv]; norm_num),
            if_pos (by rw [hv]; norm_num)]
          show solve a ⟨n, n, Aᵀ⟩ ⟨n, 1 *ᵥ E⟩ = _
          rw [one_mulVec, solve_eq hs (admissible_transpose hA) (by rwa [det_transpose]), transpose_nonsing_inv]
        rw [hop, Except.ok_bind']
        show (do let inner ← finalProduct (square A) none none (.int 1) true ⟨n, E⟩ ⟨n, A⁻¹ᵀ *ᵥ E⟩
                 Except.ok (((square A).rows : ℝ) * inner)) = _
        unfold finalProduct
        rw [if_pos ⟨rfl, habs, rfl, rfl⟩]
        show (do let inner ← innerProduct _ _ n; _) = _
        rw [innerProduct_eq, Except.ok_bind', ← mulVec_mulVec, dotProduct_mulVec E A⁻¹,
          ← mulVec_transpose A⁻¹ E]
        rfl
    · rw [show sampledMatrix true A (-1) none none = Aᵀ * A by
        unfold sampledMatrix subject
        rw [if_neg (by simp)]
        simp]
      refine ⟨?_, ?_⟩
      · unfold documented subject
        simp
      · intro E
        have hg : gramianIfNeeded (square A) (Option.map (square (n := n)) none) (Option.map (square (n := n)) none)
            (.int (-1)) true = some (square A).gramian := by
          unfold gramianIfNeeded
          rw [if_pos rfl, if_neg (fun h => by have := h.1; rw [hv] at this; norm_num at this)]
        unfold sampleOf traceEstimate
        rw [hg, if_neg (fun h => by simpa using h.2.1)]
        have hop : operatorDot solve (square A) (some (square A).gramian) (.int (-1)) true a
            (Option.map (square (n := n)) none) ⟨n, E⟩ = .ok ⟨n, A *ᵥ E⟩ := by
          unfold operatorDot
          rw [applyB_square, Except.ok_bind', if_neg (by rw [hv]; norm_num),
            if_neg (by rw [hv]; norm_num), if_neg (by rw [hv]; norm_num), if_pos (by rw [hv]; norm_num)]
          show Mat.mulVec ⟨n, n, A⟩ ⟨n, 1 *ᵥ E⟩ = _
          rw [one_mulVec, mulVec_square]
        rw [hop, Except.ok_bind']
        show (do let inner ← finalProduct (square A) none none (.int (-1)) true ⟨n, E⟩ ⟨n, A *ᵥ E⟩
                 Except.ok (((square A).rows : ℝ) * inner)) = _
        unfold finalProduct
        rw [if_pos ⟨rfl, habs, rfl, rfl⟩]
        show (do let inner ← innerProduct _ _ n; _) = _
        rw [innerProduct_eq, Except.ok_bind', ← mulVec_mulVec, dotProduct_mulVec E Aᵀ,
          vecMul_transpose]
        rfl
  · -- the general case
    set F := subject gram A ^ (-p) with hF
    have hneg : p = -1 → gram = false := by
      intro h
      cases gram with
      | false => rfl
      | true =>
        exfalso
        cases B with
        | none => exact hspec ⟨rfl, Or.inr h, rfl⟩
        | some B => exact hex ⟨rfl, h, rfl⟩
    have hB : gram = true → p = 1 → B.isSome := by
      intro h1 h2
      cases B with
      | none => exact absurd ⟨h1, Or.inl h2, rfl⟩ hspec
      | some B => rfl
    have hAtA : gram = true →
        gramianIfNeeded (square A) (B.map square) (C.map square) (.int p) gram =
          some (square (Aᵀ * A)) := by
      intro h
      unfold gramianIfNeeded
      rw [if_pos h, if_neg]
      · rfl
      · rintro ⟨h1, h2, -⟩
        rw [hv] at h1
        have := hB h (by exact_mod_cast h1)
        cases B with
        | none => simp at this
        | some B => simp at h2
    rw [show sampledMatrix gram A p B C = F * C.elim 1 (fun C => C * F) * B.getD 1 from if_neg (by
      rintro ⟨h1, h2, h3⟩
      have := hB h1 h2
      cases B with
      | none => simp at this
      | some B => simp at h3)]
    refine ⟨?_, ?_⟩
    · unfold documented
      cases C with
      | none => simp only [Option.elim_none, mul_one]; rw [trace_mul_comm]
      | some C =>
        simp only [Option.elim_some]
        rw [trace_mul_comm]
        simp only [Matrix.mul_assoc]
        rfl
    · intro E
      unfold sampleOf traceEstimate
      rw [if_neg (by
        rintro ⟨h1, h2, -⟩
        rw [hAtA h1] at h2
        simp at h2)]
      rw [operatorDot_eq hs hA hp hu hneg B hB _ hAtA E, Except.ok_bind']
      have hC : applyC solve (square A)
          (gramianIfNeeded (square A) (B.map square) (C.map square) (.int p) gram) (.int p) gram a
          (C.map square) ⟨n, (F * B.getD 1) *ᵥ E⟩ =
          .ok ⟨n, (F * C.elim 1 (fun C => C * F) * B.getD 1) *ᵥ E⟩ := by
        cases C with
        | none => simp [applyC]
        | some C =>
          show operatorDot _ _ _ _ _ _ (Option.map square (some C)) _ = _
          rw [operatorDot_eq hs hA hp hu hneg (some C) (fun _ _ => rfl) _ hAtA, mulVec_mulVec]
          simp only [Option.elim_some, Option.getD_some, Matrix.mul_assoc]
          rfl
      rw [hC, Except.ok_bind']
      unfold finalProduct
      rw [if_neg]
      · show (do let inner ← innerProduct _ _ n; _) = _
        rw [innerProduct_eq, Except.ok_bind']
        rfl
      · rintro ⟨h1, h2, h3, -⟩
        have hBn : B = none := by cases B with
          | none => rfl
          | some B => simp at h3
        rw [hv] at h2
        refine hspec ⟨h1, ?_, hBn⟩
        have h4 : |p| = 1 := by exact_mod_cast h2
        rcases abs_cases p with ⟨h, -⟩ | ⟨h, -⟩ <;> omega

/-- **C35, one sample.**  For a square matrix and an integer exponent `p ≥ -1` (non-singular for `p ≥ 1`),
with the excluded case `gram`, `p = -1`, `B` given: each sample is `n` times the quadratic form, at the
random vector, of a matrix with the documented trace.  Missing: exponents below `-1` and the excluded
case, see `negative_exponent_raises` and `gram_minus_one_uses_matrix`. -/
theorem hutchinson_sample_partial (hs : SolverSpec solve) {A : Matrix (Fin n) (Fin n) ℝ}
    (hA : Admissible a A) {p : ℤ} (hp : -1 ≤ p) (hu : 1 ≤ p → IsUnit A.det) (gram : Bool)
    (B C : Option (Matrix (Fin n) (Fin n) ℝ)) (hBC : C.isSome → B.isSome)
    (hex : ¬ (gram = true ∧ p = -1 ∧ B.isSome)) :
    ∃ G : Matrix (Fin n) (Fin n) ℝ, G.trace = (documented gram A p B C).trace ∧
      ∀ E : Fin n → ℝ, sampleOf solve (square A) (B.map square) (C.map square) gram (.int p) a ⟨n, E⟩ =
        .ok (n * (E ⬝ᵥ (G *ᵥ E))) := by
  exact ⟨_, sample_form hs hA hp hu gram B C hBC hex⟩

/-- A non-trivial case: `A = [[2, 1], [0, 1]]`, `p = 2`. -/
example : Admissible .gen !![(2 : ℝ), 1; 0, 1] ∧ IsUnit (!![(2 : ℝ), 1; 0, 1]).det := by
  refine ⟨trivial, ?_⟩
  rw [det_fin_two_of]; norm_num

/-! ## Unbiasedness -/

/-- **C35, unbiasedness.**  Under the same conditions: over all `2^n` sign vectors, scaled to unit length as
the method does, the samples average to the documented trace. -/
theorem hutchinson_unbiased_partial (hn : 1 ≤ n) (hs : SolverSpec solve) {A : Matrix (Fin n) (Fin n) ℝ}
    (hA : Admissible a A) {p : ℤ} (hp : -1 ≤ p) (hu : 1 ≤ p → IsUnit A.det) (gram : Bool)
    (B C : Option (Matrix (Fin n) (Fin n) ℝ)) (hBC : C.isSome → B.isSome)
    (hex : ¬ (gram = true ∧ p = -1 ∧ B.isSome)) :
    ∃ sample : (Fin n → Bool) → ℝ,
      (∀ s, sampleOf solve (square A) (B.map square) (C.map square) gram (.int p) a
        ⟨n, (1 / Real.sqrt n) • signVector s⟩ = .ok (sample s)) ∧
      (∑ s, sample s) / 2 ^ n = (documented gram A p B C).trace := by
  obtain ⟨G, h1, h2⟩ := hutchinson_sample_partial hs hA hp hu gram B C hBC hex
  refine ⟨fun s => signVector s ⬝ᵥ (G *ᵥ signVector s), ?_, ?_⟩
  · intro s
    rw [h2, mulVec_smul, smul_dotProduct, dotProduct_smul, smul_eq_mul, smul_eq_mul]
    have hn' : (0 : ℝ) < n := by exact_mod_cast hn
    have hq : Real.sqrt n ^ 2 = n := Real.sq_sqrt hn'.le
    have hq0 : Real.sqrt n ≠ 0 := (Real.sqrt_pos.2 hn').ne'
    congr 1
    calc (n : ℝ) * (1 / Real.sqrt n * (1 / Real.sqrt n * (signVector s ⬝ᵥ G *ᵥ signVector s)))
        = n / Real.sqrt n ^ 2 * (signVector s ⬝ᵥ G *ᵥ signVector s) := by field_simp
      _ = _ := by rw [hq, div_self hn'.ne', one_mul]
  · rw [average_trace, h1]; field_simp

/-- **C35, a full orthonormal set is exact.**  Under the same conditions the mean of the `n` samples at an
orthonormal basis is the documented trace. -/
theorem hutchinson_basis_exact_partial (hs : SolverSpec solve) {A : Matrix (Fin n) (Fin n) ℝ}
    (hA : Admissible a A) {p : ℤ} (hp : -1 ≤ p) (hu : 1 ≤ p → IsUnit A.det) (gram : Bool)
    (B C : Option (Matrix (Fin n) (Fin n) ℝ)) (hBC : C.isSome → B.isSome)
    (hex : ¬ (gram = true ∧ p = -1 ∧ B.isSome)) (V : Fin n → Fin n → ℝ) (hV : Spec.Orthonormal V) :
    ∃ sample : Fin n → ℝ,
      (∀ i, sampleOf solve (square A) (B.map square) (C.map square) gram (.int p) a ⟨n, V i⟩ =
        .ok (sample i)) ∧
      (∑ i, sample i) / n = (documented gram A p B C).trace := by
  obtain ⟨G, h1, h2⟩ := hutchinson_sample_partial hs hA hp hu gram B C hBC hex
  refine ⟨fun i => n * (V i ⬝ᵥ (G *ᵥ V i)), fun i => h2 _, ?_⟩
  rw [← h1, ← Finset.mul_sum, basis_trace hV G]
  rcases Nat.eq_zero_or_pos n with rfl | hn
  · simp [Matrix.trace]
  · have : (n : ℝ) ≠ 0 := by exact_mod_cast hn.ne'
    field_simp

example : Spec.Orthonormal (fun i : Fin 3 => Pi.single (M := fun _ => ℝ) i 1) := by
  intro i j
  simp [Pi.single_apply, eq_comm]

/-! ## The whole method -/

theorem hutchinson_ok {eps : ℝ} (he : 0 < eps) (he1 : eps ≤ 1) {clock : ℕ → ℕ → BitVec 64}
    {seed : BitVec 64} {orthogonalize : Bool} {A : Mat ℝ} (hrows : 1 ≤ A.rows) {B C : Option (Mat ℝ)}
    {gram : Bool} {p : Exponent} {st : Settings ℝ} {r : Outcome ℝ}
    (h : hutchinson solve eps clock seed orthogonalize A B C gram p a st = .ok r) :
    ∃ V samples conv q,
      Columns.generateColumnVectors Real.sqrt eps clock seed A.rows (clampSamples A st.maxNumSamples)
        orthogonalize = .ok V ∧
      V.size = clampSamples A st.maxNumSamples ∧
      sampling (sampleOf solve A B C gram p a)
        { st with minNumSamples := clampSamples A st.minNumSamples,
                  maxNumSamples := clampSamples A st.maxNumSamples }
        (V.toList.map (fun v => ⟨A.rows, v⟩)) [] = .ok (samples, conv) ∧
      pyAverageEstimate st.errorZ st.outlierZ samples = some q ∧
      r = ⟨q.trace, q.error, q.numOutliers, samples.length, conv⟩ := by
  unfold hutchinson at h
  simp only at h
  rcases column_vectors_sound hrows he he1 clock seed (clampSamples A st.maxNumSamples) orthogonalize with
    h7 | ⟨V, h7, h8, -⟩
  · have e : Columns.generateColumnVectors HasSqrt.sqrt eps clock seed A.rows
        (clampSamples A st.maxNumSamples) orthogonalize = .error .abort := h7.2
    rw [e] at h
    cases h
  have e : Columns.generateColumnVectors HasSqrt.sqrt eps clock seed A.rows
      (clampSamples A st.maxNumSamples) orthogonalize = .ok V := h7
  rw [e] at h
  simp only [ofNative, Except.ok_bind'] at h
  unfold average at h
  cases hs : sampling (sampleOf solve A B C gram p a)
        { st with minNumSamples := clampSamples A st.minNumSamples,
                  maxNumSamples := clampSamples A st.maxNumSamples }
        (V.toList.map (fun v => ⟨A.rows, v⟩)) [] with
  | error e => rw [hs] at h; cases h
  | ok sc =>
    obtain ⟨samples, conv⟩ := sc
    rw [hs, Except.ok_bind'] at h
    simp only at h
    cases hq : pyAverageEstimate st.errorZ st.outlierZ samples with
    | none => rw [hq] at h; cases h
    | some q =>
      rw [hq] at h
      simp only [Except.ok.injEq] at h
      exact ⟨V, samples, conv, q, h7, h8, hs, hq, h.symm⟩

/-- **C35, accounting.**  When the method returns, the number of samples lies between the two limits
(both cut to the number of columns), equals the maximum unless convergence is reported, and the reported
number of outliers is smaller than it. -/
theorem hutchinson_accounting {eps : ℝ} (he : 0 < eps) (he1 : eps ≤ 1) (clock : ℕ → ℕ → BitVec 64)
    (seed : BitVec 64) (orthogonalize : Bool) {A : Mat ℝ} (hrows : 1 ≤ A.rows) (B C : Option (Mat ℝ))
    (gram : Bool) (p : Exponent) (st : Settings ℝ) (hmin : st.minNumSamples ≤ st.maxNumSamples)
    {r : Outcome ℝ}
    (h : hutchinson solve eps clock seed orthogonalize A B C gram p a st = .ok r) :
    min st.minNumSamples A.cols ≤ r.numSamplesUsed ∧ r.numSamplesUsed ≤ min st.maxNumSamples A.cols ∧
    (r.converged = false → r.numSamplesUsed = min st.maxNumSamples A.cols) ∧
    r.numOutliers < r.numSamplesUsed := by
  obtain ⟨V, samples, conv, q, h1, h2, h3, h4, h6⟩ := hutchinson_ok he he1 hrows h
  obtain ⟨k1, k2, k3, -, -⟩ := sampling_ok h3
  subst h6
  simp only [List.length_nil, Nat.zero_add, List.length_map] at k1 k2 k3
  have hlen : V.toList.length = min st.maxNumSamples A.cols := by
    rw [Array.length_toList, h2, clampSamples_eq]
  rw [hlen] at k1 k3
  have := averaged_outliers h4
  refine ⟨?_, k1, k3, this⟩
  cases hc : conv with
  | false => show _ ≤ samples.length; rw [k3 hc]; omega
  | true =>
    have := k2 hc
    rw [clampSamples_eq] at this
    exact this

/-- **C35, exhausting the space is exact.**  For a square matrix under the conditions of
`hutchinson_sample_partial`, with orthogonalised vectors and at least `n` of them allowed, whatever the
seed: if all `n` samples were used and none was discarded as an outlier, the result is exactly the
documented trace. -/
theorem hutchinson_exhausted_exact_partial {eps : ℝ} (he : 0 < eps) (he1 : eps ≤ 1)
    (clock : ℕ → ℕ → BitVec 64) (seed : BitVec 64) (hn : 1 ≤ n) (hs : SolverSpec solve)
    {A : Matrix (Fin n) (Fin n) ℝ} (hA : Admissible a A) {p : ℤ} (hp : -1 ≤ p)
    (hu : 1 ≤ p → IsUnit A.det) (gram : Bool) (B C : Option (Matrix (Fin n) (Fin n) ℝ))
    (hBC : C.isSome → B.isSome) (hex : ¬ (gram = true ∧ p = -1 ∧ B.isSome)) (st : Settings ℝ)
    {r : Outcome ℝ}
    (h : hutchinson solve eps clock seed true (square A) (B.map square) (C.map square) gram (.int p) a st
      = .ok r) (hall : r.numSamplesUsed = n) (hout : r.numOutliers = 0) :
    r.trace = XR.fin (documented gram A p B C).trace := by
  obtain ⟨V, samples, conv, q, h1, h2, h3, h4, h6⟩ := hutchinson_ok he he1 (A := square A) hn h
  obtain ⟨k1, -, -, k5, -⟩ := sampling_ok h3
  subst h6
  simp only at hall hout
  have hVn : V.size = n := by
    have hle : V.size ≤ n := by rw [h2, clampSamples_eq]; exact Nat.min_le_right _ _
    simp only [List.length_nil, Nat.zero_add, List.length_map, Array.length_toList] at k1
    omega
  rcases column_vectors_sound hn he he1 clock seed (clampSamples (square A) st.maxNumSamples) true with
    h7 | ⟨V', h7, h8, h9, h10, -⟩
  · exact absurd (h1.symm.trans h7.2) (by simp)
  have hVV : V' = V := by
    have := h7.symm.trans h1
    injection this
  subst hVV
  have horth : Spec.Orthonormal (fun i : Fin n => V'[i.1]'(lt_of_lt_of_eq i.2 hVn.symm)) := by
    intro i j
    by_cases hij : i = j
    · subst hij; rw [if_pos rfl]; exact h9 _ _
    · rw [if_neg hij]
      exact (h10 rfl).1 _ _ _ _ (fun h => hij (Fin.ext h))
  obtain ⟨sample, g1, g2⟩ := hutchinson_basis_exact_partial hs hA hp hu gram B C hBC hex _ horth
  have hsamples : samples = (List.ofFn sample).map XR.fin := by
    have hmap := k5 (List.ofFn sample) ?_
    · rw [List.length_nil, Nat.sub_zero, hall, List.nil_append, List.take_of_length_le (by simp)] at hmap
      exact hmap
    apply List.ext_getElem
    · simp only [List.length_map, List.length_ofFn]; exact hVn
    · intro i hi1 hi2
      simp only [List.getElem_map, List.getElem_ofFn, Array.getElem_toList]
      have := g1 ⟨i, by simpa using hi2⟩
      exact this
  rw [hsamples] at h4
  have := averaged_trace (by intro h0; have := congrArg List.length h0; simp at this; omega) h4 hout
  rw [this, ← g2]
  simp [mean, List.sum_ofFn]

/-! ## Violations -/

/-- C35 fails for every exponent `p ≤ -2` (documented: any integer): the first sample raises
`UnboundLocalError`, for every matrix and every option. -/
theorem negative_exponent_raises (solve : Solver ℝ) (a : Assume) (A : Matrix (Fin n) (Fin n) ℝ)
    (B C : Option (Matrix (Fin n) (Fin n) ℝ)) (gram : Bool) {p : ℤ} (hp : p ≤ -2) (E : Fin n → ℝ) :
    sampleOf solve (square A) (B.map square) (C.map square) gram (.int p) a ⟨n, E⟩ =
      .error .unboundLocal := by
  have hv : (Exponent.int p).val = (p : ℚ) := rfl
  have hq : (p : ℚ) ≤ -2 := by exact_mod_cast hp
  have h1 : ¬ (Exponent.int p).val = 1 := by rw [hv]; intro h; linarith
  unfold sampleOf traceEstimate
  rw [if_neg]
  · have hop : operatorDot solve (square A) (gramianIfNeeded (square A) (B.map square) (C.map square)
        (.int p) gram) (.int p) gram a (B.map square) ⟨n, E⟩ = .error .unboundLocal := by
      unfold operatorDot
      rw [applyB_square, Except.ok_bind', if_neg (by rw [hv]; intro h; linarith), if_neg h1,
        if_neg (by rw [hv]; intro h; linarith), if_neg (by rw [hv]; intro h; linarith),
        if_pos (by rw [hv]; linarith)]
      rfl
    rw [hop]
    rfl
  · rintro ⟨h2, h3, -⟩
    unfold gramianIfNeeded at h3
    rw [if_pos h2, if_neg (fun h => h1 h.1)] at h3
    simp at h3

/-- So the whole method never returns for such an exponent. -/
theorem negative_exponent_never_returns {eps : ℝ} (he : 0 < eps) (he1 : eps ≤ 1)
    (clock : ℕ → ℕ → BitVec 64) (seed : BitVec 64) (orthogonalize : Bool) (hn : 1 ≤ n)
    (solve : Solver ℝ) (a : Assume) (A : Matrix (Fin n) (Fin n) ℝ)
    (B C : Option (Matrix (Fin n) (Fin n) ℝ)) (gram : Bool) {p : ℤ} (hp : p ≤ -2) (st : Settings ℝ)
    (hmax : 1 ≤ st.maxNumSamples) (r : Outcome ℝ) :
    hutchinson solve eps clock seed orthogonalize (square A) (B.map square) (C.map square) gram (.int p) a
      st ≠ .ok r := by
  intro h
  obtain ⟨V, samples, conv, q, -, h2, h3, -, -⟩ := hutchinson_ok he he1 (A := square A) hn h
  have hpos : 0 < V.toList.length := by
    rw [Array.length_toList, h2, clampSamples_eq]
    show 0 < min st.maxNumSamples n
    omega
  obtain ⟨v, vs, hv⟩ := List.exists_cons_of_length_pos hpos
  rw [hv, List.map_cons] at h3
  unfold sampling at h3
  rw [show (sampleOf solve (square A) (B.map square) (C.map square) gram (.int p) a
    ⟨(square A).rows, v⟩) = .error .unboundLocal from
    negative_exponent_raises solve a A B C gram hp v] at h3
  cases h3

/-- C35 fails for `gram=True`, `p=-1` with `B` given: the sample uses `A` in place of `AᵀA`. -/
theorem gram_minus_one_uses_matrix (solve : Solver ℝ) (a : Assume) (A B : Matrix (Fin n) (Fin n) ℝ)
    (E : Fin n → ℝ) :
    sampleOf solve (square A) (some (square B)) none true (.int (-1)) a ⟨n, E⟩ =
      .ok (n * (E ⬝ᵥ ((A * B) *ᵥ E))) := by
  have hv : (Exponent.int (-1)).val = ((-1 : ℤ) : ℚ) := rfl
  have hop : operatorDot solve (square A) (gramianIfNeeded (square A) (some (square B)) none
      (.int (-1)) true) (.int (-1)) true a (some (square B)) ⟨n, E⟩ = .ok ⟨n, (A * B) *ᵥ E⟩ := by
    unfold operatorDot
    rw [show applyB (some (square B)) ⟨n, E⟩ = .ok ⟨n, B *ᵥ E⟩ from applyB_square (some B) E,
      Except.ok_bind', if_neg (by rw [hv]; norm_num), if_neg (by rw [hv]; norm_num),
      if_neg (by rw [hv]; norm_num), if_pos (by rw [hv]; norm_num)]
    show Mat.mulVec ⟨n, n, A⟩ _ = _
    rw [mulVec_square, mulVec_mulVec]
  unfold sampleOf traceEstimate
  rw [if_neg]
  · rw [hop, Except.ok_bind']
    show (do let inner ← finalProduct (square A) (some (square B)) none (.int (-1)) true ⟨n, E⟩
               ⟨n, (A * B) *ᵥ E⟩
             Except.ok (((square A).rows : ℝ) * inner)) = _
    unfold finalProduct
    rw [if_neg (by simp)]
    show (do let inner ← innerProduct _ _ n; _) = _
    rw [innerProduct_eq, Except.ok_bind']
    rfl
  · rintro ⟨-, h3, -⟩
    unfold gramianIfNeeded at h3
    rw [if_pos rfl, if_neg (by simp)] at h3
    simp at h3

/-- … a wrong value: for the `1 × 1` matrix `2` and `B = 1` every unit vector gives `2`, the documented
trace is `4`. -/
theorem gram_minus_one_wrong (solve : Solver ℝ) (a : Assume) (E : Fin 1 → ℝ) (hE : E ⬝ᵥ E = 1) :
    sampleOf solve (square !![(2 : ℝ)]) (some (square (n := 1) 1)) none true (.int (-1)) a ⟨1, E⟩ = .ok 2 ∧
    (documented true !![(2 : ℝ)] (-1) (some 1) none).trace = 4 := by
  constructor
  · rw [gram_minus_one_uses_matrix]
    have hE' : E 0 * E 0 = 1 := by simpa [dotProduct] using hE
    congr 1
    simp [dotProduct, mulVec]
    nlinarith
  · simp [documented, subject, Matrix.trace, mul_apply]
    norm_num

example : (fun _ => 1 : Fin 1 → ℝ) ⬝ᵥ (fun _ => 1) = 1 := by simp [dotProduct]

/-- C35 fails for floats: the documentation declares `p` a float, the argument check lets floats pass, and
every float other than `0.0`, `1.0` and `-1.0` raises (`2.0` a `TypeError`). -/
theorem float_exponent_raises (solve : Solver ℝ) (a : Assume) (A : Matrix (Fin n) (Fin n) ℝ)
    (B C : Option (Matrix (Fin n) (Fin n) ℝ)) (gram : Bool) {x : ℚ} (h0 : x ≠ 0) (h1 : x ≠ 1)
    (h2 : x ≠ -1) (E : Fin n → ℝ) :
    ∃ e, sampleOf solve (square A) (B.map square) (C.map square) gram (.float x) a ⟨n, E⟩ = .error e ∧
      (1 < |x| → e = .typeError) := by
  replace h0 : (Exponent.float x).val ≠ 0 := h0
  replace h1 : (Exponent.float x).val ≠ 1 := h1
  replace h2 : (Exponent.float x).val ≠ -1 := h2
  have hop : ∃ e, operatorDot solve (square A) (gramianIfNeeded (square A) (B.map square) (C.map square)
      (.float x) gram) (.float x) gram a (B.map square) ⟨n, E⟩ = .error e ∧
      (1 < |x| → e = .typeError) := by
    unfold operatorDot
    rw [applyB_square, Except.ok_bind', if_neg h0, if_neg h1]
    by_cases h3 : (Exponent.float x).val > 1
    · rw [if_pos h3]
      exact ⟨.typeError, rfl, fun _ => rfl⟩
    rw [if_neg h3, if_neg h2]
    by_cases h4 : (Exponent.float x).val < -1
    · rw [if_pos h4]
      exact ⟨.typeError, rfl, fun _ => rfl⟩
    rw [if_neg h4]
    refine ⟨.unboundLocal, rfl, fun h => ?_⟩
    rcases lt_abs.1 h with h | h
    · exact absurd h h3
    · exact absurd (show x < -1 by linarith) h4
  obtain ⟨e, h3, h4⟩ := hop
  refine ⟨e, ?_, h4⟩
  unfold sampleOf traceEstimate
  rw [if_neg]
  · rw [h3]; rfl
  · rintro ⟨h5, h6, -⟩
    unfold gramianIfNeeded at h6
    rw [if_pos h5, if_neg (fun h => h1 h.1)] at h6
    simp at h6

/-! ### Matrices that are not square

The documentation allows them with `gram=True`. -/

/-- C35 fails for every matrix that is not square and every integer `p ≠ 0`, with or without `gram`: the
shape check accepts it and the first sample raises. -/
theorem nonsquare_raises (hs : SolverSpec solve) (a : Assume) (A : Mat ℝ) (hA : A.rows ≠ A.cols)
    (gram : Bool) {p : ℤ} (hp : p ≠ 0) (E : Fin A.rows → ℝ) :
    checkShapes A none none = .ok () ∧
    ∃ e, sampleOf solve A none none gram (.int p) a ⟨A.rows, E⟩ = .error e := by
  refine ⟨rfl, ?_⟩
  have hv : (Exponent.int p).val = (p : ℚ) := rfl
  have hp0 : ¬ (Exponent.int p).val = 0 := by rw [hv]; exact_mod_cast hp
  suffices h : ∃ e, operatorDot solve A (gramianIfNeeded A none none (.int p) gram) (.int p) gram a none
      ⟨A.rows, E⟩ = .error e by
    obtain ⟨e, he⟩ := h
    unfold sampleOf traceEstimate
    split
    · exact ⟨_, rfl⟩
    · exact ⟨e, by rw [he]; rfl⟩
  have many : ∀ (M : Mat ℝ), (∀ b : Vec ℝ, b.size = A.rows → ∃ e, solve a M b = .error e) →
      ∀ k, ∃ e, solveTimes solve a M (k + 1) ⟨A.rows, E⟩ = .error e := by
    intro M hM k
    obtain ⟨e, he⟩ := hM ⟨A.rows, E⟩ rfl
    exact ⟨e, by unfold solveTimes; rw [he]; rfl⟩
  unfold operatorDot
  show ∃ e, (if (Exponent.int p).val = 0 then _ else _) = _
  rw [if_neg hp0]
  by_cases h1 : (Exponent.int p).val = 1
  · rw [if_pos h1]
    unfold operatorOne
    cases gram with
    | false => exact hs.square a A _ hA
    | true => exact hs.square a A.transpose _ (fun h => hA h.symm)
  rw [if_neg h1]
  by_cases h2 : (Exponent.int p).val > 1
  · rw [if_pos h2]
    have : ∃ k, p.toNat = k + 1 := by
      rw [hv] at h2
      have : (1 : ℤ) < p := by exact_mod_cast h2
      exact ⟨p.toNat - 1, by omega⟩
    obtain ⟨k, hk⟩ := this
    unfold operatorMany
    simp only [hk]
    cases gram with
    | false => exact many A (fun b _ => hs.square a A b hA) k
    | true =>
      have hg : gramianIfNeeded A none none (.int p) true = some A.gramian := by
        unfold gramianIfNeeded
        rw [if_pos rfl, if_neg (fun h => h1 h.1)]
      rw [hg]
      exact many A.gramian (fun b hb => hs.fits a A.gramian b (fun h => hA (hb.symm.trans h))) k
  rw [if_neg h2]
  by_cases h3 : (Exponent.int p).val = -1
  · rw [if_pos h3]
    unfold Mat.mulVec
    rw [dif_neg hA]
    exact ⟨_, rfl⟩
  rw [if_neg h3]
  split
  · exact ⟨_, rfl⟩
  · exact ⟨_, rfl⟩

/-- … and for `p = 0` the sample is the number of rows, where `(AᵀA)^0` has trace the number of
columns. -/
theorem nonsquare_zero_exponent_wrong (solve : Solver ℝ) (a : Assume) (A : Mat ℝ)
    (hA : A.rows ≠ A.cols) (E : Fin A.rows → ℝ) (hE : E ⬝ᵥ E = 1) :
    sampleOf solve A none none true (.int 0) a ⟨A.rows, E⟩ = .ok (A.rows : ℝ) ∧
    (A.rows : ℝ) ≠ (1 : Matrix (Fin A.cols) (Fin A.cols) ℝ).trace := by
  constructor
  · have hv : (Exponent.int 0).val = ((0 : ℤ) : ℚ) := rfl
    have hg : gramianIfNeeded A none none (.int 0) true = some A.gramian := by
      unfold gramianIfNeeded
      rw [if_pos rfl, if_neg (fun h => by have := h.1; rw [hv] at this; norm_num at this)]
    unfold sampleOf traceEstimate
    rw [hg, if_neg (fun h => by simpa using h.2.1)]
    show (do let inner ← finalProduct A none none (.int 0) true ⟨A.rows, E⟩ ⟨A.rows, E⟩
             Except.ok ((A.rows : ℝ) * inner)) = _
    unfold finalProduct
    rw [if_neg (fun h => by have := h.2.1; rw [hv] at this; norm_num at this), innerProduct_eq,
      Except.ok_bind', hE, mul_one]
  · rw [trace_one, Fintype.card_fin]
    exact_mod_cast hA

/-- For a square matrix the shapes are accepted exactly when `B` and `C`, where given, have the shape of the matrix, and
`C` is not given alone; otherwise the call raises `ValueError`. -/
theorem shapes_accepted_iff {K : Type} (A : Mat K) (hA : A.rows = A.cols) (B C : Option (Mat K)) :
    (checkShapes A B C = .ok () ↔
      (∀ M, B = some M ∨ C = some M → M.rows = A.rows ∧ M.cols = A.cols) ∧ (C ≠ none → B ≠ none)) ∧
    (checkShapes A B C = .ok () ∨ checkShapes A B C = .error .valueError) := by
  have key : ∀ M : Mat K, shapeFits A M = true ↔ M.rows = A.rows ∧ M.cols = A.cols := by
    intro M
    unfold shapeFits
    rw [if_pos hA, decide_eq_true_eq]
    exact ⟨fun h => ⟨h.1.symm, h.2.symm⟩, fun h => ⟨h.1.symm, h.2.symm⟩⟩
  refine ⟨?_, by unfold checkShapes; split_ifs <;> simp⟩
  have nkey : ∀ M : Mat K, shapeFits A M = false ↔ ¬ (M.rows = A.rows ∧ M.cols = A.cols) := by
    intro M
    rw [← key, Bool.not_eq_true]
  unfold checkShapes
  rcases B with _ | B <;> rcases C with _ | C
  · simp
  · simp
  · by_cases hB : B.rows = A.rows ∧ B.cols = A.cols
    · simp [(key B).2 hB, hB]
    · simp only [Option.any_some, (nkey B).2 hB, Bool.not_false, if_true]
      exact ⟨fun h => by simp at h, fun h => absurd (h.1 B (Or.inl rfl)) hB⟩
  · by_cases hB : B.rows = A.rows ∧ B.cols = A.cols
    · by_cases hC : C.rows = A.rows ∧ C.cols = A.cols
      · simp only [Option.any_some, (key B).2 hB, (key C).2 hC]
        simp
        rintro M (rfl | rfl)
        exacts [hB, hC]
      · simp only [Option.any_some, (key B).2 hB, (nkey C).2 hC]
        simp
        exact Or.inr fun h h' => hC ⟨h, h'⟩
    · simp only [Option.any_some, (nkey B).2 hB, Bool.not_false, if_true]
      exact ⟨fun h => by simp at h, fun h => absurd (h.1 B (Or.inl rfl)) hB⟩

example : ∃ A B : Mat ℚ, A.rows = A.cols ∧ checkShapes A (some B) none = .error .valueError ∧
    checkShapes A (some A) (some A) = .ok () :=
  ⟨⟨2, 2, fun _ _ => 1⟩, ⟨2, 3, fun _ _ => 1⟩, rfl, rfl, rfl⟩

/-- With a `B` of the accepted shape `columns × rows`, a matrix with more rows than columns and `p = 0`
reads beyond the end of an array. -/
theorem nonsquare_reads_out_of_bounds (solve : Solver ℝ) (a : Assume) (A B : Mat ℝ)
    (hA : A.cols < A.rows) (hB : B.rows = A.cols) (hB' : B.cols = A.rows) (E : Fin A.rows → ℝ) :
    checkShapes A (some B) none = .ok () ∧
    sampleOf solve A (some B) none true (.int 0) a ⟨A.rows, E⟩ = .error (.native .outOfBounds) := by
  have hv : (Exponent.int 0).val = ((0 : ℤ) : ℚ) := rfl
  constructor
  · unfold checkShapes shapeFits
    simp [hB, hA.ne']
  · have hg : gramianIfNeeded A (some B) none (.int 0) true = some A.gramian := by
      unfold gramianIfNeeded
      rw [if_pos rfl, if_neg (fun h => by have := h.1; rw [hv] at this; norm_num at this)]
    have hop : ∃ w, operatorDot solve A (some A.gramian) (.int 0) true a (some B) ⟨A.rows, E⟩ =
        .ok ⟨B.rows, w⟩ := by
      unfold operatorDot applyB Mat.mulVec
      simp only [hB'.symm, dite_true]
      rw [Except.ok_bind', if_pos (by rw [hv]; norm_num)]
      exact ⟨_, rfl⟩
    obtain ⟨w, hw⟩ := hop
    unfold sampleOf traceEstimate
    rw [hg, if_neg (fun h => by simpa using h.2.1), hw, Except.ok_bind']
    show (do let inner ← finalProduct A (some B) none (.int 0) true ⟨A.rows, E⟩ ⟨B.rows, w⟩
             Except.ok ((A.rows : ℝ) * inner)) = _
    unfold finalProduct innerProduct
    rw [if_neg (by simp), dif_neg (by simp only; omega)]
    rfl

/-- A matrix with more columns than rows ends the process: orthogonalisation (the default) of more vectors
than their length. -/
theorem wide_matrix_aborts {eps : ℝ} (he : 0 < eps) (he1 : eps ≤ 1) (solve : Solver ℝ) (a : Assume)
    (clock : ℕ → ℕ → BitVec 64) (seed : BitVec 64) (A : Mat ℝ) (hrows : 1 ≤ A.rows)
    (hwide : A.rows < A.cols) (B C : Option (Mat ℝ)) (gram : Bool) (p : Exponent) (st : Settings ℝ)
    (hmax : A.rows < st.maxNumSamples) :
    hutchinson solve eps clock seed true A B C gram p a st = .error (.native .abort) := by
  unfold hutchinson
  simp only
  rcases column_vectors_sound hrows he he1 clock seed (clampSamples A st.maxNumSamples) true with
    h | ⟨V, -, -, -, h, -⟩
  · have e : Columns.generateColumnVectors HasSqrt.sqrt eps clock seed A.rows
        (clampSamples A st.maxNumSamples) true = .error .abort := h.2
    rw [e]
    rfl
  · exfalso
    have := (h rfl).2
    rw [clampSamples_eq] at this
    omega

/-- A fixed seed with one thread (the documented way to reproducible results) and orthogonalisation (the
default) ends the process as soon as one of the drawn vectors depends on the earlier ones. -/
theorem hutchinson_fixed_seed_aborts {eps : ℝ} (he : 0 < eps) (he1 : eps ≤ 1) (solve : Solver ℝ)
    (a : Assume) (clock : ℕ → ℕ → BitVec 64) {seed : BitVec 64} (hseed : 0 ≤ seed.toInt)
    {x : Random.Xoshiro} (hx : Random.initGenerators 1 (clock 0) seed = .ok #[x]) (A : Mat ℝ)
    (hrows : 1 ≤ A.rows) (B C : Option (Mat ℝ)) (gram : Bool) (p : Exponent) (st : Settings ℝ) (t : ℕ)
    (ht : t < min st.maxNumSamples A.cols) (h2 : 2 ≤ min st.maxNumSamples A.cols)
    (hdep : CombinationOf (drawnVector x A.rows) t (drawnVector x A.rows t)) :
    hutchinson solve eps clock seed true A B C gram p a st = .error (.native .abort) := by
  unfold hutchinson
  simp only
  have e : Columns.generateColumnVectors HasSqrt.sqrt eps clock seed A.rows
      (clampSamples A st.maxNumSamples) true = .error .abort := by
    rw [clampSamples_eq]
    exact fixed_seed_dependent_aborts hrows he he1 clock hseed hx _ t ht h2 hdep
  rw [e]
  rfl

/-- The call `traceinv(A, method='hutchinson', seed=0, num_threads=1)` ends the process for every `2 × 2`
matrix (with at least two samples allowed, as by default). -/
theorem hutchinson_seed_zero_aborts {eps : ℝ} (he : 0 < eps) (he1 : eps ≤ 1) (solve : Solver ℝ)
    (a : Assume) (clock : ℕ → ℕ → BitVec 64) (A : Matrix (Fin 2) (Fin 2) ℝ) (B C : Option (Mat ℝ))
    (gram : Bool) (p : Exponent) (st : Settings ℝ) (hmax : 2 ≤ st.maxNumSamples) :
    hutchinson solve eps clock 0#64 true (square A) B C gram p a st = .error (.native .abort) := by
  unfold hutchinson
  simp only
  have e : Columns.generateColumnVectors HasSqrt.sqrt eps clock 0#64 (square A).rows
      (clampSamples (square A) st.maxNumSamples) true = .error .abort := by
    rw [clampSamples_eq]
    show Columns.generateColumnVectors _ _ _ _ 2 (min st.maxNumSamples 2) _ = _
    rw [min_eq_right hmax]
    exact seed_zero_aborts he he1 clock
  rw [e]
  rfl

/-- When all samples are discarded as outliers the method raises `ZeroDivisionError` (C23). -/
theorem all_outliers_raise {A : Mat ℝ} {B C : Option (Mat ℝ)} {gram : Bool} {p : Exponent} {st : Settings ℝ}
    {Es : List (Vec ℝ)} {samples : List (XR ℝ)} {conv : Bool}
    (h : sampling (sampleOf solve A B C gram p a) st Es [] = .ok (samples, conv))
    (hall : pyAverageEstimate st.errorZ st.outlierZ samples = none) :
    average solve A B C gram p a st Es = .error .zeroDivision := by
  unfold average
  rw [h]
  simp [bind, Except.bind, hall]

/-- This happens: two samples of the trace of `diag(1/2, -1/2)` and a threshold of half a standard deviation. -/
theorem two_samples_raise (solve : Solver ℝ) (a : Assume) {st : Settings ℝ} (hmin : 2 < st.minNumSamples)
    (he : st.errorZ = .fin 1) (ho : st.outlierZ = .fin (1 / 2)) :
    average solve (square !![1 / 2, 0; 0, -1 / 2]) none none false (.int (-1)) a st
      [⟨2, ![0, 1]⟩, ⟨2, ![1, 0]⟩] = .error .zeroDivision := by
  refine all_outliers_raise (samples := [(-1 : ℝ), 1].map XR.fin) (conv := false) ?_ ?_
  · have key : ∀ E : Fin 2 → ℝ, sampleOf solve (square !![1 / 2, 0; 0, -1 / 2]) none none false (.int (-1)) a ⟨2, E⟩ =
        .ok (E 0 * E 0 - E 1 * E 1) := by
      intro E
      have hv : (Exponent.int (-1)).val = (-1 : ℚ) := rfl
      have n1 : ¬ ((-1 : ℚ) = 0) := by norm_num
      have n2 : ¬ ((-1 : ℚ) = 1) := by norm_num
      have n3 : ¬ ((-1 : ℚ) > 1) := by norm_num
      simp only [sampleOf, traceEstimate, operatorDot, applyB, applyC, finalProduct, innerProduct, hv, Mat.mulVec, square,
        bind, Except.bind, if_neg n1, if_neg n2, if_neg n3]
      simp [Matrix.mulVec, dotProduct]
      change 2 * (∑ x : Fin 2, E x * ∑ y : Fin 2, vecCons (![2⁻¹, 0] y) (fun _ : Fin 1 => (![0, -1 / 2] : Fin 2 → ℝ) y) x * E y) = _
      simp [Fin.sum_univ_two]
      ring
    simp only [sampling, key, bind, Except.bind]
    simp [pyCheckConvergence, show 1 < st.minNumSamples by omega, hmin]
  · rw [he, ho]
    exact python_all_samples_discarded

end Imate.Props
