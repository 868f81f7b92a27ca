import Verif.Props.HutchinsonAccuracy

/-!
# C114: the error of the Hutchinson method with orthogonalized vectors, whatever is drawn
-/

namespace Imate.Props

open Imate.Hutchinson Imate.Spec Imate.Columns Imate.Lanczos Imate.Convergence Matrix

variable {n s : ℕ} {solve : Solver ℝ} {a : Assume}

theorem trace_rows {k : ℕ} (M : Matrix (Fin k) (Fin n) ℝ) (G : Matrix (Fin n) (Fin n) ℝ) :
    (M * G * Mᵀ).trace = ∑ i, M i ⬝ᵥ (G *ᵥ M i) := by
  unfold Matrix.trace
  refine Finset.sum_congr rfl fun i _ => ?_
  rw [diag_apply, Matrix.mul_assoc, mul_apply]
  refine Finset.sum_congr rfl fun x _ => ?_
  rw [mul_apply]
  rfl

/-- At most `n` vectors are orthonormal. -/
theorem orthonormal_count {k : ℕ} {V : Fin k → Fin n → ℝ} (hV : ∀ i j, V i ⬝ᵥ V j = if i = j then 1 else 0) : k ≤ n := by
  have hWW : Matrix.of V * (Matrix.of V)ᵀ = 1 := by
    ext i j
    rw [mul_apply, one_apply]
    exact hV i j
  have h1 := (Matrix.of V).rank_le_width
  have h2 := Matrix.rank_mul_le_left (Matrix.of V) (Matrix.of V)ᵀ
  rw [hWW, Matrix.rank_one, Fintype.card_fin] at h2
  omega

/-- The scaled mean over `k` orthonormal vectors misses the trace by at most `n - k` times the spread of the form. -/
theorem orthonormal_mean {k : ℕ} (hk : 0 < k) {V : Fin k → Fin n → ℝ} (hV : ∀ i j, V i ⬝ᵥ V j = if i = j then 1 else 0)
    (G : Matrix (Fin n) (Fin n) ℝ) {lo hi : ℝ} (hG : ∀ v : Fin n → ℝ, lo * (v ⬝ᵥ v) ≤ v ⬝ᵥ (G *ᵥ v) ∧ v ⬝ᵥ (G *ᵥ v) ≤ hi * (v ⬝ᵥ v)) :
    |(∑ i, n * (V i ⬝ᵥ (G *ᵥ V i))) / k - G.trace| ≤ (n - k) * (hi - lo) := by
  set W : Matrix (Fin k) (Fin n) ℝ := Matrix.of V with hW
  have hWW : W * Wᵀ = 1 := by
    ext i j
    rw [mul_apply, one_apply]
    exact hV i j
  set Q : Matrix (Fin n) (Fin n) ℝ := 1 - Wᵀ * W with hQ
  have hQt : Qᵀ = Q := by rw [hQ, transpose_sub, transpose_mul, transpose_transpose, transpose_one]
  have hPP : Wᵀ * W * (Wᵀ * W) = Wᵀ * W := by
    rw [Matrix.mul_assoc, ← Matrix.mul_assoc W, hWW, Matrix.one_mul]
  have hQQ : Q * Q = Q := by
    rw [hQ, Matrix.sub_mul, Matrix.one_mul, Matrix.mul_sub, Matrix.mul_one, hPP, sub_self, sub_zero]
  -- the trace splits into the part of the vectors and the rest
  have hS : (Wᵀ * W * G).trace = ∑ i, V i ⬝ᵥ (G *ᵥ V i) := by
    rw [Matrix.mul_assoc, trace_mul_comm, trace_rows]
    rfl
  have hT : (Q * G).trace = ∑ x, Q x ⬝ᵥ (G *ᵥ Q x) := by
    rw [← trace_rows, hQt, trace_mul_comm (Q * G) Q, ← Matrix.mul_assoc, hQQ]
  have hsplit : G.trace = ∑ i, V i ⬝ᵥ (G *ᵥ V i) + ∑ x, Q x ⬝ᵥ (G *ᵥ Q x) := by
    rw [← hS, ← hT, ← trace_add, ← Matrix.add_mul, hQ, add_sub_cancel, Matrix.one_mul]
  have hq : ∑ x, Q x ⬝ᵥ Q x = (n : ℝ) - k := by
    have h1 := trace_rows Q 1
    simp only [one_mulVec, Matrix.mul_one] at h1
    rw [← h1, hQt, hQQ, hQ, trace_sub, trace_one, trace_mul_comm, hWW, trace_one, Fintype.card_fin, Fintype.card_fin]
  have hv : ∑ i, V i ⬝ᵥ V i = (k : ℝ) := by
    rw [Finset.sum_congr rfl fun i _ => (hV i i).trans (if_pos rfl)]
    simp
  have hnk : (0 : ℝ) ≤ n - k := by
    rw [← hq]
    exact Finset.sum_nonneg fun x _ => Finset.sum_nonneg fun y _ => mul_self_nonneg _
  set S := ∑ i, V i ⬝ᵥ (G *ᵥ V i)
  set T := ∑ x, Q x ⬝ᵥ (G *ᵥ Q x)
  have hS1 : lo * k ≤ S := by rw [← hv, Finset.mul_sum]; exact Finset.sum_le_sum fun i _ => (hG _).1
  have hS2 : S ≤ hi * k := by rw [← hv, Finset.mul_sum]; exact Finset.sum_le_sum fun i _ => (hG _).2
  have hT1 : lo * (n - k) ≤ T := by rw [← hq, Finset.mul_sum]; exact Finset.sum_le_sum fun i _ => (hG _).1
  have hT2 : T ≤ hi * (n - k) := by rw [← hq, Finset.mul_sum]; exact Finset.sum_le_sum fun i _ => (hG _).2
  have hk' : (0 : ℝ) < k := by exact_mod_cast hk
  have e1 : (∑ i, n * (V i ⬝ᵥ (G *ᵥ V i))) / k - G.trace = (n - k) * (S / k) - T := by
    rw [← Finset.mul_sum, hsplit]
    field_simp
    ring
  have h1 : lo ≤ S / k := by rwa [le_div_iff₀ hk']
  have h2 : S / k ≤ hi := by rwa [div_le_iff₀ hk']
  have h3 := mul_le_mul_of_nonneg_left h1 hnk
  have h4 := mul_le_mul_of_nonneg_left h2 hnk
  rw [e1, abs_le]
  constructor <;> linarith

theorem form_of_unit {G : Matrix (Fin n) (Fin n) ℝ} {lo hi : ℝ} (hG : ∀ v : Fin n → ℝ, v ⬝ᵥ v = 1 → lo ≤ v ⬝ᵥ (G *ᵥ v) ∧ v ⬝ᵥ (G *ᵥ v) ≤ hi)
    (v : Fin n → ℝ) : lo * (v ⬝ᵥ v) ≤ v ⬝ᵥ (G *ᵥ v) ∧ v ⬝ᵥ (G *ᵥ v) ≤ hi * (v ⬝ᵥ v) := by
  have h0 : 0 ≤ v ⬝ᵥ v := Finset.sum_nonneg fun x _ => mul_self_nonneg _
  rcases h0.eq_or_lt with h | h
  · have hv : v = 0 := dotProduct_self_eq_zero.1 h.symm
    subst hv
    simp
  · have hq : Real.sqrt (v ⬝ᵥ v) ^ 2 = v ⬝ᵥ v := Real.sq_sqrt h0
    have hq0 : Real.sqrt (v ⬝ᵥ v) ≠ 0 := (Real.sqrt_pos.2 h).ne'
    have hscale : ∀ x : ℝ, 1 / Real.sqrt (v ⬝ᵥ v) * (1 / Real.sqrt (v ⬝ᵥ v) * x) = x / (v ⬝ᵥ v) := fun x => by
      rw [← hq, Real.sqrt_sq (Real.sqrt_nonneg _)]
      field_simp
    have h1 := hG ((1 / Real.sqrt (v ⬝ᵥ v)) • v) (by
      rw [smul_dotProduct, dotProduct_smul, smul_eq_mul, smul_eq_mul, hscale, div_self h.ne'])
    rw [mulVec_smul, smul_dotProduct, dotProduct_smul, smul_eq_mul, smul_eq_mul, hscale, le_div_iff₀ h, div_le_iff₀ h] at h1
    exact h1

/-- **C114, sampling.**  Samples at `s` orthonormal vectors. -/
theorem orthonormal_average_partial (hs : SolverSpec solve) {A : Matrix (Fin n) (Fin n) ℝ}
    (hA : Admissible a A) {p : ℤ} (hp : -1 ≤ p) (hu : 1 ≤ p → IsUnit A.det) (gram : Bool)
    (B C : Option (Matrix (Fin n) (Fin n) ℝ)) (hBC : C.isSome → B.isSome)
    (hex : ¬ (gram = true ∧ p = -1 ∧ B.isSome)) {st : Settings ℝ} (hmin : 2 ≤ st.minNumSamples) (hmax : st.minNumSamples ≤ s)
    {oz : ℝ} (hoz : st.outlierZ = XR.fin oz) (hz : 1 < oz) {V : Fin s → Fin n → ℝ} (hV : ∀ i j, V i ⬝ᵥ V j = if i = j then 1 else 0)
    {lo hi : ℝ}
    (hG : ∀ v : Fin n → ℝ, v ⬝ᵥ v = 1 → lo ≤ v ⬝ᵥ (sampledMatrix gram A p B C *ᵥ v) ∧ v ⬝ᵥ (sampledMatrix gram A p B C *ᵥ v) ≤ hi) :
    ∃ (r : Outcome ℝ) (t : ℝ) (samples : List ℝ),
      average solve (square A) (B.map square) (C.map square) gram (.int p) a st (List.ofFn fun i => ⟨n, V i⟩) = .ok r ∧
      st.minNumSamples ≤ r.numSamplesUsed ∧ r.numSamplesUsed ≤ s ∧
      r.trace = XR.fin t ∧ samples.length = r.numSamplesUsed ∧ r.numSamplesUsed ≤ n ∧
      (∀ x ∈ samples, n * lo ≤ x ∧ x ≤ n * hi) ∧
      (r.numOutliers = 0 → |t - (documented gram A p B C).trace| ≤ (n - r.numSamplesUsed) * (hi - lo)) ∧
      |t - (documented gram A p B C).trace| ≤ (n - r.numSamplesUsed) * (hi - lo) + oz / (oz ^ 2 - 1) * populationStd samples := by
  classical
  obtain ⟨h1, h2⟩ := sample_form hs hA hp hu gram B C hBC hex
  set G := sampledMatrix gram A p B C
  let Y : Fin s → ℝ := fun i => n * (V i ⬝ᵥ (G *ᵥ V i))
  have hY : ∀ i, sampleOf solve (square A) (B.map square) (C.map square) gram (.int p) a ⟨n, V i⟩ = .ok (Y i) := fun i => h2 _
  obtain ⟨samples, conv, hsam⟩ := sampling_returns (st := st)
    (sample := sampleOf solve (square A) (B.map square) (C.map square) gram (.int p) a)
    (Es := List.ofFn fun i => ⟨n, V i⟩) (fun E hE => by
      obtain ⟨i, rfl⟩ := (List.mem_ofFn' _ _).1 hE
      exact ⟨_, hY _⟩) []
  obtain ⟨k1, k2, k3, k4, -⟩ := sampling_ok hsam
  simp only [List.length_nil, Nat.zero_add, List.length_ofFn, Nat.sub_zero, List.nil_append] at k1 k3 k4
  have k5 := k4 (List.ofFn Y) (by
    rw [List.map_ofFn, List.map_ofFn]
    congr 1
    funext i
    exact hY _)
  have hκ : st.minNumSamples ≤ samples.length := by
    cases conv with
    | true => exact k2 rfl
    | false => rw [k3 rfl]; exact hmax
  have hl : ((List.ofFn Y).take samples.length).length = samples.length := by
    rw [List.length_take, List.length_ofFn]
    omega
  obtain ⟨q, t, hq, ht, hc, hd⟩ := python_outliers (xs := (List.ofFn Y).take samples.length) (by rw [hl]; omega) st.errorZ hz
  have hV' : ∀ i j : Fin samples.length, V ⟨i.1, by omega⟩ ⬝ᵥ V ⟨j.1, by omega⟩ = if i = j then 1 else 0 := fun i j => by
    rw [hV]
    simp [Fin.ext_iff]
  have hb := orthonormal_mean (k := samples.length) (by omega) (V := fun i => V ⟨i.1, by omega⟩) hV' G (form_of_unit hG)
  have hkn := orthonormal_count (V := fun i : Fin samples.length => V ⟨i.1, by omega⟩) hV'
  have hm : mean ((List.ofFn Y).take samples.length) =
      (∑ i : Fin samples.length, n * (V ⟨i.1, by omega⟩ ⬝ᵥ (G *ᵥ V ⟨i.1, by omega⟩))) / samples.length := by
    unfold mean
    rw [hl, sum_take_ofFn k1]
    rfl
  rw [h1, ← hm] at hb
  refine ⟨⟨q.trace, q.error, q.numOutliers, samples.length, conv⟩, t, (List.ofFn Y).take samples.length, ?_, hκ, k1, ht, hl, hkn, ?_, ?_, ?_⟩
  · unfold average
    rw [hsam, Except.ok_bind']
    dsimp only
    rw [hoz]
    conv_lhs => rw [k5]
    rw [hq]
    simp only [List.length_map, hl]
  · intro x hx
    obtain ⟨i, rfl⟩ := (List.mem_ofFn' _ _).1 (List.mem_of_mem_take hx)
    have := hG (V i) ((hV i i).trans (if_pos rfl))
    exact ⟨mul_le_mul_of_nonneg_left this.1 (Nat.cast_nonneg _), mul_le_mul_of_nonneg_left this.2 (Nat.cast_nonneg _)⟩
  · intro ho
    have h5 := averaged_trace (fun h0 => by rw [h0] at hl; simp at hl; omega) hq ho
    rw [ht] at h5
    cases h5
    exact hb
  · have := abs_sub_le t (mean ((List.ofFn Y).take samples.length)) (documented gram A p B C).trace
    linarith

/-- **C114.**  The Hutchinson method with orthogonalized vectors (`orthogonalize=True`, the default), under the conditions of C35, with at
least two samples and a threshold for outliers of more than one standard deviation.  Let the quadratic form of the sampled matrix lie between
`lo` and `hi` at unit vectors.  Whatever the seed, the draws and the tolerances: when the method returns after `k` samples, its trace is off by
at most `(n - k) (hi - lo)`, plus `outlierZ / (outlierZ² - 1)` times the standard deviation of the samples if it dropped outliers.  Missing: the
exponents and the case excluded in C35. -/
theorem hutchinson_orthogonal_bound_partial {eps : ℝ} (he : 0 < eps) (he1 : eps ≤ 1) (clock : ℕ → ℕ → BitVec 64) (seed : BitVec 64)
    (hn : 2 ≤ n) (hs : SolverSpec solve) {A : Matrix (Fin n) (Fin n) ℝ} (hA : Admissible a A) {p : ℤ} (hp : -1 ≤ p)
    (hu : 1 ≤ p → IsUnit A.det) (gram : Bool) (B C : Option (Matrix (Fin n) (Fin n) ℝ)) (hBC : C.isSome → B.isSome)
    (hex : ¬ (gram = true ∧ p = -1 ∧ B.isSome)) {st : Settings ℝ} (hmin : 2 ≤ st.minNumSamples) (hmax : st.minNumSamples ≤ st.maxNumSamples)
    {oz : ℝ} (hoz : st.outlierZ = XR.fin oz) (hz : 1 < oz) {lo hi : ℝ}
    (hG : ∀ v : Fin n → ℝ, v ⬝ᵥ v = 1 → lo ≤ v ⬝ᵥ (sampledMatrix gram A p B C *ᵥ v) ∧ v ⬝ᵥ (sampledMatrix gram A p B C *ᵥ v) ≤ hi)
    {r : Outcome ℝ}
    (h : hutchinson solve eps clock seed true (square A) (B.map square) (C.map square) gram (.int p) a st = .ok r) :
    ∃ (t : ℝ) (samples : List ℝ), r.trace = XR.fin t ∧ samples.length = r.numSamplesUsed ∧ r.numSamplesUsed ≤ n ∧
      (∀ x ∈ samples, n * lo ≤ x ∧ x ≤ n * hi) ∧
      (r.numOutliers = 0 → |t - (documented gram A p B C).trace| ≤ (n - r.numSamplesUsed) * (hi - lo)) ∧
      |t - (documented gram A p B C).trace| ≤ (n - r.numSamplesUsed) * (hi - lo) + oz / (oz ^ 2 - 1) * populationStd samples := by
  have h' := h
  obtain ⟨V, samples, conv, q, h1, h2, -, -, -⟩ := hutchinson_ok he he1 (A := square A) (show 1 ≤ n by omega) h
  rcases column_vectors_sound (show 1 ≤ n by omega) he he1 clock seed (clampSamples (square A) st.maxNumSamples) true with
    h7 | ⟨V', h7, h8, h9, h10, -⟩
  · exact absurd (h1.symm.trans h7.2) (by simp)
  have hVV : V' = V := by
    have := h7.symm.trans h1
    injection this
  subst hVV
  set st' : Settings ℝ := { st with minNumSamples := clampSamples (square A) st.minNumSamples,
                                    maxNumSamples := clampSamples (square A) st.maxNumSamples } with hst'
  have hclamp : ∀ k, clampSamples (square A) k = min k n := fun k => clampSamples_eq _ _
  have hlist : V'.toList.map (fun v => (⟨n, v⟩ : Vec ℝ)) = List.ofFn fun i : Fin V'.size => (⟨n, V'[i]⟩ : Vec ℝ) := by
    apply List.ext_getElem
    · simp
    · intro i hi1 hi2
      simp
  obtain ⟨r', t, xs, g1, -, g2⟩ := orthonormal_average_partial (s := V'.size) hs hA hp hu gram B C hBC hex (st := st')
    (show 2 ≤ clampSamples (square A) st.minNumSamples by rw [hclamp]; omega)
    (show clampSamples (square A) st.minNumSamples ≤ V'.size by rw [h8, hclamp, hclamp]; omega) hoz hz (V := fun i => V'[i])
    (fun i j => by
      by_cases hij : i = j
      · subst hij; rw [if_pos rfl]; exact h9 _ _
      · rw [if_neg hij]
        exact (h10 rfl).1 _ _ _ _ (fun h => hij (Fin.ext h))) hG
  unfold hutchinson at h'
  simp only at h'
  have e : Columns.generateColumnVectors HasSqrt.sqrt eps clock seed (square A).rows (clampSamples (square A) st.maxNumSamples) true = .ok V' := h7
  rw [e] at h'
  simp only [ofNative, Except.ok_bind'] at h'
  have e2 : average solve (square A) (B.map square) (C.map square) gram (.int p) a st' (V'.toList.map (fun v => (⟨n, v⟩ : Vec ℝ))) = .ok r := h'
  rw [hlist, g1] at e2
  cases e2
  exact ⟨t, xs, g2.2⟩

/-- Two of three vectors for the matrix with diagonal `1, 2, 2`: every draw gives the trace up to one. -/
example (hs : SolverSpec solve) : ∃ r t, average solve (square (diagonal ![1, 2, 2])) none none false (.int (-1)) .gen
    ⟨2, 2, .fin 0, .fin 0, .fin 2, .fin 3⟩ (List.ofFn fun i : Fin 2 => ⟨3, (![![1, 0, 0], ![0, 1, 0]] : Fin 2 → Fin 3 → ℝ) i⟩) = .ok r ∧
    r.trace = XR.fin t ∧ (r.numOutliers = 0 → |t - 5| ≤ 1) := by
  have hS : sampledMatrix false (diagonal ![(1 : ℝ), 2, 2]) (-1) none none = diagonal ![1, 2, 2] := by
    simp [sampledMatrix, subject]
  have hd : documented false (diagonal ![(1 : ℝ), 2, 2]) (-1) none none = diagonal ![1, 2, 2] := by
    simp [documented, subject]
  obtain ⟨r, t, xs, h1, h2, h3, h4, -, -, -, h5, -⟩ := orthonormal_average_partial (s := 2) (a := .gen) hs (A := diagonal ![(1 : ℝ), 2, 2]) trivial (p := -1)
    (by norm_num) (fun h => absurd h (by norm_num)) false none none (by simp) (by simp) (st := ⟨2, 2, .fin 0, .fin 0, .fin 2, .fin 3⟩)
    (by norm_num) (by norm_num) (oz := 3) rfl (by norm_num) (V := ![![1, 0, 0], ![0, 1, 0]])
    (fun i j => by fin_cases i <;> fin_cases j <;> simp [dotProduct, Fin.sum_univ_three]) (lo := 1) (hi := 2)
    (fun v hv => by
      rw [hS]
      simp only [dotProduct, mulVec_diagonal, Fin.sum_univ_three] at hv ⊢
      simp only [Matrix.cons_val_zero, Matrix.cons_val_one, Matrix.cons_val] at hv ⊢
      constructor <;> nlinarith [sq_nonneg (v 0), sq_nonneg (v 1), sq_nonneg (v 2)])
  refine ⟨r, t, h1, h4, fun ho => ?_⟩
  have h6 := h5 ho
  have h7 : r.numSamplesUsed = 2 := le_antisymm h3 h2
  rw [hd, h7, trace_diagonal, Fin.sum_univ_three] at h6
  rw [show (![1, 2, 2] : Fin 3 → ℝ) 0 = 1 from rfl, show (![1, 2, 2] : Fin 3 → ℝ) 1 = 2 from rfl,
    show (![1, 2, 2] : Fin 3 → ℝ) 2 = 2 from rfl] at h6
  norm_num at h6
  exact h6

end Imate.Props
