import Verif.Props.OrthogonalBound

/-!
# C117: the range of the Hutchinson estimates
-/

namespace Imate.Props

open Imate.Hutchinson Imate.Spec Imate.Columns Imate.Lanczos Imate.Convergence Matrix

variable {n : ℕ} {solve : Solver ℝ} {a : Assume}

/-- Whatever the threshold for outliers, the Python average of samples between `lo` and `hi` lies between them. -/
theorem python_estimate_between {errorZ outlierZ : XR ℝ} {xs : List ℝ} {lo hi : ℝ} (hx : ∀ x ∈ xs, lo ≤ x ∧ x ≤ hi)
    {q : Averaged (XR ℝ)} (h : pyAverageEstimate errorZ outlierZ (xs.map XR.fin) = some q) :
    ∃ t, q.trace = XR.fin t ∧ lo ≤ t ∧ t ≤ hi := by
  unfold pyAverageEstimate at h
  dsimp only at h
  split at h
  · cases h
  · rename_i h0
    simp only [Option.some.injEq] at h
    subst h
    dsimp only
    generalize hm : meanOf (xs.map XR.fin) = m at h0 ⊢
    generalize hg : FloatLike.mul outlierZ (pyStdOf (xs.map XR.fin)) = g at h0 ⊢
    set p : ℝ → Bool := fun x => !isOutlier m g (XR.fin x) with hp
    have e1 : (xs.map XR.fin).filter (fun x => !isOutlier m g x) = (xs.filter p).map XR.fin := by
      rw [List.filter_map]; rfl
    have e2 : (xs.map XR.fin).length - (xs.map XR.fin).countP (fun x => isOutlier m g x) = (xs.filter p).length := by
      have h1 := List.length_eq_countP_add_countP (fun x => isOutlier m g x) (l := xs.map XR.fin)
      have h2 : (xs.map XR.fin).countP (fun x => decide ¬ isOutlier m g x = true) = (xs.filter p).length := by
        rw [← List.length_map (as := xs.filter p) (f := XR.fin), ← e1, ← List.countP_eq_length_filter]
        apply List.countP_congr
        intro x _
        simp
      omega
    rw [e2] at h0
    have hkept : xs.filter p ≠ [] := fun h1 => h0 (by rw [h1]; rfl)
    have hm' := meanOf_fin hkept
    unfold meanOf at hm'
    rw [List.length_map] at hm'
    rw [e1, e2, hm']
    exact ⟨_, rfl, mean_mem_Icc hkept fun x h1 => hx x (List.mem_filter.1 h1).1⟩

/-- **C117.**  The Hutchinson method, with or without orthogonalized vectors, under the conditions of C35.  Let the quadratic form of the
sampled matrix lie between `lo` and `hi` at unit vectors.  Whatever the seed, the draws, the numbers of samples, the tolerances and the threshold
for outliers: when the method returns, its trace lies between `n lo` and `n hi`.  Missing: the exponents and the case excluded in C35. -/
theorem hutchinson_range_partial {eps : ℝ} (he : 0 < eps) (he1 : eps ≤ 1) (clock : ℕ → ℕ → BitVec 64) (seed : BitVec 64)
    (orthogonalize : Bool) (hn : 1 ≤ n) (hs : SolverSpec solve) {A : Matrix (Fin n) (Fin n) ℝ} (hA : Admissible a A) {p : ℤ} (hp : -1 ≤ p)
    (hu : 1 ≤ p → IsUnit A.det) (gram : Bool) (B C : Option (Matrix (Fin n) (Fin n) ℝ)) (hBC : C.isSome → B.isSome)
    (hex : ¬ (gram = true ∧ p = -1 ∧ B.isSome)) {st : Settings ℝ} {lo hi : ℝ}
    (hG : ∀ v : Fin n → ℝ, v ⬝ᵥ v = 1 → lo ≤ v ⬝ᵥ (sampledMatrix gram A p B C *ᵥ v) ∧ v ⬝ᵥ (sampledMatrix gram A p B C *ᵥ v) ≤ hi)
    {r : Outcome ℝ}
    (h : hutchinson solve eps clock seed orthogonalize (square A) (B.map square) (C.map square) gram (.int p) a st = .ok r) :
    ∃ t, r.trace = XR.fin t ∧ n * lo ≤ t ∧ t ≤ n * hi := by
  obtain ⟨V, samples, conv, q, h1, h2, h3, h4, rfl⟩ := hutchinson_ok he he1 (A := square A) hn h
  rcases column_vectors_sound hn he he1 clock seed (clampSamples (square A) st.maxNumSamples) orthogonalize with
    h7 | ⟨V', h7, -, h9, -⟩
  · exact absurd (h1.symm.trans h7.2) (by simp)
  have hVV : V' = V := by
    have := h7.symm.trans h1
    injection this
  subst hVV
  obtain ⟨-, g2⟩ := sample_form hs hA hp hu gram B C hBC hex
  set G := sampledMatrix gram A p B C
  obtain ⟨-, -, -, k4, -⟩ := sampling_ok h3
  have k5 := k4 (V'.toList.map fun v => n * (v ⬝ᵥ (G *ᵥ v))) (by
    rw [List.map_map, List.map_map]
    refine List.map_congr_left fun v _ => ?_
    exact g2 v)
  rw [List.nil_append] at k5
  rw [k5] at h4
  refine python_estimate_between (fun x hx => ?_) h4
  obtain ⟨v, hv, rfl⟩ := List.mem_map.1 (List.mem_of_mem_take hx)
  obtain ⟨i, hi', rfl⟩ := List.mem_iff_getElem.1 hv
  have h6 := hG (V'.toList[i]) (by
    have := h9 i (by simpa using hi')
    simpa using this)
  exact ⟨mul_le_mul_of_nonneg_left h6.1 (Nat.cast_nonneg _), mul_le_mul_of_nonneg_left h6.2 (Nat.cast_nonneg _)⟩

/-- **C117, signs.**  A positive semidefinite sampled matrix never gets a negative estimate. -/
theorem hutchinson_nonneg_partial {eps : ℝ} (he : 0 < eps) (he1 : eps ≤ 1) (clock : ℕ → ℕ → BitVec 64) (seed : BitVec 64)
    (orthogonalize : Bool) (hn : 1 ≤ n) (hs : SolverSpec solve) {A : Matrix (Fin n) (Fin n) ℝ} (hA : Admissible a A) {p : ℤ} (hp : -1 ≤ p)
    (hu : 1 ≤ p → IsUnit A.det) (gram : Bool) (B C : Option (Matrix (Fin n) (Fin n) ℝ)) (hBC : C.isSome → B.isSome)
    (hex : ¬ (gram = true ∧ p = -1 ∧ B.isSome)) {st : Settings ℝ}
    (hG : (sampledMatrix gram A p B C).PosSemidef) {r : Outcome ℝ}
    (h : hutchinson solve eps clock seed orthogonalize (square A) (B.map square) (C.map square) gram (.int p) a st = .ok r) :
    ∃ t, r.trace = XR.fin t ∧ 0 ≤ t := by
  set G := sampledMatrix gram A p B C
  -- the form is nonnegative, and bounded at unit vectors
  have hb : ∀ v : Fin n → ℝ, v ⬝ᵥ v = 1 → 0 ≤ v ⬝ᵥ (G *ᵥ v) ∧ v ⬝ᵥ (G *ᵥ v) ≤ ∑ i, ∑ j, |G i j| := by
    intro v hv
    have hvi : ∀ i, |v i| ≤ 1 := fun i => by
      have h1 : v i * v i ≤ v ⬝ᵥ v := Finset.single_le_sum (f := fun i => v i * v i) (fun j _ => mul_self_nonneg _) (Finset.mem_univ i)
      rw [hv] at h1
      rw [abs_le]
      constructor <;> nlinarith
    refine ⟨by simpa using hG.dotProduct_mulVec_nonneg v, ?_⟩
    unfold dotProduct mulVec dotProduct
    refine Finset.sum_le_sum fun i _ => ?_
    rw [Finset.mul_sum]
    refine Finset.sum_le_sum fun j _ => (le_abs_self _).trans ?_
    rw [abs_mul, abs_mul]
    have h1 := mul_le_of_le_one_right (abs_nonneg (G i j)) (hvi j)
    have h2 := mul_le_mul (hvi i) h1 (mul_nonneg (abs_nonneg _) (abs_nonneg _)) zero_le_one
    linarith
  obtain ⟨t, h1, h2, -⟩ := hutchinson_range_partial he he1 clock seed orthogonalize hn hs hA hp hu gram B C hBC hex hb h
  exact ⟨t, h1, by simpa using h2⟩

/-- Without orthogonalization the method returns, with at least two samples and a threshold for outliers of more than one standard
deviation. -/
theorem hutchinson_plain_returns_partial {eps : ℝ} (he : 0 < eps) (he1 : eps ≤ 1) (clock : ℕ → ℕ → BitVec 64) (seed : BitVec 64)
    (hn : 2 ≤ n) (hs : SolverSpec solve) {A : Matrix (Fin n) (Fin n) ℝ} (hA : Admissible a A) {p : ℤ} (hp : -1 ≤ p)
    (hu : 1 ≤ p → IsUnit A.det) (gram : Bool) (B C : Option (Matrix (Fin n) (Fin n) ℝ)) (hBC : C.isSome → B.isSome)
    (hex : ¬ (gram = true ∧ p = -1 ∧ B.isSome)) {st : Settings ℝ} (hmin : 2 ≤ st.minNumSamples) (hmax : st.minNumSamples ≤ st.maxNumSamples)
    {oz : ℝ} (hoz : st.outlierZ = XR.fin oz) (hz : 1 < oz) :
    ∃ r, hutchinson solve eps clock seed false (square A) (B.map square) (C.map square) gram (.int p) a st = .ok r := by
  rcases column_vectors_sound (show 1 ≤ n by omega) he he1 clock seed (clampSamples (square A) st.maxNumSamples) false with
    h7 | ⟨V, h7, h8, -⟩
  · cases h7.1
  obtain ⟨-, g2⟩ := sample_form hs hA hp hu gram B C hBC hex
  set st' : Settings ℝ := { st with minNumSamples := clampSamples (square A) st.minNumSamples,
                                    maxNumSamples := clampSamples (square A) st.maxNumSamples } with hst'
  obtain ⟨samples, conv, hsam⟩ := sampling_returns (st := st')
    (sample := sampleOf solve (square A) (B.map square) (C.map square) gram (.int p) a)
    (Es := V.toList.map fun v => (⟨n, v⟩ : Vec ℝ)) (fun E hE => by
      obtain ⟨v, -, rfl⟩ := List.mem_map.1 hE
      exact ⟨_, g2 v⟩) []
  obtain ⟨k1, k2, k3, k4, -⟩ := sampling_ok hsam
  have k5 := k4 (V.toList.map fun v => n * (v ⬝ᵥ (sampledMatrix gram A p B C *ᵥ v))) (by
    rw [List.map_map, List.map_map]
    refine List.map_congr_left fun v _ => ?_
    exact g2 v)
  simp only [List.length_nil, Nat.zero_add, List.length_map, Array.length_toList, Nat.sub_zero, List.nil_append] at k1 k3 k5
  have hclamp : ∀ k, clampSamples (square A) k = min k n := fun k => clampSamples_eq _ _
  have hκ : 2 ≤ samples.length := by
    cases conv with
    | true =>
      have h := k2 rfl
      have e : st'.minNumSamples = min st.minNumSamples n := hclamp _
      omega
    | false =>
      have h := k3 rfl
      rw [h8, hclamp] at h
      omega
  obtain ⟨q, t, hq, -⟩ := python_outliers
    (xs := (V.toList.map fun v => n * (v ⬝ᵥ (sampledMatrix gram A p B C *ᵥ v))).take samples.length)
    (by rw [List.length_take, List.length_map]; have : V.toList.length = V.size := rfl; omega) st.errorZ hz
  rw [← k5, ← hoz] at hq
  refine ⟨⟨q.trace, q.error, q.numOutliers, samples.length, conv⟩, ?_⟩
  have e3 : average solve (square A) (B.map square) (C.map square) gram (.int p) a st' (V.toList.map fun v => (⟨n, v⟩ : Vec ℝ)) =
      .ok ⟨q.trace, q.error, q.numOutliers, samples.length, conv⟩ := by
    unfold average
    rw [hsam, Except.ok_bind']
    dsimp only
    rw [show pyAverageEstimate st'.errorZ st'.outlierZ samples = some q from hq]
  have e : Columns.generateColumnVectors HasSqrt.sqrt eps clock seed (square A).rows (clampSamples (square A) st.maxNumSamples) false = .ok V := h7
  unfold hutchinson
  simp only
  rw [e]
  exact e3

/-- The matrix with diagonal `1, 2, 2`: whatever two sign vectors are drawn, the method returns a trace between three and six. -/
example (hs : SolverSpec solve) (clock : ℕ → ℕ → BitVec 64) (seed : BitVec 64) :
    ∃ r t, hutchinson solve (1 / 2 : ℝ) clock seed false (square (diagonal ![(1 : ℝ), 2, 2])) none none false (.int (-1)) .gen
      ⟨2, 2, .fin 0, .fin 0, .fin 2, .fin 3⟩ = .ok r ∧ r.trace = XR.fin t ∧ 3 ≤ t ∧ t ≤ 6 := by
  have hS : sampledMatrix false (diagonal ![(1 : ℝ), 2, 2]) (-1) none none = diagonal ![1, 2, 2] := by
    simp [sampledMatrix, subject]
  obtain ⟨r, h⟩ := hutchinson_plain_returns_partial (eps := 1 / 2) (by norm_num) (by norm_num) clock seed (n := 3) (by norm_num) (a := .gen) hs
    (A := diagonal ![(1 : ℝ), 2, 2]) trivial (p := -1) (by norm_num) (fun h => absurd h (by norm_num)) false none none (by simp) (by simp)
    (st := ⟨2, 2, .fin 0, .fin 0, .fin 2, .fin 3⟩) (by norm_num) (by norm_num) (oz := 3) rfl (by norm_num)
  obtain ⟨t, h1, h2, h3⟩ := hutchinson_range_partial (eps := 1 / 2) (by norm_num) (by norm_num) clock seed false (n := 3) (by norm_num) (a := .gen) hs
    (A := diagonal ![(1 : ℝ), 2, 2]) trivial (p := -1) (by norm_num) (fun h => absurd h (by norm_num)) false none none (by simp) (by simp)
    (lo := 1) (hi := 2) (fun v hv => by
      rw [hS]
      simp only [dotProduct, mulVec_diagonal, Fin.sum_univ_three] at hv ⊢
      simp only [Matrix.cons_val_zero, Matrix.cons_val_one, Matrix.cons_val] at hv ⊢
      constructor <;> nlinarith [sq_nonneg (v 0), sq_nonneg (v 1), sq_nonneg (v 2)]) h
  refine ⟨r, t, h, h1, ?_, ?_⟩
  · norm_num at h2; exact h2
  · norm_num at h3; exact h3

end Imate.Props
