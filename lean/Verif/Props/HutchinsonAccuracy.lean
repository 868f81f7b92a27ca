import Verif.Props.Hutchinson
import Verif.Props.OutlierShift

/-!
# C111: the accuracy of the Hutchinson method
-/

namespace Imate.Props

open Imate.Accuracy Imate.Hutchinson Imate.Spec Imate.Convergence Imate.Lanczos Matrix

variable {n s : ℕ} {solve : Solver ℝ} {a : Assume}

/-- The Python rule for outliers, with the population standard deviation. -/
theorem python_outliers {xs : List ℝ} (h : 2 ≤ xs.length) (errorZ : XR ℝ) {z : ℝ} (hz : 1 < z) :
    ∃ q t, pyAverageEstimate errorZ (XR.fin z) (xs.map XR.fin) = some q ∧ q.trace = XR.fin t ∧
      (q.numOutliers : ℝ) * z ^ 2 ≤ xs.length ∧
      |t - mean xs| ≤ z / (z ^ 2 - 1) * populationStd xs := by
  have hne : xs ≠ [] := by rintro rfl; simp at h
  have hN : (2 : ℝ) ≤ xs.length := by exact_mod_cast h
  set q : ℝ → Bool := fun x => decide (|x - mean xs| ≤ z * populationStd xs) with hq
  have hfew := few_far_of (xs := xs) (ν := xs.length) (by linarith) (c := mean xs) (by linarith : 0 ≤ z) q fun x hx => by
    have h1 := (List.mem_filter.1 hx).2
    by_contra hc
    rw [show q x = true from decide_eq_true (not_lt.1 hc)] at h1
    cases h1
  obtain ⟨hkept, hnear⟩ := kept_near_of (xs := xs) (ν := xs.length) (by linarith) le_rfl hz q hfew
  have hlen := length_partition q xs
  have e1 : (xs.map XR.fin).filter (fun x => !isOutlier (meanOf (xs.map XR.fin))
      (FloatLike.mul (XR.fin z) (pyStdOf (xs.map XR.fin))) x) = (xs.filter q).map XR.fin := by
    rw [meanOf_fin hne, pyStdOf_fin h,
      show (FloatLike.mul (XR.fin z) (XR.fin (populationStd xs)) : XR ℝ) = XR.fin (z * populationStd xs) from rfl, List.filter_map]
    congr 1
    apply List.filter_congr
    intro x _
    simp only [Function.comp, isOutlier_fin, hq]
    rw [Bool.eq_iff_iff]
    simp
  have e2 : (xs.map XR.fin).countP (fun x => isOutlier (meanOf (xs.map XR.fin))
      (FloatLike.mul (XR.fin z) (pyStdOf (xs.map XR.fin))) x) = (xs.filter fun x => !q x).length := by
    rw [meanOf_fin hne, pyStdOf_fin h,
      show (FloatLike.mul (XR.fin z) (XR.fin (populationStd xs)) : XR ℝ) = XR.fin (z * populationStd xs) from rfl, List.countP_map,
      ← List.countP_eq_length_filter]
    apply List.countP_congr
    intro x _
    simp only [Function.comp, isOutlier_fin, hq]
    simp
  have e3 : xs.length - (xs.filter fun x => !q x).length = (xs.filter q).length := by omega
  have h0 : (xs.filter q).length ≠ 0 := fun h0 => hkept (List.length_eq_zero_iff.1 h0)
  have hm := meanOf_fin hkept
  unfold meanOf at hm
  rw [List.length_map] at hm
  unfold pyAverageEstimate
  dsimp only
  rw [e1, e2, List.length_map, e3, hm, if_neg h0]
  exact ⟨_, _, rfl, rfl, hfew, hnear⟩

/-- The loop returns when every sample does. -/
theorem sampling_returns {sample : Vec ℝ → Except PyExc ℝ} {st : Settings ℝ} {Es : List (Vec ℝ)} (hE : ∀ E ∈ Es, ∃ x, sample E = .ok x)
    (done : List (XR ℝ)) : ∃ samples conv, sampling sample st Es done = .ok (samples, conv) := by
  induction Es generalizing done with
  | nil => exact ⟨_, _, rfl⟩
  | cons E Es ih =>
    obtain ⟨x, hx⟩ := hE E List.mem_cons_self
    unfold sampling
    rw [hx, Except.ok_bind']
    dsimp only
    split
    · exact ⟨_, _, rfl⟩
    · exact ih (fun F hF => hE F (List.mem_cons_of_mem _ hF)) _

/-- The quadratic form of a scaled sign vector. -/
theorem scaled_form (hn : 1 ≤ n) (G : Matrix (Fin n) (Fin n) ℝ) (b : Fin n → Bool) :
    (n : ℝ) * (((1 / Real.sqrt n) • signVector b) ⬝ᵥ (G *ᵥ ((1 / Real.sqrt n) • signVector b))) =
      signVector b ⬝ᵥ (G *ᵥ signVector b) := by
  rw [mulVec_smul, smul_dotProduct, dotProduct_smul, smul_eq_mul, smul_eq_mul]
  have hn' : (0 : ℝ) < n := by exact_mod_cast hn
  have hq : Real.sqrt n ^ 2 = n := Real.sq_sqrt hn'.le
  have hq0 : Real.sqrt n ≠ 0 := (Real.sqrt_pos.2 hn').ne'
  calc (n : ℝ) * (1 / Real.sqrt n * (1 / Real.sqrt n * (signVector b ⬝ᵥ G *ᵥ signVector b)))
      = n / Real.sqrt n ^ 2 * (signVector b ⬝ᵥ G *ᵥ signVector b) := by field_simp
    _ = _ := by rw [hq, div_self hn'.ne', one_mul]

/-- The symmetric part of a matrix. -/
noncomputable def symmetricPart (G : Matrix (Fin n) (Fin n) ℝ) : Matrix (Fin n) (Fin n) ℝ := (1 / 2 : ℝ) • (G + Gᵀ)

theorem symmetricPart_trace (G : Matrix (Fin n) (Fin n) ℝ) : (symmetricPart G).trace = G.trace := by
  unfold symmetricPart
  rw [trace_smul, trace_add, trace_transpose, smul_eq_mul]
  ring

theorem symmetricPart_symm (G : Matrix (Fin n) (Fin n) ℝ) : (symmetricPart G).IsSymm := by
  unfold symmetricPart IsSymm
  rw [transpose_smul, transpose_add, transpose_transpose, add_comm]

theorem symmetricPart_form (G : Matrix (Fin n) (Fin n) ℝ) (v : Fin n → ℝ) : v ⬝ᵥ (symmetricPart G *ᵥ v) = v ⬝ᵥ (G *ᵥ v) := by
  unfold symmetricPart
  rw [smul_mulVec, add_mulVec, dotProduct_smul, dotProduct_add, mulVec_transpose, dotProduct_comm v (v ᵥ* G),
    ← dotProduct_mulVec, smul_eq_mul]
  ring

/-- The variance of one sample of a matrix that need not be symmetric. -/
theorem variance_sample (G : Matrix (Fin n) (Fin n) ℝ) :
    expected (fun b => (signVector b ⬝ᵥ (G *ᵥ signVector b) - G.trace) ^ 2) = 2 * offDiagonal (symmetricPart G) := by
  rw [← variance_form (symmetricPart_symm G), symmetricPart_trace]
  simp only [symmetricPart_form]

theorem sum_take_ofFn {s k : ℕ} (hk : k ≤ s) (f : Fin s → ℝ) :
    ((List.ofFn f).take k).sum = ∑ i : Fin k, f (Fin.castLE hk i) := by
  have h : (List.ofFn f).take k = List.ofFn fun i : Fin k => f (Fin.castLE hk i) := by
    apply List.ext_getElem
    · simp [hk]
    · intro i h1 h2
      simp
  rw [h, List.sum_ofFn]

/-- **C111.**  The Hutchinson method with independent random sign vectors (`orthogonalize=False`), a square matrix, an integer exponent
`p ≥ -1` (non-singular for `p ≥ 1`), at least two samples, and a threshold for outliers of more than one standard deviation.  For every
draw `w` of the `s` vectors the method returns a finite trace.  Whatever the tolerances, which decide after at least `minNumSamples`
samples when to stop, and although outliers are removed: the trace is off by `e` plus `outlierZ / (outlierZ² - 1)` times the standard
deviation of the samples used with probability at most `2 ‖off-diagonal part of the symmetric part‖² / (minNumSamples e²)`.  Missing: the
exponents and the case excluded in C35. -/
theorem hutchinson_accurate_partial (hn : 1 ≤ n) (hs : SolverSpec solve) {A : Matrix (Fin n) (Fin n) ℝ}
    (hA : Admissible a A) {p : ℤ} (hp : -1 ≤ p) (hu : 1 ≤ p → IsUnit A.det) (gram : Bool)
    (B C : Option (Matrix (Fin n) (Fin n) ℝ)) (hBC : C.isSome → B.isSome)
    (hex : ¬ (gram = true ∧ p = -1 ∧ B.isSome)) {st : Settings ℝ} (hmin : 2 ≤ st.minNumSamples) (hmax : st.minNumSamples ≤ s)
    {oz : ℝ} (hoz : st.outlierZ = XR.fin oz) (hz : 1 < oz) :
    ∃ trace std : (Fin s → Fin n → Bool) → ℝ,
      (∀ w, ∃ r, average solve (square A) (B.map square) (C.map square) gram (.int p) a st
            (List.ofFn fun i => ⟨n, (1 / Real.sqrt n) • signVector (w i)⟩) = .ok r ∧
          st.minNumSamples ≤ r.numSamplesUsed ∧ r.numSamplesUsed ≤ s ∧
          r.trace = XR.fin (trace w) ∧ (r.numOutliers : ℝ) * oz ^ 2 ≤ r.numSamplesUsed ∧
          std w = populationStd ((List.ofFn fun i => signVector (w i) ⬝ᵥ (sampledMatrix gram A p B C *ᵥ signVector (w i))).take
            r.numSamplesUsed)) ∧
      ∀ e, 0 < e →
        ∀ [DecidablePred fun w => e + oz / (oz ^ 2 - 1) * std w ≤ |trace w - (documented gram A p B C).trace|],
        probability (fun w => e + oz / (oz ^ 2 - 1) * std w ≤ |trace w - (documented gram A p B C).trace|) ≤
          2 * offDiagonal (symmetricPart (sampledMatrix gram A p B C)) / (st.minNumSamples * e ^ 2) := by
  classical
  obtain ⟨h1, h2⟩ := sample_form hs hA hp hu gram B C hBC hex
  set G := sampledMatrix gram A p B C
  let Y : (Fin n → Bool) → ℝ := fun b => signVector b ⬝ᵥ (G *ᵥ signVector b)
  have hY : ∀ b, sampleOf solve (square A) (B.map square) (C.map square) gram (.int p) a ⟨n, (1 / Real.sqrt n) • signVector b⟩ =
      .ok (Y b) := fun b => by rw [h2, scaled_form hn]
  have hret : ∀ w : Fin s → Fin n → Bool, ∃ (κ : ℕ) (conv : Bool) (q : Averaged (XR ℝ)) (t : ℝ),
      sampling (sampleOf solve (square A) (B.map square) (C.map square) gram (.int p) a) st
        (List.ofFn fun i => ⟨n, (1 / Real.sqrt n) • signVector (w i)⟩) [] =
          .ok (((List.ofFn fun i => Y (w i)).take κ).map XR.fin, conv) ∧
      st.minNumSamples ≤ κ ∧ κ ≤ s ∧
      pyAverageEstimate st.errorZ st.outlierZ (((List.ofFn fun i => Y (w i)).take κ).map XR.fin) = some q ∧ q.trace = XR.fin t ∧
      (q.numOutliers : ℝ) * oz ^ 2 ≤ κ ∧
      |t - mean ((List.ofFn fun i => Y (w i)).take κ)| ≤
        oz / (oz ^ 2 - 1) * populationStd ((List.ofFn fun i => Y (w i)).take κ) := fun w => by
    obtain ⟨samples, conv, hsam⟩ := sampling_returns (st := st)
      (sample := sampleOf solve (square A) (B.map square) (C.map square) gram (.int p) a)
      (Es := List.ofFn fun i => ⟨n, (1 / Real.sqrt n) • signVector (w i)⟩) (fun E hE => by
        obtain ⟨i, rfl⟩ := (List.mem_ofFn' _ _).1 hE
        exact ⟨_, hY _⟩) []
    obtain ⟨k1, k2, k3, k4, -⟩ := sampling_ok hsam
    simp only [List.length_nil, Nat.zero_add, List.length_ofFn, Nat.sub_zero, List.nil_append] at k1 k3 k4
    have k5 := k4 (List.ofFn fun i => Y (w i)) (by
      rw [List.map_ofFn, List.map_ofFn]
      congr 1
      funext i
      exact hY _)
    have hκ : st.minNumSamples ≤ samples.length := by
      cases conv with
      | true => exact k2 rfl
      | false => rw [k3 rfl]; exact hmax
    have hl : ((List.ofFn fun i => Y (w i)).take samples.length).length = samples.length := by
      rw [List.length_take, List.length_ofFn]
      omega
    obtain ⟨q, t, hq, ht, hc, hd⟩ := python_outliers (xs := (List.ofFn fun i => Y (w i)).take samples.length)
      (by rw [hl]; omega) st.errorZ hz
    rw [hl] at hc
    refine ⟨samples.length, conv, q, t, ?_, hκ, k1, by rw [hoz]; exact hq, ht, hc, hd⟩
    rw [hsam]
    conv_lhs => rw [k5]
  choose κ conv q t hsam hκ1 hκ2 hq ht hc hd using hret
  refine ⟨t, fun w => populationStd ((List.ofFn fun i => Y (w i)).take (κ w)), fun w => ?_, fun e he _ => ?_⟩
  · have hl : (((List.ofFn fun i => Y (w i)).take (κ w)).map (XR.fin (K := ℝ))).length = κ w := by
      rw [List.length_map, List.length_take, List.length_ofFn]
      have := hκ2 w
      omega
    refine ⟨⟨(q w).trace, (q w).error, (q w).numOutliers, κ w, conv w⟩, ?_, hκ1 w, hκ2 w, ht w, hc w, rfl⟩
    unfold average
    rw [hsam w, Except.ok_bind']
    dsimp only
    rw [hq w]
    dsimp only
    rw [hl]
  · have hm := stopped_average (s := s) Y (k₀ := st.minNumSamples) (by omega) hmax (κ := κ) (fun w => ⟨hκ1 w, hκ2 w⟩) 1 he
    rw [show expected Y = (documented gram A p B C).trace from (expected_form G).trans h1,
      show expected (fun x => (Y x - (documented gram A p B C).trace) ^ 2) = 2 * offDiagonal (symmetricPart G) by
        rw [← h1]; exact variance_sample G] at hm
    refine le_trans ?_ hm
    unfold probability
    refine div_le_div_of_nonneg_right ?_ (Nat.cast_nonneg _)
    refine Nat.cast_le.2 (Finset.card_le_card fun w hw => ?_)
    have hw' : e + oz / (oz ^ 2 - 1) * populationStd ((List.ofFn fun i => Y (w i)).take (κ w)) ≤
        |t w - (documented gram A p B C).trace| := (Finset.mem_filter.1 hw).2
    refine Finset.mem_filter.2 ⟨Finset.mem_univ _, ?_⟩
    show e ≤ |(∑ i : Fin (κ w), Y (w (Fin.castLE (hκ2 w) i))) / κ w - (documented gram A p B C).trace|
    have hmean : mean ((List.ofFn fun i => Y (w i)).take (κ w)) = (∑ i : Fin (κ w), Y (w (Fin.castLE (hκ2 w) i))) / κ w := by
      unfold mean
      rw [sum_take_ofFn (hκ2 w), List.length_take, List.length_ofFn, min_eq_left (hκ2 w)]
    have h3 := hd w
    rw [hmean] at h3
    have h4 := abs_sub_le (t w) ((∑ i : Fin (κ w), Y (w (Fin.castLE (hκ2 w) i))) / κ w) (documented gram A p B C).trace
    linarith

/-- A case with a stochastic sample: `A = [[2, 1], [0, 1]]`, `p = 1`, where `A⁻¹ = [[1/2, -1/2], [0, 1]]`; with 200 samples the chance of
being off by `1/2` plus `3/8` of a standard deviation is at most `1/200`. -/
example (hs : SolverSpec solve) :
    ∃ trace std : (Fin 200 → Fin 2 → Bool) → ℝ,
      (∀ w, ∃ r, average solve (square !![(2 : ℝ), 1; 0, 1]) none none false (.int 1) .gen
          ⟨200, 200, .fin 0, .fin 0, .fin 2, .fin 3⟩ (List.ofFn fun i => ⟨2, (1 / Real.sqrt (2 : ℕ)) • signVector (w i)⟩) = .ok r ∧
        r.trace = XR.fin (trace w)) ∧
      ∀ [DecidablePred fun w => 1 / 2 + 3 / 8 * std w ≤ |trace w - 3 / 2|],
        probability (fun w => 1 / 2 + 3 / 8 * std w ≤ |trace w - 3 / 2|) ≤ 1 / 200 := by
  have hdet : (!![(2 : ℝ), 1; 0, 1]).det = 2 := by rw [det_fin_two_of]; norm_num
  have hinv : (!![(2 : ℝ), 1; 0, 1])⁻¹ = !![1 / 2, -1 / 2; 0, 1] := by
    apply inv_eq_right_inv
    ext i j
    fin_cases i <;> fin_cases j <;> norm_num [Matrix.mul_apply, Fin.sum_univ_two]
  obtain ⟨trace, std, h1, h2⟩ := hutchinson_accurate_partial (s := 200) (a := .gen) (by norm_num) hs (A := !![(2 : ℝ), 1; 0, 1]) trivial
    (p := 1) (by norm_num) (fun _ => by rw [hdet]; norm_num) false none none (by simp) (by simp)
    (st := ⟨200, 200, .fin 0, .fin 0, .fin 2, .fin 3⟩) (by norm_num) (by norm_num) (oz := 3) rfl (by norm_num)
  refine ⟨trace, std, fun w => ?_, ?_⟩
  · obtain ⟨r, h3, -, -, h4, -⟩ := h1 w
    exact ⟨r, h3, h4⟩
  · intro _
    have hd : documented false !![(2 : ℝ), 1; 0, 1] 1 none none = !![1 / 2, -1 / 2; 0, 1] := by
      simp [documented, subject, hinv]
    have hS : sampledMatrix false !![(2 : ℝ), 1; 0, 1] 1 none none = !![1 / 2, -1 / 2; 0, 1] := by
      simp [sampledMatrix, subject, hinv]
    have ht : (!![1 / 2, -1 / 2; 0, 1] : Matrix (Fin 2) (Fin 2) ℝ).trace = 3 / 2 := by
      rw [trace_fin_two_of]; norm_num
    have hoff : offDiagonal (symmetricPart !![(1 / 2 : ℝ), -1 / 2; 0, 1]) = 1 / 8 := by
      unfold offDiagonal symmetricPart
      simp only [Fin.sum_univ_two]
      norm_num
    have h5 := h2 (1 / 2) (by norm_num)
    rw [hd, hS, ht, hoff] at h5
    norm_num at h5 ⊢
    convert h5

end Imate.Props
