import Verif.Model.Info
import Verif.Spec.Info
import Verif.Props.Convergence
import Verif.Props.ExactTrace

/-!
# C87: the dictionary `info` says what its documentation says
-/

namespace Imate.Props.Info

open Imate.Info Imate.Spec.Info Imate.Spec Direct Args Convergence Hutchinson

variable {K : Type} [Field K]

/-! ### The matrix -/

/-- **C87.**  The SLQ method and the direct methods describe a matrix in the same way, and refuse the same types. -/
theorem methods_agree (d : DType) (A : Array2 K) :
    (do slqMatrixInfo (← newMatrix d A)) = directMatrixInfo d A := by
  cases d <;> cases A <;>
    simp [newMatrix, setDataTypeName, slqMatrixInfo, directMatrixInfo, getDataTypeName, getDensity, getNnz, Operator.getNnz,
      Operator.getDensity, Array2.isSparse, Array2.value, bind, Except.bind] <;> rfl

/-- **C87.**  Type, shape and storage are those of the matrix. -/
theorem matrix_described {d : DType} {A : Array2 K} {r : MatrixInfo} (h : directMatrixInfo d A = .ok r) :
    r.dataType = d ∧ d ≠ .other ∧ r.size = (A.value.rows, A.value.cols) ∧ r.sparse = A.isSparse := by
  cases d <;> cases A <;>
    simp [directMatrixInfo, getDataTypeName, getDensity, getNnz, Array2.isSparse, Array2.value, bind, Except.bind] at h ⊢ <;>
    first
      | (subst h; exact ⟨rfl, rfl, rfl⟩)
      | (split at h
         · cases h
         · cases h
           exact ⟨rfl, rfl, rfl⟩)

/-- Whether `info` is asked for does not matter for the trace, nor for the exceptions. -/
theorem return_info_irrelevant {α : Type} (d : DType) (A : Array2 K) (t : α) :
    (directResult d A t false).map (·.1) = (directResult d A t true).map (·.1) := by
  unfold directResult
  cases directMatrixInfo d A <;> rfl

/-- The dictionary is returned exactly if it is asked for. -/
theorem info_returned {α : Type} {d : DType} {A : Array2 K} {t : α} {b : Bool} {r : α × Option MatrixInfo}
    (h : directResult d A t b = .ok r) :
    r.1 = t ∧ ((b = true ∧ ∃ i, directMatrixInfo d A = .ok i ∧ r.2 = some i) ∨ (b = false ∧ r.2 = none)) := by
  unfold directResult at h
  cases hi : directMatrixInfo d A with
  | error e => rw [hi] at h; cases h
  | ok i =>
    rw [hi] at h
    cases h
    cases b
    · exact ⟨rfl, .inr ⟨rfl, rfl⟩⟩
    · exact ⟨rfl, .inl ⟨rfl, i, rfl, rfl⟩⟩

example : ∃ r, directResult .float64 (.sparse 2 2 [(0, 1, (3 : ℚ))] : Array2 ℚ) (5 : ℚ) true = .ok r := ⟨_, rfl⟩

/-- An affine matrix function is described like `A`, whatever `B` is. -/
theorem affine_described_like_A (d : DType) (A : Array2 K) (B : Option (Array2 K)) :
    (do slqMatrixInfo (← newAffine d A B)) = (do slqMatrixInfo (← newMatrix d A)) := by
  cases d <;> cases A <;> rfl

variable [DecidableEq K]

private theorem stored {n m : ℕ} (entries : List (Fin n × Fin m × K)) {i : Fin n} {j : Fin m}
    (h : entry entries i j ≠ 0) : (i, j) ∈ entries.map fun e => (e.1, e.2.1) := by
  by_contra hc
  refine h ?_
  unfold entry
  refine List.sum_eq_zero fun x hx => ?_
  rw [List.mem_map] at hx
  obtain ⟨e, he, rfl⟩ := hx
  rw [if_neg]
  rintro ⟨rfl, rfl⟩
  exact hc (List.mem_map.2 ⟨e, he, rfl⟩)

private theorem nonzero_subset {n m : ℕ} (entries : List (Fin n × Fin m × K)) :
    (Finset.univ.filter fun ij : Fin n × Fin m => entry entries ij.1 ij.2 ≠ 0) ⊆
      (entries.map fun e => (e.1, e.2.1)).toFinset := by
  intro ij h
  rw [List.mem_toFinset]
  exact stored entries (Finset.mem_filter.1 h).2

private theorem entry_unique {n m : ℕ} : ∀ (entries : List (Fin n × Fin m × K)), StoredOnce entries → ∀ e ∈ entries,
    entry entries e.1 e.2.1 = e.2.2
  | [], _, e, he => by cases he
  | a :: es, h, e, he => by
    unfold StoredOnce at h
    rw [List.map_cons, List.nodup_cons] at h
    have ec : entry (a :: es) e.1 e.2.1 =
        (if a.1 = e.1 ∧ a.2.1 = e.2.1 then a.2.2 else 0) + entry es e.1 e.2.1 := by
      unfold entry
      rw [List.map_cons, List.sum_cons]
    rw [ec]
    rcases List.mem_cons.1 he with rfl | he
    · rw [if_pos ⟨rfl, rfl⟩]
      have : entry es e.1 e.2.1 = 0 := by
        by_contra hc
        exact h.1 (stored es hc)
      rw [this, add_zero]
    · rw [if_neg, zero_add, entry_unique es h.2 e he]
      rintro ⟨h1, h2⟩
      refine h.1 (List.mem_map.2 ⟨e, he, ?_⟩)
      rw [h1, h2]

/-- **C87.**  `nnz` is never less than the number of nonzero entries. -/
theorem nnz_ge (A : Array2 K) : numNonzero A.value.val ≤ getNnz A := by
  cases A with
  | dense M =>
    refine (Finset.card_filter_le _ _).trans ?_
    rw [Finset.card_univ, Fintype.card_prod, Fintype.card_fin, Fintype.card_fin]
    exact le_rfl
  | sparse n m entries =>
    refine (Finset.card_le_card (nonzero_subset entries)).trans ?_
    refine (List.toFinset_card_le _).trans ?_
    rw [List.length_map]
    exact le_rfl

/-- **C87.**  For a sparse matrix it is that number if and only if no position is stored twice and no zero is stored. -/
theorem nnz_sparse_iff {n m : ℕ} (entries : List (Fin n × Fin m × K)) :
    getNnz (.sparse n m entries) = numNonzero (Array2.sparse n m entries).value.val ↔
      StoredOnce entries ∧ ∀ e ∈ entries, e.2.2 ≠ 0 := by
  have hsub := nonzero_subset entries
  have h1 := Finset.card_le_card hsub
  have h2 := List.toFinset_card_le (entries.map fun e => (e.1, e.2.1))
  rw [List.length_map] at h2
  constructor
  · intro h
    have h3 : entries.length = (Finset.univ.filter fun ij : Fin n × Fin m => entry entries ij.1 ij.2 ≠ 0).card := h
    have hu : StoredOnce entries := by
      unfold StoredOnce
      rw [← Multiset.coe_nodup, ← Multiset.toFinset_card_eq_card_iff_nodup, Multiset.coe_card, List.length_map]
      exact le_antisymm h2 (by rw [h3]; exact h1)
    refine ⟨hu, fun e he => ?_⟩
    have hmem : (e.1, e.2.1) ∈ Finset.univ.filter fun ij : Fin n × Fin m => entry entries ij.1 ij.2 ≠ 0 := by
      rw [Finset.eq_of_subset_of_card_le hsub (by omega), List.mem_toFinset]
      exact List.mem_map.2 ⟨e, he, rfl⟩
    have := (Finset.mem_filter.1 hmem).2
    rwa [entry_unique entries hu e he] at this
  · rintro ⟨hu, hz⟩
    have e1 : (Finset.univ.filter fun ij : Fin n × Fin m => entry entries ij.1 ij.2 ≠ 0) =
        (entries.map fun e => (e.1, e.2.1)).toFinset := by
      refine Finset.Subset.antisymm hsub fun ij h => ?_
      rw [List.mem_toFinset, List.mem_map] at h
      obtain ⟨e, he, rfl⟩ := h
      refine Finset.mem_filter.2 ⟨Finset.mem_univ _, ?_⟩
      rw [entry_unique entries hu e he]
      exact hz e he
    show entries.length = (Finset.univ.filter fun ij : Fin n × Fin m => entry entries ij.1 ij.2 ≠ 0).card
    rw [e1, List.toFinset_card_of_nodup hu, List.length_map]

/-- **C87.**  The density of a sparse matrix is at most one if no position is stored twice. -/
theorem density_le_one {n m : ℕ} {entries : List (Fin n × Fin m × K)} (hu : StoredOnce entries) {q : ℚ}
    (h : getDensity (.sparse n m entries) = .ok q) : q = entries.length / (n * m : ℕ) ∧ 0 ≤ q ∧ q ≤ 1 := by
  unfold getDensity at h
  simp only at h
  split at h
  · cases h
  rename_i hnm
  cases h
  have hl : entries.length ≤ n * m := by
    have h1 := Finset.card_le_univ (entries.map fun e => (e.1, e.2.1)).toFinset
    rw [List.toFinset_card_of_nodup hu, List.length_map, Fintype.card_prod, Fintype.card_fin, Fintype.card_fin] at h1
    exact h1
  have hp : (0 : ℚ) < (n * m : ℕ) := by exact_mod_cast Nat.pos_of_ne_zero hnm
  refine ⟨rfl, div_nonneg (by positivity) hp.le, ?_⟩
  rw [div_le_one hp]
  exact_mod_cast hl

/-! ### The run -/

/-- **C87.**  The reported errors: the absolute error is the standard error of the samples that were kept, and the relative
error its quotient with the trace, which is never above the true one and close to it unless the trace is near `eps`. -/
theorem errors_described {xs : List ℝ} (h : 2 ≤ xs.length) {ez oz eps : ℝ} (hez : 0 ≤ ez) (he : 0 < eps)
    (hkept : 2 ≤ (retained oz xs).length) :
    ∃ e r, (runInfo (.fin ez) (.fin oz) (.fin eps) (xs.map XR.fin)).absoluteError = .fin e ∧
      (runInfo (.fin ez) (.fin oz) (.fin eps) (xs.map XR.fin)).relativeError = .fin r ∧
      e = standardError ez (retained oz xs) ∧ 0 ≤ r ∧ r * |mean (retained oz xs)| ≤ e ∧
      e ≤ r * |mean (retained oz xs)| + r * eps := by
  have hne : retained oz xs ≠ [] := by intro hc; rw [hc] at hkept; simp at hkept
  obtain ⟨h1, -, h3⟩ := estimate_is_mean_of_retained h ez oz hne
  have hpos : 0 < |mean (retained oz xs)| + eps := by positivity
  have he0 : 0 ≤ standardError ez (retained oz xs) := by
    unfold standardError
    exact div_nonneg (mul_nonneg hez (Real.sqrt_nonneg _)) (Real.sqrt_nonneg _)
  refine ⟨standardError ez (retained oz xs), standardError ez (retained oz xs) / (|mean (retained oz xs)| + eps),
    h3 hkept, ?_, rfl, div_nonneg he0 hpos.le, ?_, ?_⟩
  · unfold runInfo
    simp only
    rw [h3 hkept, h1]
    have : FloatLike.add (FloatLike.abs (XR.fin (mean (retained oz xs)))) (XR.fin eps) =
      XR.fin (|mean (retained oz xs)| + eps) := rfl
    rw [this]
    exact Convergence.div_fin _ _ hpos.ne'
  · rw [div_mul_eq_mul_div, div_le_iff₀ hpos]
    nlinarith
  · rw [← mul_add, div_mul_cancel₀ _ hpos.ne']

/-- **C87.**  The reported mean is that of the samples that were kept. -/
theorem mean_described {xs : List ℝ} (h : 2 ≤ xs.length) (ez oz eps : ℝ) (hne : retained oz xs ≠ []) :
    (runInfo (.fin ez) (.fin oz) (.fin eps) (xs.map XR.fin)).samplesMean = .fin (mean (retained oz xs)) ∧
    (runInfo (.fin ez) (.fin oz) (.fin eps) (xs.map XR.fin)).numSamplesUsed =
      (runInfo (.fin ez) (.fin oz) (.fin eps) (xs.map XR.fin)).numOutliers + (retained oz xs).length := by
  obtain ⟨h1, h2, -⟩ := estimate_is_mean_of_retained h ez oz hne
  refine ⟨h1, ?_⟩
  unfold runInfo
  simp only
  rw [h2, List.length_map]
  have : (retained oz xs).length ≤ xs.length := List.length_filter_le _ _
  omega

/-- **C87.**  With a GPU, or with the default argument, the number of devices is right. -/
theorem devices_described_partial (gpu : Bool) (n available : ℕ) (h : gpu = true ∨ n = 0) :
    reportedDevices gpu n available = devicesUsed gpu n available := by
  cases gpu with
  | true =>
    cases n <;> rfl
  | false =>
    have := h.resolve_left (by simp)
    subst this
    rfl

/-- **C87.**  While the clock of the system advances evenly, the time of the algorithm is within the total time.  `clock t`
is its reading at time `t`, `perf_counter` counts from `c`. -/
theorem times_described {clock : ℝ → Option ℝ} {offset : ℝ} (hclock : ∀ t, clock t = some (t + offset)) (c : ℝ)
    {t0 s e t1 : ℝ} (h0 : t0 ≤ s) (h1 : s ≤ e) (h2 : e ≤ t1) :
    ∃ a, algWallTime (clock s) (clock e) = .fin a ∧ a = e - s ∧ 0 ≤ a ∧ a ≤ totWallTime (t0 - c) (t1 - c) := by
  refine ⟨e - s, ?_, rfl, by linarith, ?_⟩
  · rw [hclock, hclock]
    unfold algWallTime getWallTime
    show XR.fin ((e + offset) - (s + offset)) = _
    congr 1
    ring
  · unfold totWallTime
    linarith

/-- **C87.**  Three of the four percentages of the summary are right. -/
theorem percents_described_partial (r tol level confidence : K) :
    (printedPercents r tol level confidence).relativeError = 100 * r ∧
    (printedPercents r tol level confidence).errorRtol = 100 * tol ∧
    (printedPercents r tol level confidence).confidenceLevel = 100 * confidence := by
  unfold printedPercents
  exact ⟨mul_comm _ _, mul_comm _ _, mul_comm _ _⟩

/-! ### Negations -/

/-- A dense matrix with a zero entry has a wrong number of nonzero entries, and no other dense matrix has. -/
theorem nnz_dense_wrong (M : Mat K) :
    getNnz (.dense M) ≠ numNonzero M.val ↔ ∃ i j, M.val i j = 0 := by
  have hc : (Finset.univ : Finset (Fin M.rows × Fin M.cols)).card = M.rows * M.cols := by
    rw [Finset.card_univ, Fintype.card_prod, Fintype.card_fin, Fintype.card_fin]
  constructor
  · intro h
    by_contra hn
    push Not at hn
    refine h ?_
    unfold numNonzero getNnz
    rw [Finset.filter_true_of_mem (fun ij _ => hn ij.1 ij.2), hc]
  · rintro ⟨i, j, h⟩ he
    unfold numNonzero getNnz at he
    simp only at he
    have : (Finset.univ.filter fun ij : Fin M.rows × Fin M.cols => M.val ij.1 ij.2 ≠ 0).card <
        (Finset.univ : Finset (Fin M.rows × Fin M.cols)).card := by
      refine Finset.card_lt_card ⟨Finset.filter_subset _ _, fun hs => ?_⟩
      exact (Finset.mem_filter.1 (hs (Finset.mem_univ (i, j)))).2 h
    omega

/-- A sparse matrix can have a density above one: a position stored twice. -/
theorem density_above_one : ∃ A : Array2 ℚ, A.value.rows = 1 ∧ A.value.cols = 1 ∧ getDensity A = .ok 2 :=
  ⟨.sparse 1 1 [(0, 0, 1), (0, 0, 1)], rfl, rfl, by
    unfold getDensity
    simp only [getNnz]
    norm_num⟩

/-- Every sparse matrix without rows or columns raises, after the trace was computed. -/
theorem empty_sparse_raises {α : Type} {d : DType} (hd : d ≠ .other) {n m : ℕ} (h : n = 0 ∨ m = 0)
    (entries : List (Fin n × Fin m × K)) (t : α) (b : Bool) :
    directResult d (.sparse n m entries) t b = .error .zeroDivision := by
  have : n * m = 0 := by rcases h with rfl | rfl <;> simp
  cases d <;> simp_all [directResult, directMatrixInfo, getDataTypeName, getDensity, bind, Except.bind]

/-- The description of an affine matrix function is that of `A` alone: here `A + t I` has a nonzero entry for every
`t ≠ 0`, and none is reported. -/
theorem affine_described_by_A :
    ∃ A : Array2 ℚ, (∃ op, newAffine .float64 A none = .ok op ∧
      (slqMatrixInfo op).map (·.nnz) = .ok 0) ∧ A.value.rows = 1 ∧
      ∀ t : ℚ, t ≠ 0 → numNonzero ((fun _ _ => t) : Matrix (Fin 1) (Fin 1) ℚ) = 1 := by
  refine ⟨.sparse 1 1 [], ⟨_, rfl, rfl⟩, rfl, fun t ht => ?_⟩
  unfold numNonzero
  rw [Finset.filter_true_of_mem (fun _ _ => ht)]
  rfl

/-- The documentation says that outliers are subtracted from `num_samples_used`: they never are. -/
theorem used_includes_outliers {xs : List ℝ} (h : 2 ≤ xs.length) (ez oz eps : ℝ) (hne : retained oz xs ≠ [])
    (hout : (retained oz xs).length < xs.length) :
    (runInfo (.fin ez) (.fin oz) (.fin eps) (xs.map XR.fin)).numSamplesUsed ≠
      xs.length - (runInfo (.fin ez) (.fin oz) (.fin eps) (xs.map XR.fin)).numOutliers := by
  obtain ⟨-, h2, -⟩ := estimate_is_mean_of_retained h ez oz hne
  unfold runInfo
  simp only
  rw [h2, List.length_map]
  omega

private theorem four_mean : mean [0, 0, 0, 4] = 1 := by norm_num [mean]

private theorem four_std : sampleStd [0, 0, 0, 4] = 2 := by
  unfold sampleStd
  rw [four_mean]
  have : sqDev 1 [0, 0, 0, 4] / (([0, 0, 0, 4] : List ℝ).length - 1) = 2 ^ 2 := by norm_num [sqDev]
  rw [this, Real.sqrt_sq (by norm_num)]

private theorem four_retained : retained 1 [0, 0, 0, 4] = [0, 0, 0] := by
  unfold retained
  rw [four_mean, four_std]
  norm_num [List.filter_cons]

/-- `samples_mean` is not the mean of the samples: here that is 1, and 0 is reported. -/
theorem samples_mean_wrong : ∃ xs : List ℝ, mean xs = 1 ∧ ∀ ez eps : ℝ,
    (runInfo (.fin ez) (.fin 1) (.fin eps) (xs.map XR.fin)).samplesMean = .fin 0 := by
  refine ⟨[0, 0, 0, 4], four_mean, fun ez eps => ?_⟩
  have := (mean_described (xs := [0, 0, 0, 4]) (by norm_num) ez 1 eps (by rw [four_retained]; simp)).1
  rw [four_retained] at this
  rw [this]
  norm_num [mean]

/-- The relative error is too small by any factor `1 + k` if the trace is near enough to zero: at most `eps / k`. -/
theorem relative_error_small {xs : List ℝ} (h : 2 ≤ xs.length) {ez oz eps : ℝ} (hez : 0 ≤ ez) (he : 0 < eps)
    (hkept : 2 ≤ (retained oz xs).length) {k : ℝ} (hk : 0 < k) (hsmall : k * |mean (retained oz xs)| ≤ eps) {e r : ℝ}
    (ha : (runInfo (.fin ez) (.fin oz) (.fin eps) (xs.map XR.fin)).absoluteError = .fin e)
    (hr : (runInfo (.fin ez) (.fin oz) (.fin eps) (xs.map XR.fin)).relativeError = .fin r) :
    r * ((1 + k) * |mean (retained oz xs)|) ≤ e := by
  obtain ⟨e', r', h1, h2, h3, h4, -, h6⟩ := errors_described h hez he hkept
  rw [ha] at h1
  rw [hr] at h2
  cases h1
  cases h2
  have hne : retained oz xs ≠ [] := by intro hc; rw [hc] at hkept; simp at hkept
  have hexact : r * (|mean (retained oz xs)| + eps) = e := by
    obtain ⟨g1, -, g3⟩ := estimate_is_mean_of_retained h ez oz hne
    unfold runInfo at hr ha
    simp only at hr ha
    rw [ha, g1] at hr
    have hpos : 0 < |mean (retained oz xs)| + eps := by positivity
    have : FloatLike.add (FloatLike.abs (XR.fin (mean (retained oz xs)))) (XR.fin eps) =
      XR.fin (|mean (retained oz xs)| + eps) := rfl
    rw [this, Convergence.div_fin _ _ hpos.ne'] at hr
    cases hr
    exact div_mul_cancel₀ _ hpos.ne'
  nlinarith

/-- Without a GPU the argument is reported as the number of devices used. -/
theorem devices_wrong (n available : ℕ) (h : n ≠ 0) :
    reportedDevices false n available ≠ devicesUsed false n available := h

/-- If the clock of the system is set back during the computation by more than it took, the time is negative. -/
theorem time_negative {s e back : ℝ} (h : e - s < back) :
    ∃ a, algWallTime (some s) (some (e - back)) = .fin a ∧ a < 0 :=
  ⟨(e - back) - s, rfl, by linarith⟩

/-- A clock that cannot be read is reported as `nan`, without an exception. -/
theorem time_unreadable (s : Option ℝ) : algWallTime s none = .nan := by
  cases s <;> rfl

/-- The significance level of outliers is printed with a percent sign and without the factor 100. -/
theorem outlier_percent_wrong [CharZero K] (r tol level confidence : K) (h : level ≠ 0) :
    (printedPercents r tol level confidence).outlierLevel ≠ 100 * level := by
  intro hc
  have h2 : (100 : K) * level - level = 0 := sub_eq_zero.2 hc.symm
  have h3 : (99 : K) * level = 0 := by rw [← h2]; ring
  rcases mul_eq_zero.1 h3 with h4 | h4
  · norm_num at h4
  · exact h h4

/-! ### The hypotheses are met -/

example : directMatrixInfo .float64 (.sparse 2 2 [(0, 0, (1 : ℚ)), (1, 0, 3)]) =
    .ok ⟨.float64, (2, 2), true, 2, 1 / 2⟩ := by
  simp [directMatrixInfo, getDataTypeName, getDensity, getNnz, bind, Except.bind, Array2.value, Array2.isSparse]
  norm_num

example : StoredOnce [((0 : Fin 2), (0 : Fin 2), (1 : ℚ)), (1, 0, 3)] := by unfold StoredOnce; decide

example := errors_described (xs := [0, 0, 0, 4]) (by norm_num) (ez := 2) (oz := 1) (eps := 1 / 10) (by norm_num)
  (by norm_num) (by rw [four_retained]; norm_num)

example := relative_error_small (xs := [1, 3]) (by norm_num) (ez := 1) (oz := 2) (eps := 4) (k := 2) (by norm_num)
  (by norm_num)

example := used_includes_outliers (xs := [0, 0, 0, 4]) (by norm_num) 2 1 1 (by rw [four_retained]; simp)
  (by rw [four_retained]; norm_num)

end Imate.Props.Info
