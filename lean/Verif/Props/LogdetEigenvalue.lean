import Verif.Props.Eigenvalue

/-!
# C36 (eigenvalue method of `logdet`), and the assumptions about LAPACK and ARPACK
-/

namespace Imate.Props

open Imate.Hutchinson Imate.Direct Imate.Eigen Imate.Spec Matrix

variable {n m : ℕ} {lib : Eigen.Lib}

/-! ### The assumptions can be met -/

theorem exists_singular (M : Matrix (Fin m) (Fin n) ℝ) : ∃ l : List ℝ, l.length = min m n ∧
    ((l.map (· ^ 2) : List ℝ) : Multiset ℝ) + Multiset.replicate (n - min m n) 0 = realEigenvalues (Mᵀ * M) := by
  have key : ∀ {a b : ℕ} (B : Matrix (Fin a) (Fin b) ℝ), ∃ l : List ℝ, l.length = b ∧
      ((l.map (· ^ 2) : List ℝ) : Multiset ℝ) = realEigenvalues (Bᵀ * B) := by
    intro a b B
    refine ⟨(realEigenvalues (Bᵀ * B)).toList.map Real.sqrt, ?_, ?_⟩
    · rw [List.length_map, Multiset.length_toList]
      unfold realEigenvalues
      rw [Matrix.IsHermitian.roots_charpoly_eq_eigenvalues (A := Bᵀ * B) (gram_symm B)]
      simp
    · rw [List.map_map]
      conv_rhs => rw [← Multiset.coe_toList (realEigenvalues (Bᵀ * B))]
      congr 1
      conv_rhs => rw [← List.map_id (realEigenvalues (Bᵀ * B)).toList]
      apply List.map_congr_left
      intro x hx
      exact Real.sq_sqrt (gram_eigenvalues (Multiset.mem_toList.1 hx))
  rcases le_total n m with h | h
  · obtain ⟨l, h1, h2⟩ := key M
    exact ⟨l, by rw [h1, min_eq_right h], by rw [h2, min_eq_right h, Nat.sub_self]; simp⟩
  · obtain ⟨l, h1, h2⟩ := key Mᵀ
    refine ⟨l, by rw [h1, min_eq_left h], ?_⟩
    rw [h2, min_eq_left h]
    unfold realEigenvalues
    rw [transpose_transpose, charpoly_mul_comm_of_le Mᵀ M (by simpa using h), Polynomial.roots_mul]
    · simp [add_comm, Multiset.nsmul_singleton]
    · exact mul_ne_zero (pow_ne_zero _ Polynomial.X_ne_zero) (charpoly_monic _).ne_zero

theorem eigSpec_satisfiable : ∃ lib, EigSpec lib := by
  classical
  refine ⟨{ eig := fun n A => (complexEigenvalues A).toList
            eigh := fun n A => (realEigenvalues (lowerSymm A)).toList
            svd := fun m n A => (exists_singular A).choose
            svdh := fun n A => (realEigenvalues (lowerSymm A)).toList.map (|·|)
            eigs := fun _ k n A => if k ≤ Multiset.card (complexEigenvalues A) then
              .ok ((complexEigenvalues A).toList.take k) else .error .valueError
            eigsh := fun _ k n A => if k ≤ Multiset.card (realEigenvalues (lowerSymm A)) then
              .ok ((realEigenvalues (lowerSymm A)).toList.take k) else .error .valueError
            svds := fun _ k m n A => if k ≤ min m n then
              .ok ((exists_singular A).choose.take k) else .error .valueError },
    fun n A => Multiset.coe_toList _, fun n A => Multiset.coe_toList _,
    fun m n A => (exists_singular A).choose_spec.1, fun m n A => (exists_singular A).choose_spec.2, ?_, ?_, ?_, ?_⟩
  · intro n A
    simp only
    rw [← Multiset.map_coe, Multiset.coe_toList]
  · intro w k n A l h
    simp only at h
    split_ifs at h with hk
    cases h
    refine ⟨by simpa using hk, ?_⟩
    conv_rhs => rw [← Multiset.coe_toList (complexEigenvalues A)]
    exact Multiset.coe_le.2 (List.take_sublist _ _).subperm
  · intro w k n A l h
    simp only at h
    split_ifs at h with hk
    cases h
    refine ⟨by simpa using hk, ?_⟩
    conv_rhs => rw [← Multiset.coe_toList (realEigenvalues (lowerSymm A))]
    exact Multiset.coe_le.2 (List.take_sublist _ _).subperm
  · intro w k m n A l h
    simp only at h
    split_ifs at h with hk
    cases h
    obtain ⟨h1, h2⟩ := (exists_singular A).choose_spec
    refine ⟨by rw [List.length_take, h1]; omega, hk, ?_⟩
    refine le_trans ?_ (le_trans (Multiset.le_add_right _ _) h2.le)
    exact Multiset.coe_le.2 ((List.take_sublist _ _).map _).subperm

/-! ### The log-determinant -/

theorem toComplex_real (l : List ℝ) : toComplex (.real (l.map some)) = l.map (fun x : ℝ => (x : ℂ)) := by
  unfold toComplex
  simp only
  rw [filterMap_some]

theorem prod_ofReal (l : List ℝ) : ((l.map (fun x : ℝ => (x : ℂ)) : List ℂ) : Multiset ℂ).prod =
    ((l : Multiset ℝ).prod : ℝ) := by
  induction l with
  | nil => simp
  | cons x l ih =>
    simp only [Multiset.prod_coe] at ih ⊢
    rw [List.map_cons, List.prod_cons, List.prod_cons, ih]
    push_cast
    rfl

/-- The real result, with the factors. -/
theorem logdetBranch_pos {A : Array2 ℝ} {p : ℝ} {st : Settings} {l : Eigs} {d : ℝ}
    (hl : ((toComplex l : List ℂ) : Multiset ℂ).prod = d) (hd : 0 < d) :
    logdetBranch A p st l =
      .ok (some (.real (p * ((if st.gram && decide (A.value.rows = A.value.cols) then 2 else 1) *
        Real.log d)))) := by
  unfold logdetBranch
  by_cases hp : p = 0
  · rw [if_pos hp, hp, zero_mul]
  rw [if_neg hp]
  obtain ⟨w, h1, h2⟩ := exp_sum_log (l := toComplex l) (by
    intro z hz h0
    rw [Multiset.prod_eq_zero (by rw [← h0]; exact hz)] at hl
    have : d = 0 := by exact_mod_cast hl.symm
    exact hd.ne' this)
  rw [h1]
  unfold finishLogdet
  simp only
  rw [(roundImag_real (imagTol_pos _ _) _ (h2.trans hl)).1 hd, Except.ok_bind']
  unfold applyExponent
  split_ifs with h
  · simp only [Num.scale]
    congr 3
    ring
  · simp only [Num.scale]
    congr 3
    ring

/-- The complex result. -/
theorem logdetBranch_neg {A : Array2 ℝ} {p : ℝ} (hp : p ≠ 0) {st : Settings} {l : Eigs} {d : ℝ}
    (hl : ((toComplex l : List ℂ) : Multiset ℂ).prod = d) (hd : d < 0) :
    logdetBranch A p st l =
      .ok (some (.cplx (p * ((if st.gram && decide (A.value.rows = A.value.cols) then 2 else 1) *
        (Real.log |d| + Real.pi * Complex.I))))) := by
  unfold logdetBranch
  rw [if_neg hp]
  obtain ⟨w, h1, h2⟩ := exp_sum_log (l := toComplex l) (by
    intro z hz h0
    rw [Multiset.prod_eq_zero (by rw [← h0]; exact hz)] at hl
    have : d = 0 := by exact_mod_cast hl.symm
    exact hd.ne this)
  rw [h1]
  unfold finishLogdet
  simp only
  rw [(roundImag_real (imagTol_pos _ _) _ (h2.trans hl)).2 hd, Except.ok_bind']
  unfold applyExponent
  split_ifs with h
  · simp only [Num.scale]
    congr 3
    push_cast
    ring
  · simp only [Num.scale]
    congr 3
    ring

theorem sumOpt_none {α : Type} [Add α] [Zero α] {l : List (Option α)} (h : none ∈ l) : sumOpt l = none := by
  induction l with
  | nil => cases h
  | cons x l ih =>
    cases x with
    | none => rfl
    | some x =>
      have : none ∈ l := by simpa using h
      simp only [sumOpt, ih this, Option.map_none]

/-- The infinite result. -/
theorem logdetBranch_zero {A : Array2 ℝ} {p : ℝ} (hp : p ≠ 0) {st : Settings} {l : Eigs}
    (hl : ((toComplex l : List ℂ) : Multiset ℂ).prod = 0) : logdetBranch A p st l = .ok none := by
  unfold logdetBranch
  rw [if_neg hp, sumOpt_none]
  · rfl
  · rw [Multiset.prod_eq_zero_iff] at hl
    refine List.mem_map.2 ⟨0, hl, ?_⟩
    unfold logC
    rw [if_pos rfl]

/-- The eigenvalues that the method takes for a dense square matrix multiply to the determinant. -/
theorem logdet_choose_square (hlib : EigSpec lib) (M : Matrix (Fin n) (Fin n) ℝ) {st : Settings}
    (hs : st.sym = true → M.IsSymm) :
    ∃ l, logdetChoose lib (.dense (square M)) none st = .ok l ∧
      ((toComplex l : List ℂ) : Multiset ℂ).prod = (M.det : ℝ) := by
  cases h : st.sym with
  | false =>
    refine ⟨.cplx ((lib.eig n M).map some), ?_, ?_⟩
    · unfold logdetChoose logdetEigenvalues
      simp only
      rw [if_pos (by rfl), if_neg (by simp [Array2.isSparse]), h, if_neg (by simp)]
      exact Eigen.withSquare_square _ M
    · unfold toComplex
      simp only
      rw [filterMap_some, hlib.eig_ok, det_eq_prod_eigenvalues]
  | true =>
    have hM := hs h
    refine ⟨.real ((lib.eigh n M).map some), ?_, ?_⟩
    · unfold logdetChoose logdetEigenvalues
      simp only
      rw [if_pos (by rfl), if_neg (by simp [Array2.isSparse]), h, if_pos rfl]
      exact Eigen.withSquare_square _ M
    · rw [toComplex_real, prod_ofReal, hlib.eigh_ok, lowerSymm_of_isSymm hM]
      unfold realEigenvalues
      have hH : M.IsHermitian := hM
      rw [hH.roots_charpoly_eq_eigenvalues, hH.det_eq_prod_eigenvalues]
      rfl

/-- C36, eigenvalue method: for every dense square matrix with positive determinant the result is the real number
`p log det A`, and `p log det (AᵀA)` for `gram=True`. -/
theorem logdet_eigenvalue_pos (hlib : EigSpec lib) {M : Matrix (Fin n) (Fin n) ℝ} (hd : 0 < M.det) (p : ℝ)
    {st : Settings} (hq : ValidFraction st) (hs : st.sym = true → M.IsSymm) :
    logdetEigenvalue lib (.dense (square M)) p none st =
      .ok (some (.real (p * Real.log (if st.gram then (Mᵀ * M).det else M.det)))) := by
  unfold logdetEigenvalue
  refine (dense_start (M := M) hq (Or.inr rfl) _).trans ?_
  obtain ⟨l, h1, h2⟩ := logdet_choose_square hlib M hs
  rw [h1, Except.ok_bind', logdetBranch_pos h2 hd]
  cases st.gram
  · simp
  · simp [det_mul, det_transpose, Array2.value, square, Real.log_mul hd.ne' hd.ne', two_mul]

/-- For a negative determinant the result is complex, also for `gram=True`, where the determinant of `AᵀA` is
positive. -/
theorem logdet_eigenvalue_neg (hlib : EigSpec lib) {M : Matrix (Fin n) (Fin n) ℝ} (hd : M.det < 0) {p : ℝ}
    (hp : p ≠ 0) {st : Settings} (hq : ValidFraction st) (hs : st.sym = true → M.IsSymm) :
    ∃ z : ℂ, logdetEigenvalue lib (.dense (square M)) p none st = .ok (some (.cplx z)) ∧
      z.re = p * Real.log (if st.gram then (Mᵀ * M).det else |M.det|) ∧ z.im ≠ 0 := by
  unfold logdetEigenvalue
  rw [show ∀ α (k : Except PyExc α), (checkSizes (.dense (square M)) none st.gram >>= fun _ =>
    checkFraction st.fraction >>= fun _ => k) = k from fun α k => dense_start (M := M) hq (Or.inr rfl) k]
  obtain ⟨l, h1, h2⟩ := logdet_choose_square hlib M hs
  rw [h1, Except.ok_bind', logdetBranch_neg hp h2 hd]
  refine ⟨_, rfl, ?_, ?_⟩
  · cases st.gram
    · simp
    · simp [det_mul, det_transpose, Array2.value, square, Real.log_mul hd.ne hd.ne, two_mul]
  · cases st.gram
    · simp [hp, Real.pi_ne_zero]
    · simp [Array2.value, square, hp, Real.pi_ne_zero]

/-- For a singular matrix the result is infinite. -/
theorem logdet_eigenvalue_singular (hlib : EigSpec lib) {M : Matrix (Fin n) (Fin n) ℝ} (hd : M.det = 0) {p : ℝ}
    (hp : p ≠ 0) {st : Settings} (hq : ValidFraction st) (hs : st.sym = true → M.IsSymm) :
    logdetEigenvalue lib (.dense (square M)) p none st = .ok none := by
  unfold logdetEigenvalue
  refine (dense_start (M := M) hq (Or.inr rfl) _).trans ?_
  obtain ⟨l, h1, h2⟩ := logdet_choose_square hlib M hs
  rw [h1, Except.ok_bind', logdetBranch_zero hp (by rw [h2, hd]; simp)]

theorem gram_det_prod (M : Matrix (Fin m) (Fin n) ℝ) : (Mᵀ * M).det = (realEigenvalues (Mᵀ * M)).prod := by
  unfold realEigenvalues
  rw [Matrix.IsHermitian.roots_charpoly_eq_eigenvalues (A := Mᵀ * M) (gram_symm M),
    Matrix.IsHermitian.det_eq_prod_eigenvalues (A := Mᵀ * M) (gram_symm M)]
  rfl

theorem logdet_choose_rect {M : Matrix (Fin m) (Fin n) ℝ} (h : m ≠ n) {st : Settings} :
    logdetChoose lib (.dense ⟨m, n, M⟩) none st = .ok (.real (((lib.svd m n M).map (· ^ 2)).map some)) := by
  unfold logdetChoose logdetSingular
  simp only
  rw [if_neg (by simpa [Array2.value] using h), if_neg (by simp [Array2.isSparse]), List.map_map]
  rfl

/-- C36, eigenvalue method with `gram=True`, for every matrix with more rows than columns and full column rank. -/
theorem logdet_eigenvalue_tall (hlib : EigSpec lib) {M : Matrix (Fin m) (Fin n) ℝ} (h : n < m)
    (hM : (Mᵀ * M).PosDef) (p : ℝ) {st : Settings} (hq : ValidFraction st) (hg : st.gram = true) :
    logdetEigenvalue lib (.dense ⟨m, n, M⟩) p none st =
      .ok (some (.real (p * Real.log (Mᵀ * M).det))) := by
  unfold logdetEigenvalue
  rw [dense_start (M := M) hq (Or.inl hg), logdet_choose_rect (by omega), Except.ok_bind',
    logdetBranch_pos (d := (Mᵀ * M).det) _ hM.det_pos]
  · rw [if_neg]
    · simp
    · intro hc
      have : m = n := of_decide_eq_true ((Bool.and_eq_true _ _).mp hc).2
      omega
  · rw [toComplex_real, prod_ofReal, gram_det_prod, ← hlib.svd_ok, min_eq_right h.le, Nat.sub_self]
    simp

/-- For a matrix with more columns than rows, for which `AᵀA` is singular, the result is a finite number: the
log-determinant of `AAᵀ`. -/
theorem logdet_eigenvalue_wide_wrong (hlib : EigSpec lib) {M : Matrix (Fin m) (Fin n) ℝ} (h : m < n)
    (hM : (M * Mᵀ).PosDef) (p : ℝ) {st : Settings} (hq : ValidFraction st) (hg : st.gram = true) :
    (Mᵀ * M).det = 0 ∧ logdetEigenvalue lib (.dense ⟨m, n, M⟩) p none st =
      .ok (some (.real (p * Real.log (M * Mᵀ).det))) := by
  have hroots := hlib.svd_ok m n M
  rw [min_eq_left h.le] at hroots
  have hzero : (Mᵀ * M).det = 0 := by
    rw [gram_det_prod, ← hroots, Multiset.prod_add, Multiset.prod_replicate, zero_pow (by omega), mul_zero]
  refine ⟨hzero, ?_⟩
  unfold logdetEigenvalue
  rw [dense_start (M := M) hq (Or.inl hg), logdet_choose_rect (by omega), Except.ok_bind',
    logdetBranch_pos (d := (M * Mᵀ).det) _ hM.det_pos]
  · rw [if_neg]
    · simp
    · intro hc
      have : m = n := of_decide_eq_true ((Bool.and_eq_true _ _).mp hc).2
      omega
  · have h2 : realEigenvalues (Mᵀ * M) = Multiset.replicate (n - m) 0 + realEigenvalues (M * Mᵀ) := by
      unfold realEigenvalues
      rw [charpoly_mul_comm_of_le Mᵀ M (by simpa using h.le), Polynomial.roots_mul]
      · simp [Multiset.nsmul_singleton]
      · exact mul_ne_zero (pow_ne_zero _ Polynomial.X_ne_zero) (charpoly_monic _).ne_zero
    rw [h2, add_comm] at hroots
    have h3 := add_left_cancel hroots
    rw [toComplex_real, prod_ofReal, h3]
    have := gram_det_prod Mᵀ
    rw [transpose_transpose] at this
    rw [this]

/-! ### Concrete cases -/

example (hlib : EigSpec lib) : logdetEigenvalue lib (.dense (square !![0, -1; 1, 0])) 2 none
    ⟨false, false, 9 / 10⟩ = .ok (some (.real (2 * Real.log (!![0, -1; 1, 0] : Matrix (Fin 2) (Fin 2) ℝ).det))) :=
  logdet_eigenvalue_pos hlib (by rw [det_fin_two]; norm_num) 2 (by constructor <;> norm_num) (by intro h; cases h)

/-- `logdet([[0, 1], [1, 0]], gram=True)` is complex. -/
example (hlib : EigSpec lib) : ∃ z : ℂ, logdetEigenvalue lib (.dense (square !![0, 1; 1, 0])) 1 none
    ⟨true, true, 9 / 10⟩ = .ok (some (.cplx z)) ∧
      z.re = 1 * Real.log ((!![0, 1; 1, 0] : Matrix (Fin 2) (Fin 2) ℝ)ᵀ * !![0, 1; 1, 0]).det ∧ z.im ≠ 0 :=
  logdet_eigenvalue_neg hlib (by rw [det_fin_two]; norm_num) one_ne_zero (by constructor <;> norm_num)
    (by intro _; ext i j; fin_cases i <;> fin_cases j <;> rfl)

example (hlib : EigSpec lib) : logdetEigenvalue lib (.dense (square !![1, 1; 1, 1])) 1 none
    ⟨false, true, 9 / 10⟩ = .ok none :=
  logdet_eigenvalue_singular hlib (by rw [det_fin_two]; norm_num) one_ne_zero (by constructor <;> norm_num)
    (by intro _; ext i j; fin_cases i <;> fin_cases j <;> rfl)

theorem posDef_one_one (x : ℝ) (hx : 0 < x) : (!![x] : Matrix (Fin 1) (Fin 1) ℝ).PosDef := by
  have : (!![x] : Matrix (Fin 1) (Fin 1) ℝ) = diagonal fun _ => x := by
    ext i j
    fin_cases i
    fin_cases j
    rfl
  rw [this, posDef_diagonal_iff]
  intro _
  exact hx

/-- The column `(1, 2)` and the row `(1, 2)`. -/
example (hlib : EigSpec lib) : logdetEigenvalue lib (.dense ⟨2, 1, !![1; 2]⟩) 3 none ⟨true, false, 9 / 10⟩ =
    .ok (some (.real (3 * Real.log ((!![1; 2] : Matrix (Fin 2) (Fin 1) ℝ)ᵀ * (!![1; 2] : Matrix (Fin 2) (Fin 1) ℝ)).det))) := by
  refine logdet_eigenvalue_tall hlib Nat.one_lt_two ?_ 3 (by constructor <;> norm_num) rfl
  have : (!![1; 2] : Matrix (Fin 2) (Fin 1) ℝ)ᵀ * (!![1; 2] : Matrix (Fin 2) (Fin 1) ℝ) = !![5] := by
    ext i j
    fin_cases i
    fin_cases j
    simp [Matrix.mul_apply, Fin.sum_univ_two]
    norm_num
  rw [this]
  exact posDef_one_one 5 (by norm_num)

example (hlib : EigSpec lib) : ((!![1, 2] : Matrix (Fin 1) (Fin 2) ℝ)ᵀ * (!![1, 2] : Matrix (Fin 1) (Fin 2) ℝ)).det = 0 ∧
    logdetEigenvalue lib (.dense ⟨1, 2, !![1, 2]⟩) 1 none ⟨true, false, 9 / 10⟩ =
    .ok (some (.real (1 * Real.log ((!![1, 2] : Matrix (Fin 1) (Fin 2) ℝ) * (!![1, 2] : Matrix (Fin 1) (Fin 2) ℝ)ᵀ).det))) := by
  refine logdet_eigenvalue_wide_wrong hlib Nat.one_lt_two ?_ 1 (by constructor <;> norm_num) rfl
  have : (!![1, 2] : Matrix (Fin 1) (Fin 2) ℝ) * (!![1, 2] : Matrix (Fin 1) (Fin 2) ℝ)ᵀ = !![5] := by
    ext i j
    fin_cases i
    fin_cases j
    simp [Matrix.mul_apply, Fin.sum_univ_two]
    norm_num
  rw [this]
  exact posDef_one_one 5 (by norm_num)

end Imate.Props
