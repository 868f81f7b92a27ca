import Verif.Lemmas.Cholesky
import Verif.Props.ExactTrace
import Mathlib.Data.Matrix.Reflection

/-!
# C34, C36 (Cholesky method) and C53
-/

namespace Imate.Props

open Imate.Hutchinson Imate.Direct Imate.Spec Matrix

variable {n m : ℕ}

/-- The assumptions on SciPy and scikit-sparse can be met. -/
theorem libSpec_satisfiable : ∃ lib : Lib, LibSpec lib := libSpec_exists

/-! ### C53: `sparse_cholesky` -/

/-- C53: for every symmetric matrix `sparse_cholesky` returns if and only if the matrix is positive definite, and
what it returns is the Cholesky factor. -/
theorem sparse_cholesky_symmetric {lib : Lib} (hlib : LibSpec lib) {A : Matrix (Fin n) (Fin n) ℝ}
    (hA : A.IsSymm) :
    (A.PosDef → ∃ L, sparseCholesky lib n A = .ok L ∧ IsCholesky L A) ∧
    (¬ A.PosDef → ∃ e, sparseCholesky lib n A = .error e) := by
  refine ⟨sparseCholesky_ok hlib, fun h => ?_⟩
  cases hc : sparseCholesky lib n A with
  | error e => exact ⟨e, rfl⟩
  | ok L => exact absurd (cholesky_posDef (sparseCholesky_sound hlib hA hc)) h

/-- The symmetry is not checked: a matrix that is not symmetric is accepted, and the product of the factor
and its transpose is another matrix. -/
theorem sparse_cholesky_nonsymmetric_accepted {lib : Lib} (hlib : LibSpec lib) :
    ∃ (A L : Matrix (Fin 2) (Fin 2) ℝ), ¬ A.IsSymm ∧ sparseCholesky lib 2 A = .ok L ∧ L * Lᵀ ≠ A := by
  have hlu : IsLU (1 : Matrix (Fin 2) (Fin 2) ℝ) !![1, 1; 0, 1] !![1, 1; 0, 1] := by
    refine ⟨?_, ?_, ?_, ?_, Matrix.one_mul _⟩
    · intro i j h
      exact one_apply_ne h.ne
    · intro i
      exact one_apply_eq i
    · intro i j h
      fin_cases i <;> fin_cases j <;> simp_all
    · intro i
      fin_cases i <;> simp
  obtain ⟨lu, hl, hp⟩ := hlib.splu_natural 2 _ ⟨_, _, hlu⟩
  obtain ⟨-, hc, A', hA', e⟩ := hlib.splu_ok 2 _ lu hl
  have : A' = !![1, 1; 0, 1] := by
    ext i j
    rw [e i j, hp, hc]
    rfl
  subst this
  obtain ⟨hL, hU⟩ := lu_unique hA' hlu
  refine ⟨!![1, 1; 0, 1], lu.L * diagonal fun i => Real.sqrt (lu.U i i), ?_, ?_, ?_⟩
  · intro h
    have := congrFun (congrFun h 0) 1
    simp at this
  · unfold sparseCholesky
    rw [hl, Except.ok_bind', if_pos]
    unfold luIsPositive
    rw [decide_eq_true_eq]
    refine ⟨fun i => by rw [hp]; rfl, fun i => ?_⟩
    rw [hU]
    fin_cases i <;> simp
  · intro h
    have := congrFun (congrFun h 0) 1
    rw [hL, hU] at this
    simp [Matrix.mul_apply, Fin.sum_univ_two] at this

/-- The LU factorisation of the matrix `-1`. -/
theorem splu_minus_one {lib : Lib} (hlib : LibSpec lib) :
    ∃ lu, lib.splu 1 !![-1] = .ok lu ∧ lu.U = !![-1] := by
  have hlu : IsLU (1 : Matrix (Fin 1) (Fin 1) ℝ) !![-1] !![-1] := by
    refine ⟨?_, ?_, ?_, ?_, Matrix.one_mul _⟩
    · intro i j h
      exact one_apply_ne h.ne
    · intro i
      exact one_apply_eq i
    · intro i j h
      exact absurd h (by omega)
    · intro i
      simp [Subsingleton.elim i 0]
  obtain ⟨lu, hl, hp⟩ := hlib.splu_natural 1 _ ⟨_, _, hlu⟩
  obtain ⟨-, hc, A', hA', e⟩ := hlib.splu_ok 1 _ lu hl
  have : A' = !![-1] := by
    ext i j
    rw [e i j, hp, hc]
    rfl
  subst this
  exact ⟨lu, hl, (lu_unique hA' hlu).2⟩

/-- With `diagonal_only=True` nothing is checked: a negative definite matrix gives `nan`. -/
theorem sparse_cholesky_diagonal_unchecked {lib : Lib} (hlib : LibSpec lib) :
    ∃ (A : Matrix (Fin 1) (Fin 1) ℝ) (d : Fin 1 → Option ℝ), A.IsSymm ∧ ¬ A.PosDef ∧
      sparseCholeskyDiagonal lib 1 A = .ok d ∧ d 0 = none := by
  obtain ⟨lu, hl, hU⟩ := splu_minus_one hlib
  refine ⟨!![-1], fun i => sqrtNan (lu.U i i), ?_, ?_, ?_, ?_⟩
  · ext i j
    simp [Subsingleton.elim i 0, Subsingleton.elim j 0]
  · intro h
    have := h.diag_pos (i := 0)
    simp at this
    linarith
  · unfold sparseCholeskyDiagonal
    rw [hl, Except.ok_bind']
  · show sqrtNan (lu.U 0 0) = none
    unfold sqrtNan
    rw [hU, if_pos (by simp)]

/-! ### C34: `traceinv(A, method='cholesky')` -/

/-- The optional matrix `B` of `traceinv`: absent, which stands for the identity, or an array of the kind of `A`
with the value `T`. -/
def GivenB (A : Array2 ℝ) (B : Option (Array2 ℝ)) (T : Matrix (Fin n) (Fin n) ℝ) : Prop :=
  (B = none ∧ T = 1) ∨ ∃ b, B = some b ∧ b.isSparse = A.isSparse ∧ b.value = square T

/-- `cholmod=True` is rejected if scikit-sparse is missing. -/
def Available (st : CholeskySettings) : Prop := st.cholmod = some true → st.suitesparse = true

theorem checkCholmod_ok {st : CholeskySettings} (h : Available st) :
    checkCholmod st.suitesparse st.cholmod = .ok () := by
  unfold checkCholmod
  rw [if_neg]
  rintro ⟨h1, h2⟩
  rw [h h1] at h2
  cases h2

theorem checkB_ok {A : Array2 ℝ} {B : Option (Array2 ℝ)} {T : Matrix (Fin n) (Fin n) ℝ} (hc : A.value.cols = n)
    (hB : GivenB A B T) : checkB A B = .ok () := by
  rcases hB with ⟨rfl, -⟩ | ⟨b, rfl, hs, hb⟩
  · rfl
  · unfold checkB
    simp only
    rw [if_neg (by rw [hs]; simp), if_neg, if_neg]
    · rw [hb]
      rintro ⟨-, h⟩
      exact h hc
    · rw [hb]
      rintro ⟨h1, h2⟩
      exact h2 ⟨h1.trans hc, hc⟩

theorem traceinv_branch {lib : Lib} (hlib : LibSpec lib) {A : Array2 ℝ} {gram : Bool}
    {S : Matrix (Fin n) (Fin n) ℝ} (hS : base A.value gram = square S) {B : Option (Array2 ℝ)}
    {T : Matrix (Fin n) (Fin n) ℝ} (hB : GivenB A B T) {p : ℤ} (hpos : 0 < p → S.PosDef ∧ T.PosDef)
    (hzero : p = 0 → B = none → A.value.rows = n) (st : CholeskySettings) :
    traceinvBranch lib A B gram p st = .ok (S ^ (-p) * T).trace := by
  unfold traceinvBranch
  by_cases h0 : p = 0
  · subst h0
    rw [if_pos rfl, neg_zero, zpow_zero, Matrix.one_mul]
    unfold traceinvZero
    rcases hB with ⟨rfl, rfl⟩ | ⟨b, rfl, -, hb⟩
    · simp only [hzero rfl rfl, trace_one, Fintype.card_fin]
    · simp only [hb, diagSum_square]
  · rw [if_neg h0, hS, powerLoop_square S (k := p.natAbs) (by omega) (Int.abs_eq_natAbs p), Except.ok_bind']
    by_cases hn : p < 0
    · rw [if_pos hn, show -p = ((p.natAbs : ℕ) : ℤ) by omega, zpow_natCast]
      unfold traceinvNegative
      rcases hB with ⟨rfl, rfl⟩ | ⟨b, rfl, -, hb⟩
      · simp only [diagSum_square, Matrix.mul_one]
      · simp only [hb, mul_square, Except.ok_bind', diagSum_square]
    · rw [if_neg hn, withSquare_square]
      obtain ⟨h1, h2⟩ := hpos (by omega)
      rw [traceinvPositive_ok hlib _ _ _ (posDef_pow h1 _) (T := T)]
      · rw [show -p = -((p.natAbs : ℕ) : ℤ) by omega, Matrix.zpow_neg_natCast]
      · rcases hB with h | ⟨b, h, -, hb⟩
        · exact .inl h
        · exact .inr ⟨b, h, hb, h2⟩

/-- C34: for every positive definite `A` and `B` (absent, or of the kind of `A`), every integer `p`, dense or
sparse, with or without scikit-sparse, whatever permutation it chooses, inverting the factor or solving with it,
the result is the trace of `A⁻ᵖ B`.  For `p ≤ 0` the matrices need not be positive definite. -/
theorem cholesky_traceinv {lib : Lib} (hlib : LibSpec lib) {A : Array2 ℝ} {M T : Matrix (Fin n) (Fin n) ℝ}
    (hA : A.value = square M) {B : Option (Array2 ℝ)} (hB : GivenB A B T) (p : ℤ)
    (hpos : 0 < p → M.PosDef ∧ T.PosDef) {st : CholeskySettings} (hst : Available st) :
    traceinvCholesky lib A B false (.int p) st = .ok (M ^ (-p) * T).trace := by
  unfold traceinvCholesky
  rw [checkB_ok (by rw [hA]; rfl) hB, Except.ok_bind', checkSquare_square hA, Except.ok_bind', checkInt,
    Except.ok_bind', checkCholmod_ok hst, Except.ok_bind']
  exact traceinv_branch hlib (by rw [base, if_neg (by simp), hA]) hB hpos (fun _ _ => by rw [hA]; rfl) st

/-- C34 with `gram=True`, for every shape.  (Missing: `p = 0` without `B` for a matrix that is not square, see
`cholesky_gram_zero_wrong`.) -/
theorem cholesky_traceinv_gram_partial {lib : Lib} (hlib : LibSpec lib) {A : Array2 ℝ}
    {M : Matrix (Fin m) (Fin n) ℝ} {T : Matrix (Fin n) (Fin n) ℝ} (hA : A.value = ⟨m, n, M⟩)
    {B : Option (Array2 ℝ)} (hB : GivenB A B T) (p : ℤ) (hpos : 0 < p → (Mᵀ * M).PosDef ∧ T.PosDef)
    (hp : p ≠ 0 ∨ m = n ∨ B ≠ none) {st : CholeskySettings} (hst : Available st) :
    traceinvCholesky lib A B true (.int p) st = .ok ((Mᵀ * M) ^ (-p) * T).trace := by
  unfold traceinvCholesky
  rw [checkB_ok (by rw [hA]) hB, Except.ok_bind', checkSquare_gram, Except.ok_bind', checkInt,
    Except.ok_bind', checkCholmod_ok hst, Except.ok_bind']
  refine traceinv_branch hlib (by rw [base, if_pos rfl, hA]; rfl) hB hpos (fun h1 h2 => ?_) st
  rw [hA]
  rcases hp with h | h | h
  · exact absurd h1 h
  · exact h
  · exact absurd h2 h

/-- With `gram=True` and `p=0` the number of rows is returned, which is not the size of the Gramian. -/
theorem cholesky_gram_zero_wrong (lib : Lib) {A : Array2 ℝ} {M : Matrix (Fin m) (Fin n) ℝ}
    (hA : A.value = ⟨m, n, M⟩) (hmn : m ≠ n) {st : CholeskySettings} (hst : Available st) :
    ∃ t, traceinvCholesky lib A none true (.int 0) st = .ok t ∧ t ≠ ((Mᵀ * M) ^ (0 : ℤ)).trace := by
  refine ⟨m, ?_, ?_⟩
  · unfold traceinvCholesky
    rw [show checkB A none = .ok () from rfl, Except.ok_bind', checkSquare_gram, Except.ok_bind', checkInt,
      Except.ok_bind', checkCholmod_ok hst, Except.ok_bind']
    unfold traceinvBranch
    rw [if_pos rfl]
    simp only [traceinvZero, hA]
  · rw [zpow_zero, trace_one, Fintype.card_fin]
    exact_mod_cast hmn

/-- A float is rejected, whatever the matrices. -/
theorem cholesky_float_raises (lib : Lib) (A : Array2 ℝ) (B : Option (Array2 ℝ)) (gram : Bool) (x : ℚ)
    (st : CholeskySettings) : ∃ e, traceinvCholesky lib A B gram (.float x) st = .error e := by
  unfold traceinvCholesky
  cases checkB A B with
  | error e => exact ⟨e, rfl⟩
  | ok _ =>
    cases checkSquare A gram with
    | error e => exact ⟨e, rfl⟩
    | ok _ => exact ⟨_, rfl⟩

/-- A dense matrix whose power is not positive definite raises `LinAlgError` for a positive exponent. -/
theorem cholesky_not_posDef_raises {lib : Lib} (hlib : LibSpec lib) {M : Matrix (Fin n) (Fin n) ℝ}
    (hM : M.IsSymm) {p : ℤ} (hp : 0 < p) (h : ¬ (M ^ p).PosDef) {st : CholeskySettings} (hst : Available st) :
    traceinvCholesky lib (.dense (square M)) none false (.int p) st = .error .linAlgError := by
  unfold traceinvCholesky
  rw [show checkB _ none = .ok () from rfl, Except.ok_bind',
    checkSquare_square (A := .dense (square M)) (M := M) rfl, Except.ok_bind',
    checkInt, Except.ok_bind', checkCholmod_ok hst, Except.ok_bind']
  unfold traceinvBranch
  rw [if_neg hp.ne', show base (Array2.dense (square M)).value false = square M from rfl,
    powerLoop_square M (k := p.natAbs) (by omega) (Int.abs_eq_natAbs p), Except.ok_bind',
    if_neg (by omega), withSquare_square]
  have hs : (M ^ p.natAbs).IsSymm := by
    unfold Matrix.IsSymm
    rw [transpose_pow, hM]
  have hk : M ^ p = M ^ p.natAbs := by
    rw [← zpow_natCast]
    congr 1
    omega
  unfold traceinvPositive factorA
  rw [show (Array2.dense (square M)).isSparse = false from rfl, if_neg (by simp),
    hlib.chol_error _ _ (by rwa [lowerSymm_of_isSymm hs, ← hk])]
  rfl

/-! ### C36: `logdet(A, method='cholesky')` -/

/-- C36, Cholesky method: for every positive definite matrix, dense or sparse, with or without scikit-sparse, and
every exponent, the result is `p log det A`; with `gram=True` it is `log det (AᵀA)ᵖ = 2 p log det A`.  (Missing: with
`gram=True` the matrix need only be non-singular, see `cholesky_gram_square_raises`.) -/
theorem cholesky_logdet_partial {lib : Lib} (hlib : LibSpec lib) {A : Array2 ℝ} {M : Matrix (Fin n) (Fin n) ℝ}
    (hA : A.value = square M) (hM : M.PosDef) (p : Exponent) {st : CholeskySettings} (hst : Available st) :
    logdetCholesky lib A false p st = .ok (some (p.val * Real.log M.det)) ∧
    logdetCholesky lib A true p st = .ok (some (p.val * Real.log (Mᵀ * M).det)) := by
  have hsq : A.value.rows = A.value.cols := by rw [hA]; rfl
  have hd : (Mᵀ * M).det = M.det * M.det := by rw [det_mul, det_transpose]
  have h0 : M.det ≠ 0 := (posDef_isUnit hM).ne_zero
  have hb : ∀ g, logdetBase A g = square M := by
    intro g
    unfold logdetBase
    rw [if_neg (fun h => h.2 hsq), hA]
  constructor
  all_goals
    unfold logdetCholesky
    rw [checkSquare_square hA, Except.ok_bind', checkCholmod_ok hst, Except.ok_bind']
    by_cases hp : p.val = 0
    · rw [if_pos hp, hp]
      simp [doubleIf, hsq]
    · rw [if_neg hp, hb, withSquare_square, logdetFactor_ok hlib _ _ hM, Except.ok_bind']
      simp only [hsq, decide_true, Bool.and_true, doubleIf, if_true, Bool.false_eq_true, if_false,
        Option.map_some, hd, Real.log_mul h0 h0]
      congr 2
      ring

/-- C36, Cholesky method, `gram=True`, for a matrix that is not square and has full column rank. -/
theorem cholesky_logdet_gram {lib : Lib} (hlib : LibSpec lib) {A : Array2 ℝ} {M : Matrix (Fin m) (Fin n) ℝ}
    (hA : A.value = ⟨m, n, M⟩) (hmn : m ≠ n) (hM : (Mᵀ * M).PosDef) (p : Exponent) {st : CholeskySettings}
    (hst : Available st) :
    logdetCholesky lib A true p st = .ok (some (p.val * Real.log (Mᵀ * M).det)) := by
  have hsq : A.value.rows ≠ A.value.cols := by rw [hA]; exact hmn
  unfold logdetCholesky
  rw [checkSquare_gram, Except.ok_bind', checkCholmod_ok hst, Except.ok_bind']
  by_cases hp : p.val = 0
  · rw [if_pos hp, hp]
    simp [doubleIf, hsq]
  · have hb : logdetBase A true = square (Mᵀ * M) := by
      unfold logdetBase
      rw [if_pos ⟨rfl, hsq⟩, hA]
      rfl
    rw [if_neg hp, hb, withSquare_square, logdetFactor_ok hlib _ _ hM, Except.ok_bind']
    simp only [hsq, decide_false, Bool.and_false, doubleIf, Bool.false_eq_true, if_false, Option.map_some]
    congr 2
    ring

/-- With `gram=True` a square matrix is factored itself, not its Gramian: a dense, non-singular, symmetric
matrix that is not positive definite raises, although the determinant of its Gramian is positive. -/
theorem cholesky_gram_square_raises {lib : Lib} (hlib : LibSpec lib) {M : Matrix (Fin n) (Fin n) ℝ}
    (hM : M.IsSymm) (hn : ¬ M.PosDef) {p : Exponent} (hp : p.val ≠ 0) {st : CholeskySettings}
    (hst : Available st) : logdetCholesky lib (.dense (square M)) true p st = .error .linAlgError := by
  unfold logdetCholesky
  rw [checkSquare_square (A := .dense (square M)) (M := M) rfl, Except.ok_bind', checkCholmod_ok hst,
    Except.ok_bind', if_neg hp]
  have hb : logdetBase (.dense (square M)) true = square M := by
    unfold logdetBase
    rw [if_neg (fun h => h.2 rfl)]
    rfl
  rw [hb, withSquare_square]
  unfold logdetFactor
  rw [show (Array2.dense (square M)).isSparse = false from rfl, if_neg (by simp),
    hlib.chol_error _ _ (by rwa [lowerSymm_of_isSymm hM])]
  rfl

theorem posDef_two_one : (!![2, 1; 1, 2] : Matrix (Fin 2) (Fin 2) ℝ).PosDef := by
  have h : IsCholesky (!![Real.sqrt 2, 0; 1 / Real.sqrt 2, Real.sqrt (3 / 2)] : Matrix (Fin 2) (Fin 2) ℝ)
      !![2, 1; 1, 2] := by
    refine ⟨?_, ?_, ?_⟩
    · intro i j h
      fin_cases i <;> fin_cases j <;> simp_all
    · intro i
      fin_cases i <;> simp
    · have h2 : Real.sqrt 2 ≠ 0 := by positivity
      ext i j
      fin_cases i <;> fin_cases j <;> simp [Matrix.mul_apply, Fin.sum_univ_two, h2]
      have h3 := Real.mul_self_sqrt (show (0 : ℝ) ≤ 2 by norm_num)
      have h4 := Real.mul_self_sqrt (show (0 : ℝ) ≤ 3 by norm_num)
      field_simp
      nlinarith
  exact cholesky_posDef h

/-- … and a dense square matrix that is not symmetric gives a wrong value without an error if its lower triangle
happens to be that of a positive definite matrix. -/
theorem cholesky_gram_square_wrong {lib : Lib} (hlib : LibSpec lib) {st : CholeskySettings} (hst : Available st) :
    ∃ (M : Matrix (Fin 2) (Fin 2) ℝ) (t : ℝ), 0 < (Mᵀ * M).det ∧
      logdetCholesky lib (.dense (square M)) true (.int 1) st = .ok (some t) ∧
      t ≠ Real.log (Mᵀ * M).det := by
  have h1 : lowerSymm (!![2, 0; 1, 2] : Matrix (Fin 2) (Fin 2) ℝ) = !![2, 1; 1, 2] := by
    ext i j
    fin_cases i <;> fin_cases j <;> simp [lowerSymm]
  have hd : ((!![2, 0; 1, 2] : Matrix (Fin 2) (Fin 2) ℝ)ᵀ * !![2, 0; 1, 2]).det = 16 := by
    rw [det_mul, det_transpose, det_fin_two]
    norm_num
  obtain ⟨L, hL, hc⟩ := hlib.chol_ok 2 !![2, 0; 1, 2] (by rw [h1]; exact posDef_two_one)
  refine ⟨!![2, 0; 1, 2], 2 * Real.log 3, ?_, ?_, ?_⟩
  · rw [hd]; norm_num
  · unfold logdetCholesky
    rw [checkSquare_square (A := .dense (square !![2, 0; 1, 2])) rfl, Except.ok_bind', checkCholmod_ok hst,
      Except.ok_bind', if_neg (by simp [Exponent.val])]
    have hb : logdetBase (.dense (square !![2, 0; 1, 2])) true = square !![2, 0; 1, 2] := by
      unfold logdetBase
      rw [if_neg (fun h => h.2 rfl)]
      rfl
    rw [hb, withSquare_square]
    unfold logdetFactor
    rw [show (Array2.dense (square (!![2, 0; 1, 2] : Matrix (Fin 2) (Fin 2) ℝ))).isSparse = false from rfl,
      if_neg (by simp), hL]
    simp only [Except.ok_bind']
    rw [twiceLogSum_some, log_det_cholesky hc, h1, det_fin_two]
    have : (!![2, 1; 1, 2] : Matrix (Fin 2) (Fin 2) ℝ) 0 0 * (!![2, 1; 1, 2] : Matrix (Fin 2) (Fin 2) ℝ) 1 1 -
      (!![2, 1; 1, 2] : Matrix (Fin 2) (Fin 2) ℝ) 0 1 * (!![2, 1; 1, 2] : Matrix (Fin 2) (Fin 2) ℝ) 1 0 = 3 := by
      norm_num
    rw [this]
    simp [doubleIf, Exponent.val, Array2.value, square]
  · rw [hd, show (16 : ℝ) = 4 * 4 by norm_num, Real.log_mul (by norm_num) (by norm_num), ← two_mul]
    intro h
    have : Real.log 3 < Real.log 4 := Real.log_lt_log (by norm_num) (by norm_num)
    linarith

/-- A sparse matrix that is not positive definite gives `nan` instead of an error, if scikit-sparse is
not used. -/
theorem cholesky_logdet_nan {lib : Lib} (hlib : LibSpec lib) {st : CholeskySettings}
    (hst : useCholmod st true = false) (ha : Available st) :
    ∃ A : Array2 ℝ, A.value = square (!![-1] : Matrix (Fin 1) (Fin 1) ℝ) ∧
      logdetCholesky lib A false (.int 1) st = .ok none := by
  obtain ⟨lu, hl, hU⟩ := splu_minus_one hlib
  have hv : (Array2.sparse 1 1 [(0, 0, (-1 : ℝ))]).value = square (!![-1] : Matrix (Fin 1) (Fin 1) ℝ) := by
    refine congrArg (Mat.mk 1 1) (Matrix.ext fun i j => ?_)
    simp [entry, Subsingleton.elim i 0, Subsingleton.elim j 0]
  refine ⟨.sparse 1 1 [(0, 0, -1)], hv, ?_⟩
  unfold logdetCholesky
  rw [checkSquare_square hv, Except.ok_bind', checkCholmod_ok ha, Except.ok_bind',
    if_neg (by simp [Exponent.val])]
  have hb : logdetBase (.sparse 1 1 [(0, 0, -1)]) false = square !![-1] := by
    unfold logdetBase
    rw [if_neg (by simp), hv]
  rw [hb, withSquare_square]
  unfold logdetFactor
  rw [show (Array2.sparse 1 1 [(0, 0, (-1 : ℝ))]).isSparse = true from rfl, hst, if_pos rfl, if_neg (by simp)]
  unfold sparseCholeskyDiagonal
  rw [hl]
  simp only [Except.ok_bind', hU]
  simp [twiceLogSum, sqrtNan, doubleIf, List.finRange_succ]

/-! ### Concrete cases -/

/-- A dense and a sparse matrix that are positive definite. -/
example {lib : Lib} (hlib : LibSpec lib) : traceinvCholesky lib (.dense (square !![2, 1; 1, 2])) none false
    (.int 3) ⟨true, none, false⟩ = .ok ((!![2, 1; 1, 2] : Matrix (Fin 2) (Fin 2) ℝ) ^ (-3 : ℤ) * 1).trace :=
  cholesky_traceinv hlib rfl (.inl ⟨rfl, rfl⟩) 3 (fun _ => ⟨posDef_two_one, PosDef.one⟩) (by intro; rfl)

example {lib : Lib} (hlib : LibSpec lib) :
    traceinvCholesky lib (.dense (square !![2, 1; 1, 2])) (some (.dense (square !![2, 1; 1, 2]))) false
      (.int 2) ⟨false, none, true⟩ =
      .ok ((!![2, 1; 1, 2] : Matrix (Fin 2) (Fin 2) ℝ) ^ (-2 : ℤ) * !![2, 1; 1, 2]).trace :=
  cholesky_traceinv hlib rfl (.inr ⟨_, rfl, rfl, rfl⟩) 2 (fun _ => ⟨posDef_two_one, posDef_two_one⟩)
    (by intro h; cases h)

example {lib : Lib} (hlib : LibSpec lib) : logdetCholesky lib (.dense (square !![2, 1; 1, 2])) false
    (.float (1 / 2)) ⟨true, some true, false⟩ =
      .ok (some (((1 / 2 : ℚ) : ℝ) * Real.log (!![2, 1; 1, 2] : Matrix (Fin 2) (Fin 2) ℝ).det)) :=
  (cholesky_logdet_partial hlib rfl posDef_two_one (.float (1 / 2)) (by intro; rfl)).1

/-- `[[0, 1], [1, 0]]` is symmetric, non-singular and not positive definite. -/
example {lib : Lib} (hlib : LibSpec lib) : logdetCholesky lib (.dense (square !![0, 1; 1, 0])) true
    (.int 1) ⟨true, none, false⟩ = .error .linAlgError := by
  refine cholesky_gram_square_raises hlib ?_ ?_ (by simp [Exponent.val]) (by intro; rfl)
  · ext i j
    fin_cases i <;> fin_cases j <;> rfl
  · intro h
    have := h.diag_pos (i := 0)
    simp at this

/-- C34: a second matrix that does not fit is refused: `TypeError` if one of the two is sparse and the other dense,
otherwise `ValueError` if the sizes do not fit. -/
theorem cholesky_traceinv_refuses_B (lib : Lib) (A B : Array2 ℝ) (gram : Bool) (p : Exponent) (st : CholeskySettings) :
    (A.isSparse ≠ B.isSparse → traceinvCholesky lib A (some B) gram p st = .error .typeError) ∧
    (A.isSparse = B.isSparse → A.value.rows = A.value.cols →
      (A.value.rows ≠ B.value.rows ∨ A.value.cols ≠ B.value.cols) →
      traceinvCholesky lib A (some B) gram p st = .error .valueError) ∧
    (A.isSparse = B.isSparse → A.value.rows ≠ A.value.cols → A.value.cols ≠ B.value.rows →
      traceinvCholesky lib A (some B) gram p st = .error .valueError) := by
  refine ⟨fun h => ?_, fun h h1 h2 => ?_, fun h h1 h2 => ?_⟩
  · have : checkB A (some B) = .error .typeError := by simp [checkB, h]
    simp only [traceinvCholesky, this]; rfl
  · have : checkB A (some B) = .error .valueError := by
      simp only [checkB]
      rw [if_neg (not_not.2 h), if_pos ⟨h1, by tauto⟩]
    simp only [traceinvCholesky, this]; rfl
  · have : checkB A (some B) = .error .valueError := by
      simp only [checkB]
      rw [if_neg (not_not.2 h), if_neg (by tauto), if_pos ⟨h1, h2⟩]
    simp only [traceinvCholesky, this]; rfl

example (lib : Lib) (st : CholeskySettings) : traceinvCholesky lib (.dense (square !![2, 1; 1, 2]))
    (some (.dense (square (!![1] : Matrix (Fin 1) (Fin 1) ℝ)))) false (.int 1) st = .error .valueError :=
  (cholesky_traceinv_refuses_B lib _ _ _ _ _).2.1 rfl rfl (.inl (by decide))

end Imate.Props
