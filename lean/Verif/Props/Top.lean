import Verif.Props.Functions
import Verif.Model.Top
import Verif.Spec.Top

/-!
# C37 (Schatten norm), C39 (choice of the method) and C56 (arguments of the functions)
-/

namespace Imate.Props

open Imate.Hutchinson Imate.Direct Imate.Eigen Imate.Spec Imate.Top Matrix

variable {n m : ℕ}

/-! ### C39 -/

/-- C39: each name runs its method, and every other string raises. -/
theorem dispatch_runs_named {α : Type} (exact eigenvalue cholesky hutchinson slq : Except PyExc α) :
    (traceDispatch exact eigenvalue slq "exact" = exact ∧
      traceDispatch exact eigenvalue slq "eigenvalue" = eigenvalue ∧
      traceDispatch exact eigenvalue slq "slq" = slq) ∧
    (traceinvDispatch eigenvalue cholesky hutchinson slq "eigenvalue" = eigenvalue ∧
      traceinvDispatch eigenvalue cholesky hutchinson slq "cholesky" = cholesky ∧
      traceinvDispatch eigenvalue cholesky hutchinson slq "hutchinson" = hutchinson ∧
      traceinvDispatch eigenvalue cholesky hutchinson slq "slq" = slq) ∧
    (logdetDispatch eigenvalue cholesky slq "eigenvalue" = eigenvalue ∧
      logdetDispatch eigenvalue cholesky slq "cholesky" = cholesky ∧
      logdetDispatch eigenvalue cholesky slq "slq" = slq) ∧
    (otherDispatch eigenvalue slq "eigenvalue" = eigenvalue ∧ otherDispatch eigenvalue slq "slq" = slq) := by
  refine ⟨⟨rfl, rfl, rfl⟩, ⟨rfl, rfl, rfl, rfl⟩, ⟨rfl, rfl, rfl⟩, rfl, rfl⟩

theorem dispatch_unknown_raises {α : Type} (exact eigenvalue cholesky hutchinson slq : Except PyExc α)
    (method : String) :
    (method ∉ ["exact", "eigenvalue", "slq"] → traceDispatch exact eigenvalue slq method =
      .error .runtimeError) ∧
    (method ∉ ["eigenvalue", "cholesky", "hutchinson", "slq"] →
      traceinvDispatch eigenvalue cholesky hutchinson slq method = .error .runtimeError) ∧
    (method ∉ ["eigenvalue", "cholesky", "slq"] → logdetDispatch eigenvalue cholesky slq method =
      .error .valueError) ∧
    (method ∉ ["eigenvalue", "slq"] → otherDispatch eigenvalue slq method = .error .valueError) := by
  simp only [List.mem_cons, List.not_mem_nil, or_false, not_or]
  refine ⟨?_, ?_, ?_, ?_⟩
  · rintro ⟨h1, h2, h3⟩
    unfold traceDispatch
    rw [if_neg h1, if_neg h2, if_neg h3]
  · rintro ⟨h1, h2, h3, h4⟩
    unfold traceinvDispatch
    rw [if_neg h1, if_neg h2, if_neg h3, if_neg h4]
  · rintro ⟨h1, h2, h3⟩
    unfold logdetDispatch
    rw [if_neg h1, if_neg h2, if_neg h3]
  · rintro ⟨h1, h2⟩
    unfold otherDispatch
    rw [if_neg h1, if_neg h2]

/-- C39 for `schatten`: the methods that the documentation excludes for the sign of `p` raise, and so does every
other unknown string. -/
theorem schatten_unavailable_raises (env : Env) (A : Array2 ℝ) (gram : Bool) (p : Exponent) (method : String)
    (h : (0 < p.val → method ∉ ["exact", "eigenvalue", "slq"]) ∧
      (p.val = 0 → method ∉ ["eigenvalue", "cholesky", "slq"]) ∧
      (p.val < 0 → method ∉ ["eigenvalue", "cholesky", "hutchinson", "slq"])) :
    ∃ e, schatten env (.array A) gram (.num p) method = .error e := by
  obtain ⟨h1, h2, h3⟩ := h
  unfold schatten schattenArray
  simp only
  split_ifs with h4 h5
  · unfold Top.logdet
    rw [(dispatch_unknown_raises (.error .runtimeError) _ _ (.error .runtimeError) _ method).2.2.1 (h2 h4)]
    exact ⟨_, rfl⟩
  · unfold Top.trace
    rw [(dispatch_unknown_raises _ _ (.error .runtimeError) (.error .runtimeError) _ method).1 (h1 h5)]
    exact ⟨_, rfl⟩
  · unfold Top.traceinv
    rw [(dispatch_unknown_raises (.error .runtimeError) _ _ _ _ method).2.1
      (h3 (lt_of_le_of_ne (not_lt.1 h5) h4))]
    exact ⟨_, rfl⟩

/-- The documented linear operators raise with every method. -/
theorem schatten_operator_raises (env : Env) (gram : Bool) (p : Exponent) (method : String) :
    schatten env .operator gram (.num p) method = .error .attributeError := rfl

/-! ### C37 -/

theorem cfc_trace_nonneg {M : Matrix (Fin n) (Fin n) ℝ} (hM : M.PosDef) (p : ℝ) :
    0 ≤ (cfc (fun x : ℝ => x ^ p) M).trace := by
  rw [trace_cfc hM.1]
  apply Multiset.sum_nonneg
  intro y hy
  obtain ⟨x, hx, rfl⟩ := Multiset.mem_map.1 hy
  exact (Real.rpow_pos_of_pos (posDef_eigenvalues hM hx) p).le

theorem cfc_trace_pos {M : Matrix (Fin n) (Fin n) ℝ} (hM : M.PosDef) (hn : 0 < n) (p : ℝ) :
    0 < (cfc (fun x : ℝ => x ^ p) M).trace := by
  rw [trace_cfc hM.1, hM.1.roots_charpoly_eq_eigenvalues, Multiset.map_map]
  have : Nonempty (Fin n) := ⟨⟨0, hn⟩⟩
  refine Finset.sum_pos (fun i _ => ?_) Finset.univ_nonempty
  exact Real.rpow_pos_of_pos (hM.eigenvalues_pos i) p

theorem rootDiv_pos {t : ℝ} (ht : 0 < t) (hn : 0 < n) (p : ℚ) :
    rootDiv n p t = some (.real ((t / n) ^ (1 / (p : ℝ)))) := by
  unfold rootDiv
  have : 0 < t / n := by positivity
  rw [powR_pos this]

theorem expAbs_val (p : Exponent) : (expAbs p).val = |p.val| := by
  cases p <;> simp [expAbs, Exponent.val]

theorem exp_log_div {d : ℝ} (hd : 0 < d) (n : ℕ) : Real.exp (Real.log d / n) = d ^ (1 / n : ℝ) := by
  rw [Real.rpow_def_of_pos hd]
  congr 1
  ring

/-- C37, `method='eigenvalue'`: for every positive definite matrix and every order the documented norm is
returned. -/
theorem schatten_eigenvalue (env : Env) (hlib : EigSpec env.eig) (hsym : env.sym = true)
    (hq : 0 < env.fraction ∧ env.fraction < 1) {M : Matrix (Fin n) (Fin n) ℝ} (hM : M.PosDef) (hn : 0 < n)
    (p : Exponent) :
    schatten env (.array (.dense (square M))) false (.num p) "eigenvalue" =
      .ok (some (.real (schattenNorm M p.val))) := by
  unfold schatten schattenArray schattenNorm
  simp only
  have hq' : ValidFraction (env.settings false) := hq
  split_ifs with h1 h2 h3 h4 h5
  · have := logdet_eigenvalue_pos hlib hM.det_pos ((Exponent.float 1).val : ℝ) hq'
      (fun _ => isSymm_of_posDef hM)
    unfold Top.logdet
    rw [(dispatch_runs_named (.error .runtimeError) _ _ (.error .runtimeError) _).2.2.1.1, this, Except.ok_bind']
    simp only [Env.settings, Option.map_some, expDiv, Exponent.val, Bool.false_eq_true, if_false]
    rw [abs_of_pos hM.det_pos, ← exp_log_div hM.det_pos]
    simp [Array2.value, square]
  · exact absurd (by exact_mod_cast h1) h2
  · exact absurd (by exact_mod_cast h4) h1
  · have := trace_eigenvalue_sym hlib hM (p.val : ℝ) hq' rfl hsym
    unfold Top.trace
    rw [(dispatch_runs_named _ _ (.error .runtimeError) (.error .runtimeError) _).1.2.1, this, Except.ok_bind',
      Option.bind_some, show (Array2.dense (square M)).value.rows = n from rfl,
      rootDiv_pos (cfc_trace_pos hM hn _) hn, abs_of_nonneg]
    exact div_nonneg (cfc_trace_nonneg hM _) (Nat.cast_nonneg _)
  · exact absurd (by exact_mod_cast h5) h1
  · have hneg : p.val < 0 := lt_of_le_of_ne (not_lt.1 h3) h1
    have := traceinv_eigenvalue_sym hlib hM ((expAbs p).val : ℝ) hq' rfl hsym
    unfold Top.traceinv
    rw [(dispatch_runs_named (.error .runtimeError) _ _ _ _).2.1.1, this, Except.ok_bind',
      Option.bind_some, show (Array2.dense (square M)).value.rows = n from rfl, expAbs_val,
      abs_of_neg hneg, Rat.cast_neg, neg_neg,
      rootDiv_pos (cfc_trace_pos hM hn _) hn, abs_of_nonneg]
    exact div_nonneg (cfc_trace_nonneg hM _) (Nat.cast_nonneg _)

/-- C37: the norm is homogeneous. -/
theorem schattenNorm_smul {M : Matrix (Fin n) (Fin n) ℝ} (hM : M.PosDef) (hn : 0 < n) {c : ℝ} (hc : 0 < c)
    (p : ℝ) : schattenNorm (c • M) p = c * schattenNorm M p := by
  unfold schattenNorm
  have hn' : (n : ℝ) ≠ 0 := by exact_mod_cast hn.ne'
  split_ifs with h
  · rw [det_smul, abs_mul, Real.mul_rpow (abs_nonneg _) (abs_nonneg _), Fintype.card_fin, abs_pow,
      abs_of_pos hc, ← Real.rpow_natCast, ← Real.rpow_mul hc.le, mul_one_div_cancel hn', Real.rpow_one]
  · have hcfc : cfc (fun x : ℝ => x ^ p) (c • M) = c ^ p • cfc (fun x : ℝ => x ^ p) M := by
      have hfin : (spectrum ℝ M).Finite := Matrix.finite_real_spectrum
      have h1 := cfc_comp_smul c (fun x : ℝ => x ^ p) M (hf := (hfin.image _).continuousOn _) (ha := hM.1)
      have h2 := cfc_smul (c ^ p) (fun x : ℝ => x ^ p) M (hf := hfin.continuousOn _)
      refine h1.symm.trans (Eq.trans ?_ h2)
      refine cfc_congr (fun x hx => ?_)
      simp only [smul_eq_mul]
      have hx0 : 0 ≤ x := by
        rw [hM.1.spectrum_real_eq_range_eigenvalues] at hx
        obtain ⟨i, rfl⟩ := hx
        exact (hM.eigenvalues_pos i).le
      rw [Real.mul_rpow hc.le hx0]
    rw [hcfc, trace_smul, smul_eq_mul, mul_div_assoc, abs_mul, Real.mul_rpow (abs_nonneg _) (abs_nonneg _),
      abs_of_pos (Real.rpow_pos_of_pos hc p), ← Real.rpow_mul hc.le, mul_one_div_cancel h, Real.rpow_one]

/-- C37: the norm of `cI` is `c`. -/
theorem schattenNorm_one (hn : 0 < n) (p : ℝ) : schattenNorm (1 : Matrix (Fin n) (Fin n) ℝ) p = 1 := by
  unfold schattenNorm
  have hn' : (n : ℝ) ≠ 0 := by exact_mod_cast hn.ne'
  split_ifs with h
  · simp
  · rw [cfc_apply_one (R := ℝ)]
    simp [hn']

/-- C37 as one statement about the program. -/
theorem schatten_homogeneous (env : Env) (hlib : EigSpec env.eig) (hsym : env.sym = true)
    (hq : 0 < env.fraction ∧ env.fraction < 1) {M : Matrix (Fin n) (Fin n) ℝ} (hM : M.PosDef) (hn : 0 < n)
    {c : ℝ} (hc : 0 < c) (p : Exponent) :
    ∃ s, schatten env (.array (.dense (square M))) false (.num p) "eigenvalue" = .ok (some (.real s)) ∧
      schatten env (.array (.dense (square (c • M)))) false (.num p) "eigenvalue" =
        .ok (some (.real (c * s))) :=
  ⟨_, schatten_eigenvalue env hlib hsym hq hM hn p, by
    rw [schatten_eigenvalue env hlib hsym hq (hM.smul hc) hn p, schattenNorm_smul hM hn hc]⟩

theorem schatten_scaled_identity (env : Env) (hlib : EigSpec env.eig) (hsym : env.sym = true)
    (hq : 0 < env.fraction ∧ env.fraction < 1) (hn : 0 < n) {c : ℝ} (hc : 0 < c) (p : Exponent) :
    schatten env (.array (.dense (square (c • (1 : Matrix (Fin n) (Fin n) ℝ))))) false (.num p) "eigenvalue" =
      .ok (some (.real c)) := by
  rw [schatten_eigenvalue env hlib hsym hq (PosDef.one.smul hc) hn p, schattenNorm_smul PosDef.one hn hc,
    schattenNorm_one hn, mul_one]

/-- C37, `gram=True`, for every non-singular square matrix and every non-zero order. -/
theorem schatten_gram (env : Env) (hlib : EigSpec env.eig) (hsym : env.sym = false)
    (hq : 0 < env.fraction ∧ env.fraction < 1) {M : Matrix (Fin n) (Fin n) ℝ} (hM : (Mᵀ * M).PosDef)
    (hn : 0 < n) {p : Exponent} (hp : p.val ≠ 0) :
    schatten env (.array (.dense (square M))) true (.num p) "eigenvalue" =
      .ok (some (.real (schattenNorm (Mᵀ * M) p.val))) := by
  unfold schatten schattenArray schattenNorm
  simp only
  have hq' : ValidFraction (env.settings true) := hq
  have hp' : (p.val : ℝ) ≠ 0 := by exact_mod_cast hp
  rw [if_neg hp, if_neg hp']
  split_ifs with h3
  · have := trace_eigenvalue_gram (p := (p.val : ℝ)) hlib M (by exact_mod_cast h3) hq' rfl hsym
    unfold Top.trace
    rw [(dispatch_runs_named _ _ (.error .runtimeError) (.error .runtimeError) _).1.2.1]
    refine (congrArg (· >>= _) this).trans ?_
    rw [Except.ok_bind', Option.bind_some, show (Array2.dense (square M)).value.rows = n from rfl,
      rootDiv_pos (cfc_trace_pos hM hn _) hn, abs_of_nonneg]
    exact div_nonneg (cfc_trace_nonneg hM _) (Nat.cast_nonneg _)
  · have hneg : p.val < 0 := lt_of_le_of_ne (not_lt.1 h3) hp
    have := traceinv_eigenvalue_gram hlib hM le_rfl ((expAbs p).val : ℝ) hq' rfl hsym
    unfold Top.traceinv
    rw [(dispatch_runs_named (.error .runtimeError) _ _ _ _).2.1.1]
    refine (congrArg (· >>= _) this).trans ?_
    rw [Except.ok_bind', Option.bind_some, show (Array2.dense (square M)).value.rows = n from rfl, expAbs_val,
      abs_of_neg hneg, Rat.cast_neg, neg_neg,
      rootDiv_pos (cfc_trace_pos hM hn _) hn, abs_of_nonneg]
    exact div_nonneg (cfc_trace_nonneg hM _) (Nat.cast_nonneg _)

/-- With `gram=True` and a matrix that is not square the trace is divided by the number of rows, although the
Gramian has as many rows as the matrix has columns. -/
theorem schatten_gram_nonsquare_wrong (env : Env) (hlib : EigSpec env.eig) (hsym : env.sym = false)
    (hq : 0 < env.fraction ∧ env.fraction < 1) {M : Matrix (Fin m) (Fin n) ℝ} (hM : (Mᵀ * M).PosDef)
    (hn : 0 < n) (hmn : n < m) :
    ∃ s, schatten env (.array (.dense ⟨m, n, M⟩)) true (.num (.float 1)) "eigenvalue" = .ok (some (.real s)) ∧
      s < schattenNorm (Mᵀ * M) 1 := by
  have hq' : ValidFraction (env.settings true) := hq
  have := trace_eigenvalue_gram (p := 1) hlib M one_pos hq' rfl hsym
  have hpos := cfc_trace_pos hM hn 1
  refine ⟨(cfc (fun x : ℝ => x ^ (1 : ℝ)) (Mᵀ * M)).trace / m, ?_, ?_⟩
  · unfold schatten schattenArray
    simp only [Exponent.val, one_ne_zero, zero_lt_one, if_true, if_false]
    unfold Top.trace
    rw [(dispatch_runs_named _ _ (.error .runtimeError) (.error .runtimeError) _).1.2.1]
    simp only [Exponent.val, Rat.cast_one]
    rw [this, Except.ok_bind', Option.bind_some, show (Array2.dense ⟨m, n, M⟩).value.rows = m from rfl,
      rootDiv_pos hpos (by omega)]
    simp
  · unfold schattenNorm
    rw [if_neg one_ne_zero, div_one, Real.rpow_one, abs_of_pos (by positivity)]
    apply div_lt_div_of_pos_left hpos (by exact_mod_cast hn)
    exact_mod_cast hmn

/-- The documented absolute values are missing: for `-I` the order 1 gives a negative norm, the order 3 no number,
and the order 0 a complex number. -/
theorem schatten_negative_wrong (env : Env) (hlib : EigSpec env.eig) (hsym : env.sym = true)
    (hq : 0 < env.fraction ∧ env.fraction < 1) :
    schatten env (.array (.dense (square !![-1]))) false (.num (.int 1)) "eigenvalue" =
        .ok (some (.real (-1))) ∧
      schatten env (.array (.dense (square !![-1]))) false (.num (.int 3)) "eigenvalue" = .ok none ∧
      ∃ z : ℂ, schatten env (.array (.dense (square !![-1]))) false (.num (.int 0)) "eigenvalue" =
        .ok (some (.cplx z)) := by
  have hq' : ValidFraction (env.settings false) := hq
  have hs : (!![-1] : Matrix (Fin 1) (Fin 1) ℝ).IsSymm := by
    ext i j
    fin_cases i
    fin_cases j
    rfl
  have hl : env.eig.eigh 1 !![-1] = [-1] := by
    have he := hlib.eigh_ok 1 !![-1]
    rw [lowerSymm_of_isSymm hs] at he
    unfold realEigenvalues at he
    have hc : (!![-1] : Matrix (Fin 1) (Fin 1) ℝ).charpoly = Polynomial.X - Polynomial.C (-1) := by
      simp [charpoly, charmatrix]
    rw [hc, Polynomial.roots_X_sub_C] at he
    exact Multiset.coe_eq_singleton.1 he
  have htrace : ∀ k : ℕ, Odd k → traceEigenvalue env.eig (.dense (square !![-1])) k none (env.settings false) =
      .ok (some (-1)) := by
    intro k hk
    unfold traceEigenvalue eigenTrace
    refine (dense_start (M := !![-1]) hq' (Or.inr rfl) _).trans ?_
    rw [choose_symmetric _ _ rfl hsym, Except.ok_bind', hl]
    simp [sumScalar, traceScalar, powR_natCast, sumOpt, hk.neg_one_pow]
  refine ⟨?_, ?_, ?_⟩
  · unfold schatten schattenArray
    simp only [Exponent.val, Int.cast_one, one_ne_zero, zero_lt_one, if_true, if_false]
    unfold Top.trace
    rw [(dispatch_runs_named _ _ (.error .runtimeError) (.error .runtimeError) _).1.2.1]
    have := htrace 1 odd_one
    simp only [Nat.cast_one] at this
    simp only [Exponent.val, Int.cast_one, Rat.cast_one]
    rw [this, Except.ok_bind', Option.bind_some]
    unfold rootDiv
    have h2 := powR_natCast (-1) 1
    simp only [Nat.cast_one, pow_one] at h2
    simp [Array2.value, square, h2]
  · unfold schatten schattenArray
    simp only
    rw [if_neg (by simp [Exponent.val]), if_pos (by simp [Exponent.val])]
    unfold Top.trace
    rw [(dispatch_runs_named _ _ (.error .runtimeError) (.error .runtimeError) _).1.2.1]
    have := htrace 3 (by decide)
    have h3 : (((3 : ℤ) : ℚ) : ℝ) = ((3 : ℕ) : ℝ) := by norm_num
    simp only [Exponent.val]
    rw [h3, this, Except.ok_bind', Option.bind_some]
    unfold rootDiv powR
    have h4 : ¬ ∃ k : ℤ, 1 / (((3 : ℤ) : ℚ) : ℝ) = k := by
      rintro ⟨k, hk⟩
      rw [h3, div_eq_iff (by norm_num)] at hk
      have : (1 : ℤ) = k * 3 := by exact_mod_cast hk
      omega
    simp only [Array2.value, square, Nat.cast_one, div_one]
    rw [if_neg (by norm_num : ¬ (0 : ℝ) < -1), if_neg (by norm_num : ¬ (-1 : ℝ) = 0), dif_neg h4]
  · unfold schatten schattenArray
    simp only [Exponent.val, Int.cast_zero, if_true]
    unfold Top.logdet
    rw [(dispatch_runs_named (.error .runtimeError) _ _ (.error .runtimeError) _).2.2.1.1]
    obtain ⟨z, hz, -⟩ := logdet_eigenvalue_neg (M := !![-1]) (p := ((Exponent.float 1).val : ℝ)) hlib (by simp)
      (by simp [Exponent.val]) hq' (fun _ => hs)
    rw [hz, Except.ok_bind']
    exact ⟨_, rfl⟩

/-- C37, `method='exact'`: for every square matrix with a positive trace of the power. -/
theorem schatten_exact (env : Env) {A : Array2 ℝ} {M : Matrix (Fin n) (Fin n) ℝ} (hA : A.value = square M)
    {k : ℕ} (hk : 1 ≤ k) (hn : 0 < n) (ht : 0 < (M ^ k).trace) (gram : Bool) (hg : gram = false) :
    schatten env (.array A) gram (.num (.int k)) "exact" =
      .ok (some (.real (((M ^ k).trace / n) ^ (1 / k : ℝ)))) := by
  subst hg
  obtain ⟨q, h⟩ := exact_trace hA k
  have hk' : (0 : ℚ) < k := by exact_mod_cast hk
  unfold schatten schattenArray
  simp only [Exponent.val, Int.cast_natCast]
  rw [if_neg hk'.ne', if_pos hk']
  unfold Top.trace
  rw [(dispatch_runs_named _ _ (.error .runtimeError) (.error .runtimeError) _).1.1, h]
  simp only [Except.map, Except.ok_bind', Option.bind_some]
  rw [hA, show (square M).rows = n from rfl, rootDiv_pos ht hn]
  simp

/-- C37, `method='cholesky'`: for every positive definite matrix, sparse or dense, and every integer order that is
not positive.  (With `p = 0` the norm is `det(A)^(1/n)`.) -/
theorem schatten_cholesky (env : Env) (hlib : LibSpec env.chol) (hst : Available env.cholesky) {A : Array2 ℝ}
    {M : Matrix (Fin n) (Fin n) ℝ} (hA : A.value = square M) (hM : M.PosDef) (hn : 0 < n) {k : ℕ} (hk : 1 ≤ k) :
    schatten env (.array A) false (.num (.int 0)) "cholesky" = .ok (some (.real (M.det ^ (1 / n : ℝ)))) ∧
      schatten env (.array A) false (.num (.int (-k))) "cholesky" =
        .ok (some (.real (((M ^ (-k : ℤ)).trace / n) ^ (-(1 / k) : ℝ)))) := by
  have hk' : (0 : ℚ) < k := by exact_mod_cast hk
  constructor
  · unfold schatten schattenArray
    simp only [Exponent.val, Int.cast_zero, if_true]
    unfold Top.logdet
    rw [(dispatch_runs_named (.error .runtimeError) _ _ (.error .runtimeError) _).2.2.1.2.1,
      (cholesky_logdet_partial hlib hA hM (.float 1) hst).1]
    simp only [Except.map, Except.ok_bind', Option.map_some, expDiv, Exponent.val]
    rw [hA, show (square M).rows = n from rfl, ← exp_log_div hM.det_pos]
    simp
  · have h := cholesky_traceinv hlib hA (B := none) (.inl ⟨rfl, rfl⟩) k (fun _ => ⟨hM, PosDef.one⟩) hst
    have habs : expAbs (.int (-k)) = .int k := by simp [expAbs]
    have ht : 0 < (M ^ (-k : ℤ)).trace := by
      have : Nonempty (Fin n) := ⟨⟨0, hn⟩⟩
      rw [Matrix.zpow_neg hM.det_pos.ne'.isUnit, zpow_natCast]
      exact (posDef_pow hM k).inv.trace_pos
    unfold schatten schattenArray
    simp only
    rw [if_neg (by simp [Exponent.val]; omega), if_neg (by simp [Exponent.val])]
    unfold Top.traceinv
    rw [(dispatch_runs_named (.error .runtimeError) _ _ _ _).2.1.2.1, habs, h]
    simp only [Except.map, Except.ok_bind', Option.bind_some]
    rw [hA, show (square M).rows = n from rfl, mul_one, rootDiv_pos ht hn]
    simp [Exponent.val, div_neg]

/-- C37, `method='cholesky'` with `gram=True` and the order zero. -/
theorem schatten_cholesky_gram (env : Env) (hlib : LibSpec env.chol) (hst : Available env.cholesky) {A : Array2 ℝ}
    {M : Matrix (Fin n) (Fin n) ℝ} (hA : A.value = square M) (hM : M.PosDef) :
    schatten env (.array A) true (.num (.int 0)) "cholesky" = .ok (some (.real ((Mᵀ * M).det ^ (1 / n : ℝ)))) := by
  have hd : 0 < (Mᵀ * M).det := by
    rw [det_mul, det_transpose]
    exact mul_pos hM.det_pos hM.det_pos
  unfold schatten schattenArray
  simp only [Exponent.val, Int.cast_zero, if_true]
  unfold Top.logdet
  rw [(dispatch_runs_named (.error .runtimeError) _ _ (.error .runtimeError) _).2.2.1.2.1,
    (cholesky_logdet_partial hlib hA hM (.float 1) hst).2]
  simp only [Except.map, Except.ok_bind', Option.map_some, expDiv, Exponent.val]
  rw [hA, show (square M).rows = n from rfl, ← exp_log_div hd]
  simp

/-- A number as a complex number. -/
def Num.value : Num → ℂ
  | .real x => x
  | .cplx z => z

/-- C37, order zero, every method and every square matrix: the norm to the power of the number of rows is the exponential of the
log-determinant that the same method returns, also where this is complex. -/
theorem schatten_zero_power (env : Env) {A : Array2 ℝ} (hrows : 0 < A.value.rows) (gram : Bool) (method : String) {x : Num}
    (h : Top.logdet env A gram (.float 1) method = .ok (some x)) :
    ∃ y, schatten env (.array A) gram (.num (.int 0)) method = .ok (some y) ∧
      Num.value y ^ A.value.rows = Complex.exp (Num.value x) := by
  refine ⟨expDiv A.value.rows x, ?_, ?_⟩
  · unfold schatten schattenArray
    simp only [Exponent.val, Int.cast_zero, if_true]
    rw [h]
    rfl
  · have hn : (A.value.rows : ℂ) ≠ 0 := by exact_mod_cast hrows.ne'
    cases x with
    | real x =>
      simp only [expDiv, Num.value]
      rw [Complex.ofReal_exp, ← Complex.exp_nat_mul]
      congr 1
      push_cast
      field_simp
    | cplx z =>
      simp only [expDiv, Num.value]
      rw [← Complex.exp_nat_mul]
      congr 1
      field_simp

/-! ### C56 -/

/-- C56: `density` with `method='slq'` accepts exactly a number, or an array of one number, with a positive width, and hands them to
the Gaussian in this order. -/
theorem density_slq_accepts (mu : Centre) (sigma : Option ℚ) (x s : ℚ) :
    densitySlqFunction mu sigma = .ok (x, s) ↔ sigma = some s ∧ 0 < s ∧ (mu = .scalar x ∨ mu = .ndarray [x]) := by
  cases sigma with
  | none => cases mu <;> simp [densitySlqFunction, checkMu, checkSigma, bind, Except.bind]
  | some t =>
    by_cases ht : t ≤ 0
    · have : ∀ {s}, t = s → ¬ 0 < s := fun h => by rw [← h]; exact not_lt.2 ht
      cases mu <;> simp [densitySlqFunction, checkMu, checkSigma, bind, Except.bind, ht] <;> intro h h' <;> exact absurd h' (this h)
    · have ht' := not_le.1 ht
      cases mu with
      | ndarray l =>
        rcases l with _ | ⟨a, _ | ⟨b, l⟩⟩ <;>
          simp [densitySlqFunction, checkMu, checkSigma, toDouble, bind, Except.bind, ht]
        constructor
        · rintro ⟨rfl, rfl⟩; exact ⟨rfl, ht', rfl⟩
        · rintro ⟨rfl, -, rfl⟩; exact ⟨rfl, rfl⟩
      | scalar a =>
        simp [densitySlqFunction, checkMu, checkSigma, toDouble, bind, Except.bind, ht]
        constructor
        · rintro ⟨rfl, rfl⟩; exact ⟨rfl, ht', rfl⟩
        · rintro ⟨rfl, -, rfl⟩; exact ⟨rfl, rfl⟩
      | list l => simp [densitySlqFunction, checkMu, checkSigma, toDouble, bind, Except.bind, ht]
      | tuple l => simp [densitySlqFunction, checkMu, checkSigma, toDouble, bind, Except.bind, ht]
      | other => simp [densitySlqFunction, checkMu, checkSigma, toDouble, bind, Except.bind]

/-- C56: every list and tuple that is a valid `coeff` or `interval` is accepted, and everything else is rejected. -/
theorem coeff_sound (x : Seq) (q : ℚ × ℚ × ℚ × ℚ) (h : checkCoeff x = .ok q) :
    (x = .list [q.1, q.2.1, q.2.2.1, q.2.2.2] ∨ x = .tuple [q.1, q.2.1, q.2.2.1, q.2.2.2]) ∧
      q.1 * q.2.2.2 ≠ q.2.1 * q.2.2.1 := by
  unfold checkCoeff at h
  cases x with
  | ndarray l => cases h
  | other => cases h
  | list l =>
    simp only [isSequence, Except.ok_bind'] at h
    split at h
    · split_ifs at h with h1
      cases h
      exact ⟨.inl rfl, h1⟩
    · cases h
  | tuple l =>
    simp only [isSequence, Except.ok_bind'] at h
    split at h
    · split_ifs at h with h1
      cases h
      exact ⟨.inr rfl, h1⟩
    · cases h

theorem coeff_complete (a b c d : ℚ) (h : a * d ≠ b * c) :
    checkCoeff (.list [a, b, c, d]) = .ok (a, b, c, d) ∧ checkCoeff (.tuple [a, b, c, d]) = .ok (a, b, c, d) := by
  constructor <;> simp [checkCoeff, isSequence, Except.ok_bind', h]

/-- Every NumPy array, which the documentation allows, is rejected for `coeff` and for `interval`. -/
theorem ndarray_rejected (l : List ℚ) :
    checkCoeff (.ndarray l) = .error .typeError ∧ checkInterval (.ndarray l) = .error .typeError :=
  ⟨rfl, rfl⟩

/-- An interval whose ends are reversed is accepted (and counts nothing). -/
theorem reversed_interval_accepted (a b : ℚ) : checkInterval (.list [a, b]) = .ok (a, b) := rfl

/-- `density` with `method='slq'` raises for every list and tuple of centres, and for every array whose length is
not one, although its check and the eigenvalue method accept them. -/
theorem density_slq_lists_raise (l : List ℚ) {s : ℚ} (hs : 0 < s) :
    densitySlqFunction (.list l) (some s) = .error .typeError ∧
      densitySlqFunction (.tuple l) (some s) = .error .typeError ∧
      (l.length ≠ 1 → densitySlqFunction (.ndarray l) (some s) = .error .typeError) ∧
      densityCentres (.list l) (some s) = .ok (l, s) ∧ densityCentres (.tuple l) (some s) = .ok (l, s) ∧
      densityCentres (.ndarray l) (some s) = .ok (l, s) := by
  have h : checkSigma (some s) = .ok s := by
    unfold checkSigma
    simp only
    rw [if_neg (by linarith)]
  refine ⟨?_, ?_, fun hl => ?_, ?_, ?_, ?_⟩
  all_goals simp only [densitySlqFunction, densityCentres, checkMu, h, Except.ok_bind']
  · rfl
  · rfl
  · match l, hl with
    | [], _ => rfl
    | [x], hl => exact absurd rfl hl
    | x :: y :: l, _ => rfl

/-! ### Concrete cases -/

example (env : Env) (hlib : EigSpec env.eig) (hsym : env.sym = true)
    (hq : 0 < env.fraction ∧ env.fraction < 1) :
    schatten env (.array (.dense (square !![2, 1; 1, 2]))) false (.num (.float (-1 / 2))) "eigenvalue" =
      .ok (some (.real (schattenNorm !![2, 1; 1, 2] ((-1 / 2 : ℚ) : ℝ)))) :=
  schatten_eigenvalue env hlib hsym hq posDef_two_one (by norm_num) _

example (env : Env) (A : Array2 ℝ) :
    ∃ e, schatten env (.array A) false (.num (.int 2)) "cholesky" = .error e :=
  schatten_unavailable_raises env A false (.int 2) "cholesky"
    ⟨fun _ => by decide, fun h => by simp [Exponent.val] at h, fun h => by simp [Exponent.val] at h; linarith⟩

example (env : Env) : schatten env (.array (.dense (square !![3, 0; 0, 4]))) false (.num (.int (2 : ℕ))) "exact" =
    .ok (some (.real ((((!![3, 0; 0, 4] : Matrix (Fin 2) (Fin 2) ℝ) ^ 2).trace / (2 : ℕ)) ^ (1 / (2 : ℕ) : ℝ)))) :=
  schatten_exact env rfl (by norm_num) (by norm_num)
    (by simp [Matrix.trace, pow_two, Matrix.mul_apply, Fin.sum_univ_two]; norm_num) false rfl

end Imate.Props
