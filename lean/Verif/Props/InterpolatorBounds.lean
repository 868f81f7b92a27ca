import Verif.Lemmas.InterpolatorNorm
import Verif.Model.InterpolatorCall

/-!
# C42: bounds of the interpolators
-/

namespace Imate.Props

open Imate.Spec Imate.Interp Imate.Eigen Matrix Finset

variable {n : ℕ} {P : Problem n}

/-- The interpolators of symmetric dense matrices compute the Schatten norm when they call the eigenvalue method. -/
theorem eigenvalue_computes_schatten (env : Top.Env) (hlib : EigSpec env.eig) (hsym : env.sym = true)
    (hq : 0 < env.fraction ∧ env.fraction < 1) (hn : 0 < n) (A : Matrix (Fin n) (Fin n) ℝ)
    (B : Option (Matrix (Fin n) (Fin n) ℝ)) (p : Hutchinson.Exponent) :
    ComputesSchatten (Problem.ofCall env A B p "eigenvalue") := by
  intro M hM
  have h := schatten_eigenvalue env hlib hsym hq hM hn p
  simp only [Problem.ofCall, schattenCall]
  rw [show (⟨n, n, M⟩ : Hutchinson.Mat ℝ) = square M from rfl, h]

/-- C42: `bound(t)` for `t ≥ 0` is an upper bound for `p ≥ 1` and a lower bound for `p < 1`. -/
theorem bound_brackets (hn : 0 < n) (hA : P.A.PosDef) (hB : ∀ B, P.B = some B → B.PosDef) (hS : ComputesSchatten P)
    {t : ℝ} (ht : 0 ≤ t) :
    ∃ s b, P.eval t = .ok s ∧ P.bound t = .ok (some b) ∧ (1 ≤ P.p → s ≤ b) ∧ (P.p < 1 → b ≤ s) := by
  have hP := goodProblem_of hn hA hB hS
  refine ⟨_, _, hS _ (posDef_affine hP ht), bound_eq hn hA hB hS t, ?_⟩
  rcases ht.eq_or_lt with h | h
  · subst h; simp
  · have hBt := (posDef_matB hP).smul h
    have := schattenNorm_add hA hBt hn P.p
    rw [schattenNorm_smul (posDef_matB hP) hn h] at this
    exact this

/-- C42: for `t ≤ 0` and `A + tB` still positive definite the directions are opposite. -/
theorem bound_brackets_neg (hn : 0 < n) (hA : P.A.PosDef) (hB : ∀ B, P.B = some B → B.PosDef)
    (hS : ComputesSchatten P) {t : ℝ} (ht : t ≤ 0) (hX : (P.A + t • P.matB).PosDef) :
    ∃ s b, P.eval t = .ok s ∧ P.bound t = .ok (some b) ∧ (1 ≤ P.p → b ≤ s) ∧ (P.p < 1 → s ≤ b) := by
  have hP := goodProblem_of hn hA hB hS
  refine ⟨_, _, hS _ hX, bound_eq hn hA hB hS t, ?_⟩
  rcases ht.eq_or_lt with h | h
  · subst h; simp
  · have h' : 0 < -t := by linarith
    have hBt := (posDef_matB hP).smul h'
    have := schattenNorm_add hX hBt hn P.p
    rw [schattenNorm_smul (posDef_matB hP) hn h', add_assoc, ← add_smul, add_neg_cancel, zero_smul, add_zero] at this
    exact ⟨fun h => by linarith [this.1 h], fun h => by linarith [this.2 h]⟩

/-- C42: the bound is attained at zero, and everywhere when `A` is a multiple of `B`. -/
theorem bound_attained (hn : 0 < n) (hA : P.A.PosDef) (hB : ∀ B, P.B = some B → B.PosDef) (hS : ComputesSchatten P) :
    (∃ s, P.eval 0 = .ok s ∧ P.bound 0 = .ok (some s)) ∧
      ∀ c : ℝ, 0 < c → P.A = c • P.matB → ∀ t, 0 ≤ t → ∃ s, P.eval t = .ok s ∧ P.bound t = .ok (some s) := by
  have hP := goodProblem_of hn hA hB hS
  constructor
  · refine ⟨schattenNorm P.A P.p, ?_, by rw [bound_eq hn hA hB hS]; simp⟩
    unfold Problem.eval
    rw [zero_smul, add_zero, hS _ hA]
  · intro c hc hAc t ht
    refine ⟨_, hS _ (posDef_affine hP ht), ?_⟩
    rw [bound_eq hn hA hB hS]
    have hB' := posDef_matB hP
    rw [hAc, ← add_smul, schattenNorm_smul hB' hn hc,
      schattenNorm_smul hB' hn (by linarith : 0 < c + t), add_mul]

/-- C42: `upper_bound(t)` for `p = -1` and dense matrices: it is the mean of the diagonal and not below the function,
for every `t` with `A + tB` positive definite. -/
theorem upper_bound_dense (hn : 0 < n) (hS : ComputesSchatten P) (hp : P.p = -1) (hd : P.sparse = false) {t : ℝ}
    (hX : (P.A + t • P.matB).PosDef) :
    ∃ s b, P.eval t = .ok s ∧ P.upperBound t = .ok (some b) ∧ s ≤ b ∧
      b = (P.A.trace + t * P.matB.trace) / n := by
  have hn' : (0 : ℝ) < n := by exact_mod_cast hn
  have htr : (P.A + t • P.matB).trace = P.A.trace + t * P.matB.trace := by
    rw [trace_add, trace_smul, smul_eq_mul]
  have hle := schattenNorm_neg_one_le hX hn
  have hpos : 0 < P.A.trace + t * P.matB.trace := by
    rw [← htr]
    have := lt_of_lt_of_le (schattenNorm_pos hX hn (-1)) hle
    rcases div_pos_iff.1 this with h | h
    · exact h.1
    · linarith [h.2]
  refine ⟨_, _, hS _ hX, ?_, ?_, rfl⟩
  · unfold Problem.upperBound
    rw [if_neg (by rw [hp]; simp), hd, hp]
    simp only [Bool.false_eq_true, if_false]
    rw [if_neg (by push Not; exact ⟨hpos.ne', hn.ne'⟩), powR_pos (by positivity)]
    simp only
    congr 2
    rw [show (1 : ℝ) / -1 = -1 by norm_num, Real.rpow_neg_one]
    field_simp
  · rw [← htr, hp]; exact hle

/-- `upper_bound` of a sparse matrix raises for every `p`, and of a dense one for `p ≠ -1`. -/
theorem upper_bound_raises (t : ℝ) (h : P.sparse = true ∨ P.p ≠ -1) : P.upperBound t = .error .valueError := by
  unfold Problem.upperBound
  split_ifs with h1 h2
  · rfl
  · rfl
  · exact absurd h (by tauto)

theorem toTracep_pos {p s : ℝ} (hs : 0 < s) : toTracep n p (some s) = some (s ^ p * n) := by
  simp only [toTracep, Option.bind_some, powR_pos hs]

theorem toLogdet_pos {s : ℝ} (hs : 0 < s) : toLogdet n (some s) = some (n * Real.log s) := by
  simp only [toLogdet, Option.bind_some, if_pos hs]

/-- The common part: the norm and the bound are positive. -/
theorem bound_pos (hn : 0 < n) (hA : P.A.PosDef) (hB : ∀ B, P.B = some B → B.PosDef) (hS : ComputesSchatten P)
    {t : ℝ} (ht : 0 ≤ t) :
    ∃ s b, 0 < s ∧ 0 < b ∧ P.eval t = .ok s ∧ P.bound t = .ok (some b) ∧ (1 ≤ P.p → s ≤ b) ∧ (P.p < 1 → b ≤ s) := by
  have hP := goodProblem_of hn hA hB hS
  obtain ⟨s, b, h1, h2, h3⟩ := bound_brackets hn hA hB hS ht
  obtain ⟨s', hs', he⟩ := eval_pos hP ht
  rw [h1] at he
  have : s = s' := by injection he
  have hb := bound_eq hn hA hB hS t
  rw [h2] at hb
  have hb' : b = schattenNorm P.A P.p + t * schattenNorm P.matB P.p := by
    injection hb with hb; injection hb
  refine ⟨s, b, this ▸ hs', ?_, h1, h2, h3⟩
  have h4 := schattenNorm_pos hA hn P.p
  have h5 := schattenNorm_pos (posDef_matB hP) hn P.p
  rw [hb']; positivity

/-- C42: `InterpolateTrace.upper_bound` is an upper bound of the trace of the power for `p < 0` and for `p ≥ 1`.
Missing: `0 < p < 1`, where it is a lower bound (`trace_upper_bound_reversed`). -/
theorem trace_upper_bound_partial (hn : 0 < n) (hA : P.A.PosDef) (hB : ∀ B, P.B = some B → B.PosDef)
    (hS : ComputesSchatten P) {t : ℝ} (ht : 0 ≤ t) (hp : P.p < 0 ∨ 1 ≤ P.p) :
    ∃ x b, P.traceEval t = .ok (some x) ∧ P.traceUpperBound t = .ok (some b) ∧ x ≤ b := by
  obtain ⟨s, b, hs, hb, h1, h2, h3, h4⟩ := bound_pos hn hA hB hS ht
  have hn' : (0 : ℝ) ≤ n := Nat.cast_nonneg n
  refine ⟨s ^ P.p * n, b ^ P.p * n, ?_, ?_, ?_⟩
  · simp only [Problem.traceEval, h1, Except.map, toTracep_pos hs]
  · simp only [Problem.traceUpperBound, h2, Except.map, toTracep_pos hb]
  · refine mul_le_mul_of_nonneg_right ?_ hn'
    rcases hp with hp | hp
    · exact Real.rpow_le_rpow_of_nonpos hb (h4 (by linarith)) hp.le
    · exact Real.rpow_le_rpow hs.le (h3 hp) (by linarith)

/-- For `0 < p < 1` the function called `upper_bound` of the trace is a lower bound. -/
theorem trace_upper_bound_reversed (hn : 0 < n) (hA : P.A.PosDef) (hB : ∀ B, P.B = some B → B.PosDef)
    (hS : ComputesSchatten P) {t : ℝ} (ht : 0 ≤ t) (h0 : 0 < P.p) (h1 : P.p < 1) :
    ∃ x b, P.traceEval t = .ok (some x) ∧ P.traceUpperBound t = .ok (some b) ∧ b ≤ x := by
  obtain ⟨s, b, hs, hb, h2, h3, -, h4⟩ := bound_pos hn hA hB hS ht
  refine ⟨s ^ P.p * n, b ^ P.p * n, ?_, ?_, ?_⟩
  · simp only [Problem.traceEval, h2, Except.map, toTracep_pos hs]
  · simp only [Problem.traceUpperBound, h3, Except.map, toTracep_pos hb]
  · exact mul_le_mul_of_nonneg_right (Real.rpow_le_rpow hb.le (h4 h1) h0.le) (Nat.cast_nonneg n)

/-- C42: `InterpolateTrace.lower_bound` for `p = -1` and dense matrices. -/
theorem trace_lower_bound_dense (hn : 0 < n) (hS : ComputesSchatten P) (hp : P.p = -1) (hd : P.sparse = false)
    {t : ℝ} (hX : (P.A + t • P.matB).PosDef) :
    ∃ x b, P.traceEval t = .ok (some x) ∧ P.traceLowerBound t = .ok (some b) ∧ b ≤ x ∧
      b = (n : ℝ) ^ 2 / (P.A.trace + t * P.matB.trace) := by
  obtain ⟨s, b, h1, h2, h3, h4⟩ := upper_bound_dense hn hS hp hd hX
  have hn' : (0 : ℝ) < n := by exact_mod_cast hn
  have hs : 0 < s := by
    have := hS _ hX
    unfold Problem.eval at h1
    rw [this] at h1
    have e : schattenNorm (P.A + t • P.matB) P.p = s := by injection h1
    rw [← e]; exact schattenNorm_pos hX hn P.p
  have hb : 0 < b := lt_of_lt_of_le hs h3
  refine ⟨s ^ P.p * n, b ^ P.p * n, ?_, ?_, ?_, ?_⟩
  · simp only [Problem.traceEval, h1, Except.map, toTracep_pos hs]
  · simp only [Problem.traceLowerBound, h2, Except.map, toTracep_pos hb]
  · exact mul_le_mul_of_nonneg_right (Real.rpow_le_rpow_of_nonpos hs h3 (by rw [hp]; norm_num)) hn'.le
  · have hd : P.A.trace + t * P.matB.trace ≠ 0 := by
      intro h; rw [h] at h4; rw [h4] at hb; simp at hb
    rw [hp, Real.rpow_neg_one, h4]
    field_simp

/-- C42: `InterpolateLogdet.lower_bound`. -/
theorem logdet_lower_bound (hn : 0 < n) (hA : P.A.PosDef) (hB : ∀ B, P.B = some B → B.PosDef)
    (hS : ComputesSchatten P) (hp : P.p = 0) {t : ℝ} (ht : 0 ≤ t) :
    ∃ x b, P.logdetEval t = .ok (some x) ∧ P.logdetLowerBound t = .ok (some b) ∧ b ≤ x ∧
      x = Real.log (P.A + t • P.matB).det := by
  obtain ⟨s, b, hs, hb, h2, h3, -, h4⟩ := bound_pos hn hA hB hS ht
  have hX := posDef_affine (goodProblem_of hn hA hB hS) ht
  refine ⟨n * Real.log s, n * Real.log b, ?_, ?_, ?_, ?_⟩
  · simp only [Problem.logdetEval, h2, Except.map, toLogdet_pos hs]
  · simp only [Problem.logdetLowerBound, h3, Except.map, toLogdet_pos hb]
  · exact mul_le_mul_of_nonneg_left (Real.log_le_log hb (h4 (by rw [hp]; norm_num))) (Nat.cast_nonneg n)
  · have := hS _ hX
    unfold Problem.eval at h2
    rw [this] at h2
    have e : schattenNorm (P.A + t • P.matB) P.p = s := by injection h2
    rw [schattenNorm_log hX hn, ← e, hp]

/-! ### A concrete problem -/

/-- The matrix `diag(1, 4)` with `B = None` and the exact Schatten norm. -/
noncomputable def diagProblem (p : ℝ) (sparse : Bool) : Problem 2 :=
  ⟨diagonal ![1, 4], none, sparse, p, fun M => .ok (schattenNorm M p)⟩

theorem diagProblem_pos (p : ℝ) (sparse : Bool) : (diagProblem p sparse).A.PosDef :=
  Interp.posDef_diagonal fun i => by fin_cases i <;> simp

theorem diagProblem_schatten (p : ℝ) (sparse : Bool) : ComputesSchatten (diagProblem p sparse) := fun _ _ => rfl

theorem diagProblem_B (p : ℝ) (sparse : Bool) : ∀ B, (diagProblem p sparse).B = some B → B.PosDef := by
  intro B h; cases h

theorem diagProblem_affine (p : ℝ) (sparse : Bool) (t : ℝ) :
    (diagProblem p sparse).A + t • (diagProblem p sparse).matB = diagonal ![1 + t, 4 + t] := by
  ext i j
  fin_cases i <;> fin_cases j <;>
    simp [diagProblem, Problem.matB]

/-- `upper_bound` of the trace of the square root is below the trace: `diag(1, 4)` at `t = 5`. -/
theorem trace_upper_bound_fails : ∃ x b, (diagProblem (1 / 2) false).traceEval 5 = .ok (some x) ∧
    (diagProblem (1 / 2) false).traceUpperBound 5 = .ok (some b) ∧ b < x := by
  set P := diagProblem (1 / 2) false with hP
  have hA : schattenNorm P.A P.p = 9 / 4 := by
    change schattenNorm (diagonal ![1, 4]) (1 / 2) = 9 / 4
    rw [schattenNorm_diagonal (by norm_num)]
    simp only [Fin.sum_univ_two, cons_val_zero, cons_val_one, ← Real.sqrt_eq_rpow]
    rw [show (4 : ℝ) = 2 ^ 2 by norm_num, Real.sqrt_sq (by norm_num), Real.sqrt_one]
    norm_num
  have hb := bound_eq (P := P) (by norm_num) (diagProblem_pos _ _) (diagProblem_B _ _) (diagProblem_schatten _ _) 5
  have hone : schattenNorm P.matB P.p = 1 := schattenNorm_one (by norm_num) _
  rw [hA, hone] at hb
  have he : P.eval 5 = .ok (schattenNorm (diagonal ![6, 9]) (1 / 2)) := by
    unfold Problem.eval
    rw [hP, diagProblem_affine]
    norm_num [diagProblem]
  have hs : schattenNorm (diagonal ![6, 9] : Matrix (Fin 2) (Fin 2) ℝ) (1 / 2) = ((Real.sqrt 6 + 3) / 2) ^ 2 := by
    rw [schattenNorm_diagonal (by norm_num)]
    simp only [Fin.sum_univ_two, cons_val_zero, cons_val_one, ← Real.sqrt_eq_rpow]
    rw [show (9 : ℝ) = 3 ^ 2 by norm_num, Real.sqrt_sq (by norm_num), abs_of_nonneg (by positivity),
      show (1 : ℝ) / (1 / 2) = (2 : ℕ) by norm_num, Real.rpow_natCast]
    norm_num
  have h6 : (2.44 : ℝ) < Real.sqrt 6 := Real.lt_sqrt_of_sq_lt (by norm_num)
  refine ⟨(((Real.sqrt 6 + 3) / 2) ^ 2) ^ (1 / 2 : ℝ) * (2 : ℕ), (29 / 4) ^ (1 / 2 : ℝ) * (2 : ℕ), ?_, ?_, ?_⟩
  · simp only [Problem.traceEval, he, Except.map, hs]
    rw [toTracep_pos (by positivity)]
    rfl
  · simp only [Problem.traceUpperBound, hb, Except.map]
    rw [toTracep_pos (by norm_num)]
    norm_num [hP, diagProblem]
  · rw [← Real.sqrt_eq_rpow, ← Real.sqrt_eq_rpow, Real.sqrt_sq (by positivity)]
    have : Real.sqrt (29 / 4) < 2.7 := by
      rw [Real.sqrt_lt' (by norm_num)]; norm_num
    push_cast
    linarith

/-! ### The hypotheses are met -/

example : ∃ s b, (diagProblem 3 false).eval 2 = .ok s ∧ (diagProblem 3 false).bound 2 = .ok (some b) ∧
    (1 ≤ (3 : ℝ) → s ≤ b) ∧ ((3 : ℝ) < 1 → b ≤ s) :=
  bound_brackets (by norm_num) (diagProblem_pos _ _) (diagProblem_B _ _) (diagProblem_schatten _ _) (by norm_num)

example : ∃ s b, (diagProblem (-1) false).eval (-1 / 2) = .ok s ∧
    (diagProblem (-1) false).bound (-1 / 2) = .ok (some b) ∧ (1 ≤ (-1 : ℝ) → b ≤ s) ∧ ((-1 : ℝ) < 1 → s ≤ b) :=
  bound_brackets_neg (by norm_num) (diagProblem_pos _ _) (diagProblem_B _ _) (diagProblem_schatten _ _) (by norm_num)
    (by rw [diagProblem_affine]; exact Interp.posDef_diagonal fun i => by fin_cases i <;> norm_num)

example : ∃ x b, (diagProblem (-1) false).traceEval 2 = .ok (some x) ∧
    (diagProblem (-1) false).traceLowerBound 2 = .ok (some b) ∧ b ≤ x ∧
      b = ((2 : ℕ) : ℝ) ^ 2 / ((diagProblem (-1) false).A.trace + 2 * (diagProblem (-1) false).matB.trace) :=
  trace_lower_bound_dense (by norm_num) (diagProblem_schatten _ _) rfl rfl
    (by rw [diagProblem_affine]; exact Interp.posDef_diagonal fun i => by fin_cases i <;> norm_num)

example : ∃ x b, (diagProblem 0 true).logdetEval 2 = .ok (some x) ∧
    (diagProblem 0 true).logdetLowerBound 2 = .ok (some b) ∧ b ≤ x ∧
      x = Real.log ((diagProblem 0 true).A + (2 : ℝ) • (diagProblem 0 true).matB).det :=
  logdet_lower_bound (by norm_num) (diagProblem_pos _ _) (diagProblem_B _ _) (diagProblem_schatten _ _) rfl
    (by norm_num)

example : (diagProblem (-1) true).upperBound 1 = .error .valueError := upper_bound_raises 1 (Or.inl rfl)

end Imate.Props
