import Verif.Lemmas.Toeplitz
import Verif.Lemmas.Args
import Mathlib.LinearAlgebra.Matrix.PosDef
import Mathlib.Algebra.Order.Star.Real
import Mathlib.LinearAlgebra.Matrix.Charpoly.Basic
import Mathlib.Analysis.SpecialFunctions.Pow.Real
import Mathlib.Tactic.NormNum
import Mathlib.Tactic.Positivity

/-!
# C47: the Toeplitz matrix and its analytic functions
-/

namespace Imate.Props

open Imate.Sample Imate.Spec Imate.Args Matrix

/-- `toeplitz` makes the documented matrices, entry by entry, for every size. -/
theorem toeplitz_matrix (a b : ℝ) (n : ℕ) :
    toeplitz a b n false = toeplitzBidiagonal a b n ∧ toeplitz a b n true = toeplitzTridiagonal a b n := by
  simp only [toeplitz, coo_toeplitz, Bool.false_eq_true, if_false, if_true]
  exact ⟨trivial, bidiagonal_gram a b n⟩

example : toeplitz (2 : ℝ) 3 3 true = !![4, 6, 0; 6, 13, 6; 0, 6, 13] := by
  rw [(toeplitz_matrix 2 3 3).2]
  funext i j
  fin_cases i <;> fin_cases j <;> norm_num [toeplitzTridiagonal]

theorem toeplitz_gram_eq (a b : ℝ) (n : ℕ) :
    toeplitz a b n true = (toeplitzBidiagonal a b n)ᵀ * toeplitzBidiagonal a b n := by
  rw [(toeplitz_matrix a b n).2, bidiagonal_gram]

/-- All eigenvalues of the matrix are `a` (the documented warning). -/
theorem toeplitz_charpoly (a b : ℝ) (n : ℕ) :
    (toeplitz a b n false).charpoly = (Polynomial.X - Polynomial.C a) ^ n := by
  rw [(toeplitz_matrix a b n).1, Matrix.charpoly_of_isUpperTriangular]
  · simp [toeplitzBidiagonal]
  · intro i j hij
    exact (upper_bidiagonal a b n).1 i j (by simpa using hij)

/-- The Gramian is symmetric and positive definite, as documented, when `a` is not zero. -/
theorem toeplitz_gram_posDef {a : ℝ} (ha : a ≠ 0) (b : ℝ) (n : ℕ) : (toeplitz a b n true).PosDef := by
  rw [toeplitz_gram_eq]
  have : Function.Injective (toeplitzBidiagonal a b n).mulVec := by
    refine Matrix.mulVec_injective_of_isUnit ?_
    rw [Matrix.isUnit_iff_isUnit_det, bidiagonal_det]
    exact (pow_ne_zero _ ha).isUnit
  exact Matrix.PosDef.conjTranspose_mul_self _ this

/-- `toeplitz_trace` is the trace, for every positive size. -/
theorem toeplitz_trace (a b : ℝ) {n : ℕ} (hn : 0 < n) (gram : Bool) :
    toeplitzTrace a b n gram = (toeplitz a b n gram).trace := by
  obtain ⟨n, rfl⟩ := Nat.exists_eq_add_of_lt hn
  cases gram
  · rw [(toeplitz_matrix _ _ _).1, (upper_bidiagonal a b _).trace]
    simp [toeplitzTrace]
  · rw [(toeplitz_matrix _ _ _).2]
    simp only [toeplitzTrace, if_true, Matrix.trace, Matrix.diag_apply, toeplitzTridiagonal]
    rw [Nat.zero_add, Fin.sum_univ_succ]
    simp [mul_add]

example : toeplitzTrace (2 : ℝ) 3 6 true = 69 := by norm_num [toeplitzTrace]

/-- `toeplitz_traceinv` is the trace of the inverse for the bidiagonal matrix of every size, and for the Gramian
when `a = b`, or when `a ≠ -b` and the size is less than 200.  Missing: `a = -b`
(`toeplitz_traceinv_opposite_raises`) and the larger sizes (`toeplitz_traceinv_large`). -/
theorem toeplitz_traceinv_partial {a : ℝ} (ha : a ≠ 0) (b : ℝ) (n : ℕ) (gram : Bool)
    (h : gram = true → a = b ∨ (a ≠ -b ∧ n < 200)) :
    toeplitzTraceinv a b n gram = .ok (((toeplitz a b n gram)⁻¹).trace) := by
  cases gram
  · simp only [toeplitzTraceinv, Bool.false_eq_true, if_false, if_neg ha]
    rw [(toeplitz_matrix _ _ _).1, Matrix.inv_eq_right_inv (bidiagonal_mul_inv ha b n),
      (upper_bidiagonalInv a b n).trace]
    congr 1
    ring
  · rw [toeplitz_gram_eq, trace_inv_gram ha]
    have ha2 : 2 * a ^ 2 ≠ 0 := by positivity
    simp only [toeplitzTraceinv, if_true]
    by_cases hab : a = b
    · subst hab
      rw [if_pos rfl, if_neg ha2, div_self ha]
      simp only [one_pow]
      rw [show (∑ j ∈ Finset.range n, ∑ m ∈ Finset.range (j + 1), (1 : ℝ)) = n * (n + 1) / 2 by
        simpa using geom_double_one n]
      congr 1
      field_simp
    · obtain ⟨hab', hn⟩ := (h rfl).resolve_left hab
      have hd : a ^ 2 - b ^ 2 ≠ 0 := by
        rw [sq_sub_sq]
        exact mul_ne_zero (fun h0 => hab' (by linarith)) (sub_ne_zero.2 hab)
      have hr : (b / a) ^ 2 ≠ 1 := by
        rw [div_pow, Ne, div_eq_one_iff_eq (pow_ne_zero _ ha)]
        intro h0
        exact hd (by rw [h0, sub_self])
      rw [if_neg hab, if_neg ha, if_neg hd, if_pos hn, geom_double hr]
      have h1 : (b / a) ^ 2 - 1 ≠ 0 := sub_ne_zero.2 hr
      have h2 : 1 - (b / a) ^ 2 ≠ 0 := sub_ne_zero.2 hr.symm
      have h3 : a ^ 2 - b ^ 2 = a ^ 2 * (1 - (b / a) ^ 2) := by field_simp
      rw [h3, pow_mul]
      congr 1
      field_simp

example : toeplitzTraceinv (2 : ℝ) 3 6 true = .ok 45.148681640625 := by
  norm_num [toeplitzTraceinv]

/-- From size 200 on, `toeplitz_traceinv` of the Gramian is off by this amount. -/
theorem toeplitz_traceinv_large {a b : ℝ} (ha : a ≠ 0) (h1 : a ≠ b) (h2 : a ≠ -b) {n : ℕ} (hn : 200 ≤ n) :
    ∃ r, toeplitzTraceinv a b n true = .ok r ∧
      ((toeplitz a b n true)⁻¹).trace - r = (b / a) ^ (2 * n + 2) / (a ^ 2 * (1 - (b / a) ^ 2) ^ 2) := by
  have hd : a ^ 2 - b ^ 2 ≠ 0 := by
    rw [sq_sub_sq]
    exact mul_ne_zero (fun h0 => h2 (by linarith)) (sub_ne_zero.2 h1)
  have hr : (b / a) ^ 2 ≠ 1 := by
    rw [div_pow, Ne, div_eq_one_iff_eq (pow_ne_zero _ ha)]
    intro h0
    exact hd (by rw [h0, sub_self])
  simp only [toeplitzTraceinv, if_true]
  rw [if_neg h1, if_neg ha, if_neg hd, if_neg (by omega)]
  refine ⟨_, rfl, ?_⟩
  rw [toeplitz_gram_eq, trace_inv_gram ha, geom_double hr]
  have h1 : (b / a) ^ 2 - 1 ≠ 0 := sub_ne_zero.2 hr
  have h2 : 1 - (b / a) ^ 2 ≠ 0 := sub_ne_zero.2 hr.symm
  have h3 : a ^ 2 - b ^ 2 = a ^ 2 * (1 - (b / a) ^ 2) := by field_simp
  have h4 : (b / a) ^ (2 * n + 2) = (b / a) ^ 2 * ((b / a) ^ 2) ^ n := by rw [← pow_mul, ← pow_add, add_comm]
  rw [h3, h4]
  generalize (b / a) ^ 2 = q at *
  field_simp
  ring

/-- When `|b| > |a|`, the value returned from size 200 on is negative, although the Gramian is positive definite. -/
theorem toeplitz_traceinv_large_negative {a b : ℝ} (ha : a ≠ 0) (hab : |a| < |b|) {n : ℕ} (hn : 200 ≤ n) :
    ∃ r, toeplitzTraceinv a b n true = .ok r ∧ r < 0 ∧ 0 ≤ ((toeplitz a b n true)⁻¹).trace := by
  have hsq : a ^ 2 < b ^ 2 := sq_lt_sq.2 hab
  have h1 : a ≠ b := by rintro rfl; exact lt_irrefl _ hab
  have hd : a ^ 2 - b ^ 2 < 0 := by linarith
  have hr : 1 < (b / a) ^ 2 := by rw [div_pow, one_lt_div (by positivity)]; exact hsq
  simp only [toeplitzTraceinv, if_true]
  rw [if_neg h1, if_neg ha, if_neg hd.ne, if_neg (by omega)]
  refine ⟨_, rfl, ?_, ?_⟩
  · refine mul_neg_of_neg_of_pos (div_neg_of_pos_of_neg one_pos hd) ?_
    have : (b / a) ^ 2 / (1 - (b / a) ^ 2) < 0 := div_neg_of_pos_of_neg (by linarith) (by linarith)
    have : (0 : ℝ) ≤ n := Nat.cast_nonneg n
    linarith
  · rw [toeplitz_gram_eq, trace_inv_gram ha]
    exact mul_nonneg (by positivity) (Finset.sum_nonneg fun j _ => Finset.sum_nonneg fun m _ => by positivity)

example : ∃ r, toeplitzTraceinv (2 : ℝ) 3 200 true = .ok r ∧ r < 0 ∧ 0 ≤ ((toeplitz (2 : ℝ) 3 200 true)⁻¹).trace :=
  toeplitz_traceinv_large_negative (by norm_num) (by norm_num) le_rfl

/-- `toeplitz_traceinv` raises for `b = -a`, although the Gramian is positive definite. -/
theorem toeplitz_traceinv_opposite_raises {a : ℝ} (ha : a ≠ 0) (n : ℕ) :
    toeplitzTraceinv a (-a) n true = .error .zeroDivision ∧
      ((toeplitz a (-a) n true)⁻¹).trace = n * (n + 1) / (2 * a ^ 2) := by
  constructor
  · simp only [toeplitzTraceinv, if_true]
    rw [if_neg (fun h => ha (by linarith)), if_neg ha, if_pos (by ring)]
  · rw [toeplitz_gram_eq, trace_inv_gram ha]
    have : (-a / a) ^ 2 = 1 := by rw [neg_div, div_self ha]; norm_num
    rw [this, geom_double_one]
    field_simp

/-- `toeplitz_logdet` is the logarithm of the determinant when `a` is positive.  Missing: negative `a`
(`toeplitz_logdet_negative_nan`). -/
theorem toeplitz_logdet_partial {a : ℝ} (ha : 0 < a) (b : ℝ) (n : ℕ) (gram : Bool) :
    toeplitzLogdet a b n gram = .fin (Real.log (toeplitz a b n gram).det) := by
  cases gram
  · rw [(toeplitz_matrix _ _ _).1, bidiagonal_det, Real.log_pow]
    simp [toeplitzLogdet, numpyLog, ha, scaleBy]
  · rw [toeplitz_gram_eq, Matrix.det_mul, Matrix.det_transpose, bidiagonal_det, ← sq, ← pow_mul, Real.log_pow]
    simp only [toeplitzLogdet, numpyLog, ha, scaleBy, if_true]
    push_cast
    congr 1
    ring

example : toeplitzLogdet 1 5 6 true = .fin 0 := by
  rw [toeplitz_logdet_partial one_pos, toeplitz_gram_eq, Matrix.det_mul, Matrix.det_transpose, bidiagonal_det]
  simp

/-- For a negative `a`, `toeplitz_logdet` of the Gramian is `nan`, although the Gramian is positive definite with
the determinant `a ^ (2 n)`. -/
theorem toeplitz_logdet_negative_nan {a : ℝ} (ha : a < 0) (b : ℝ) (n : ℕ) :
    toeplitzLogdet a b n true = .nan ∧ (toeplitz a b n true).det = a ^ (2 * n) ∧ 0 < a ^ (2 * n) := by
  refine ⟨?_, ?_, ?_⟩
  · simp [toeplitzLogdet, numpyLog, ha.not_gt, ha.ne, scaleBy]
  · rw [toeplitz_gram_eq, Matrix.det_mul, Matrix.det_transpose, bidiagonal_det]
    ring
  · rw [pow_mul]
    exact pow_pos (sq_pos_of_neg ha) _

/-- `toeplitz_schatten` is the documented Schatten norm of the bidiagonal matrix, for a positive `a`, every positive
size and every integer order.  Missing: negative `a` (`toeplitz_schatten_negative_wrong`) and the orders that are
not integers. -/
theorem toeplitz_schatten_partial {a : ℝ} (ha : 0 < a) (b : ℝ) {n : ℕ} (hn : 0 < n) (p : ℤ) :
    toeplitzSchatten a b n p =
      if p = 0 then |(toeplitz a b n false).det| ^ (1 / (n : ℝ))
      else |1 / (n : ℝ) * ((toeplitz a b n false) ^ p).trace| ^ (1 / (p : ℝ)) := by
  have hn' : (n : ℝ) ≠ 0 := by positivity
  rw [(toeplitz_matrix _ _ _).1]
  split_ifs with hp
  · rw [bidiagonal_det, abs_of_pos (by positivity), ← Real.rpow_natCast, ← Real.rpow_mul ha.le,
      mul_one_div_cancel hn', Real.rpow_one]
    rfl
  · have hp' : (p : ℝ) ≠ 0 := by exact_mod_cast hp
    rw [trace_zpow ha.ne', ← mul_assoc, one_div_mul_cancel hn', one_mul, abs_of_pos (by positivity),
      ← Real.rpow_intCast, ← Real.rpow_mul ha.le, mul_one_div_cancel hp', Real.rpow_one]
    rfl

/-- For a negative `a` it returns a negative norm. -/
theorem toeplitz_schatten_negative_wrong {a : ℝ} (ha : a < 0) (b : ℝ) {n : ℕ} (hn : 0 < n) :
    toeplitzSchatten a b n 1 < 0 ∧
      |1 / (n : ℝ) * ((toeplitz a b n false) ^ (1 : ℤ)).trace| ^ (1 / (1 : ℝ)) = -a := by
  refine ⟨ha, ?_⟩
  have hn' : (n : ℝ) ≠ 0 := by positivity
  rw [(toeplitz_matrix _ _ _).1, trace_zpow ha.ne, ← mul_assoc, one_div_mul_cancel hn', one_mul, zpow_one,
    div_one, Real.rpow_one, abs_of_neg ha]

/-- `toeplitz` accepts exactly the documented arguments, and then returns a matrix of the given size: real numbers
`a` and `b`, a positive integer, a flag, the name of a format (or `None`) and of a type. -/
theorem toeplitz_accepts_iff (a b size gram format dtype : PyVal) (n : ℕ) :
    toeplitzCall a b size gram format dtype = .ok n ↔
      a.isIntegerOrFloat = true ∧ b.isIntegerOrFloat = true ∧
      (size.isInteger = true ∧ 1 ≤ size.intValue ∧ size.intValue = n) ∧
      gram.isBool = true ∧
      (format = .none ∨ format = .str "csr" ∨ format = .str "csc") ∧
      (dtype = .str "float32" ∨ dtype = .str "float64" ∨ dtype = .str "float128") := by
  have hreal : ∀ v : PyVal, checkReal v = .ok () ↔ v.isIntegerOrFloat = true := by
    intro v; cases v <;> simp [checkReal, PyVal.isIntegerOrFloat]
  have hgram : checkGram gram = .ok () ↔ gram.isBool = true := by
    cases gram <;> simp [checkGram, PyVal.isBool, PyVal.isscalar]
  have hformat : checkFormat format = .ok () ↔ (format = .none ∨ format = .str "csr" ∨ format = .str "csc") := by
    cases format <;> simp [checkFormat, imp_iff_not_or]
  have hdtype : checkDtype dtype = .ok () ↔
      (dtype = .str "float32" ∨ dtype = .str "float64" ∨ dtype = .str "float128") := by
    cases dtype <;> simp [checkDtype, imp_iff_not_or]
  have hsize : (checkSize size = .ok () ∧ toeplitzSize size = .ok n) ↔
      (size.isInteger = true ∧ 1 ≤ size.intValue ∧ size.intValue = n) := by
    unfold checkSize toeplitzSize
    split
    · simp [PyVal.isInteger]
    · have hsc : size.isInteger = true → size.isscalar = true := by
        cases size <;> simp [PyVal.isInteger, PyVal.isscalar]
      by_cases hi : size.isInteger = true
      · have hs := hsc hi
        by_cases h1 : size.intValue < 1
        · simp [hi, hs, h1]
        · simp [hi, hs, h1]
          omega
      · simp [hi]
  rw [← hreal a, ← hreal b, ← hgram, ← hformat, ← hdtype, ← hsize]
  unfold toeplitzCall toeplitzCheck
  cases checkReal a <;> cases checkReal b <;> cases checkSize size <;> cases checkGram gram <;>
    cases checkFormat format <;> cases checkDtype dtype <;> simp [bind, Except.bind]

/-- Without the number `a` or `b` (`None`) `toeplitz` raises `ValueError`, whatever the other arguments; with an object that is no
real number `TypeError`. -/
theorem toeplitz_none_raises (a b size gram format dtype : PyVal) :
    toeplitzCall .none b size gram format dtype = .error .valueError ∧
    (a.isIntegerOrFloat = true → toeplitzCall a .none size gram format dtype = .error .valueError) ∧
    (a ≠ .none → a.isIntegerOrFloat = false → toeplitzCall a b size gram format dtype = .error .typeError) := by
  refine ⟨rfl, fun h => ?_, fun h1 h2 => ?_⟩
  · cases a <;> first | rfl | simp [PyVal.isIntegerOrFloat] at h
  · cases a <;> first | rfl | simp [PyVal.isIntegerOrFloat] at h1 h2

example : toeplitzCall (.int 2) (.float (.fin 3)) (.int 6) (.bool true) .none (.str "float64") = .ok 6 := by
  rw [toeplitz_accepts_iff]
  simp [PyVal.isIntegerOrFloat, PyVal.isInteger, PyVal.isBool, PyVal.intValue]

end Imate.Props
