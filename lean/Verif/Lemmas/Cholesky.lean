import Verif.Lemmas.Triangular
import Verif.Lemmas.Direct
import Mathlib.Analysis.Matrix.PosDef
import Mathlib.Analysis.Matrix.Order
import Mathlib.LinearAlgebra.Matrix.ZPow

/-!
# Lemmas on the Cholesky methods
-/

namespace Imate.Direct

open Matrix Imate.Spec Imate.Hutchinson

variable {n : ℕ}

theorem isSymm_of_posDef {A : Matrix (Fin n) (Fin n) ℝ} (h : A.PosDef) : A.IsSymm := by
  have := h.1
  rwa [IsHermitian, conjTranspose_eq_transpose_of_trivial] at this

theorem lowerSymm_of_isSymm {A : Matrix (Fin n) (Fin n) ℝ} (h : A.IsSymm) : lowerSymm A = A := by
  ext i j
  unfold lowerSymm
  split_ifs
  · rfl
  · exact congrFun (congrFun h i) j

theorem posDef_isUnit {A : Matrix (Fin n) (Fin n) ℝ} (h : A.PosDef) : IsUnit A.det :=
  (Matrix.isUnit_iff_isUnit_det A).1 h.isUnit

theorem posDef_pow {A : Matrix (Fin n) (Fin n) ℝ} (h : A.PosDef) (k : ℕ) : (A ^ k).PosDef :=
  (h.posSemidef.pow k).posDef_iff_isUnit.2 (h.isUnit.pow k)

/-- `sparse_cholesky` factors a positive definite matrix. -/
theorem sparseCholesky_ok {lib : Lib} (hlib : LibSpec lib) {A : Matrix (Fin n) (Fin n) ℝ} (hA : A.PosDef) :
    ∃ L, sparseCholesky lib n A = .ok L ∧ IsCholesky L A := by
  obtain ⟨C, hC⟩ := exists_cholesky hA
  have hlu := cholesky_lu hC
  obtain ⟨lu, hl, hp⟩ := hlib.splu_natural n A ⟨_, _, hlu⟩
  obtain ⟨-, hc, A', hA', e⟩ := hlib.splu_ok n A lu hl
  have : A' = A := by
    ext i j
    rw [e i j, hp, hc]
    rfl
  subst this
  have hU := (lu_unique hA' hlu).2
  have hpos : ∀ i, 0 < lu.U i i := by
    intro i
    rw [hU, diagonal_mul, transpose_apply]
    exact mul_pos (hC.pos i) (hC.pos i)
  refine ⟨_, ?_, lu_cholesky hA' (isSymm_of_posDef hA) hpos⟩
  unfold sparseCholesky
  rw [hl, Except.ok_bind', if_pos]
  unfold luIsPositive
  simp only [hp, id, hpos, implies_true, and_self, decide_true]

/-- If `sparse_cholesky` returns for a symmetric matrix, what it returns is the Cholesky factor. -/
theorem sparseCholesky_sound {lib : Lib} (hlib : LibSpec lib) {A L : Matrix (Fin n) (Fin n) ℝ}
    (hA : A.IsSymm) (h : sparseCholesky lib n A = .ok L) : IsCholesky L A := by
  unfold sparseCholesky at h
  cases hl : lib.splu n A with
  | error e => rw [hl] at h; cases h
  | ok lu =>
    rw [hl, Except.ok_bind'] at h
    split_ifs at h with hb
    cases h
    unfold luIsPositive at hb
    simp only [decide_eq_true_eq] at hb
    obtain ⟨-, hc, A', hA', e⟩ := hlib.splu_ok n A lu hl
    have : A' = A := by
      ext i j
      rw [e i j, hb.1, hc]
      rfl
    subst this
    exact lu_cholesky hA' hA hb.2

/-- `L_A` is a Cholesky factor of a permutation of `A`. -/
theorem factorA_ok {lib : Lib} (hlib : LibSpec lib) (sparse useCholmod : Bool)
    {A : Matrix (Fin n) (Fin n) ℝ} (hA : A.PosDef) :
    ∃ LA, factorA lib sparse useCholmod n A = .ok LA ∧ ∃ σ : Fin n ≃ Fin n,
      IsCholesky LA.lower (A.submatrix σ σ) ∧ ∀ B, LA.permute B = B.submatrix σ id := by
  unfold factorA
  cases sparse with
  | true =>
    cases useCholmod with
    | true =>
      obtain ⟨F, hF, hb, -, hc⟩ := hlib.cholmod_ok false n A hA
      refine ⟨.permuted F, ?_, Equiv.ofBijective F.P hb, hc, fun B => rfl⟩
      simp only [if_true, hF, Except.ok_bind']
    | false =>
      obtain ⟨L, hL, hc⟩ := sparseCholesky_ok hlib hA
      refine ⟨.plain L, ?_, Equiv.refl _, hc, fun B => rfl⟩
      simp only [if_true, Bool.false_eq_true, if_false, hL, Except.ok_bind']
  | false =>
    have hs := lowerSymm_of_isSymm (isSymm_of_posDef hA)
    obtain ⟨L, hL, hc⟩ := hlib.chol_ok n A (by rwa [hs])
    rw [hs] at hc
    refine ⟨.plain L, ?_, Equiv.refl _, hc, fun B => rfl⟩
    simp only [Bool.false_eq_true, if_false, hL, Except.ok_bind']

theorem factorB_ok {lib : Lib} (hlib : LibSpec lib) (sparse useCholmod : Bool)
    {B : Matrix (Fin n) (Fin n) ℝ} (hB : B.PosDef) :
    ∃ LB, factorB lib sparse useCholmod n B = .ok LB ∧ IsCholesky LB B := by
  unfold factorB
  cases sparse with
  | true =>
    cases useCholmod with
    | true =>
      obtain ⟨F, hF, -, hn, hc⟩ := hlib.cholmod_ok true n B hB
      rw [hn rfl] at hc
      refine ⟨F.L, ?_, hc⟩
      simp only [if_true, hF, Except.ok_bind']
    | false =>
      obtain ⟨L, hL, hc⟩ := sparseCholesky_ok hlib hB
      refine ⟨L, ?_, hc⟩
      simp only [if_true, Bool.false_eq_true, if_false, hL]
  | false =>
    have hs := lowerSymm_of_isSymm (isSymm_of_posDef hB)
    obtain ⟨L, hL, hc⟩ := hlib.chol_ok n B (by rwa [hs])
    rw [hs] at hc
    refine ⟨L, ?_, hc⟩
    simp only [Bool.false_eq_true, if_false, hL]

/-- The squared Frobenius norm of `L⁻¹ C`. -/
theorem frobenius_inv {L S C : Matrix (Fin n) (Fin n) ℝ} (h : IsCholesky L S) :
    frobeniusSq ⟨n, n, L⁻¹ * C⟩ = (S⁻¹ * (C * Cᵀ)).trace := by
  rw [frobeniusSq_eq, transpose_mul, ← h.eq, Matrix.mul_inv_rev, transpose_nonsing_inv,
    Matrix.mul_assoc, trace_mul_comm]
  simp only [Matrix.mul_assoc]

theorem trace_submatrix (σ : Fin n ≃ Fin n) (A : Matrix (Fin n) (Fin n) ℝ) :
    (A.submatrix σ σ).trace = A.trace := by
  unfold Matrix.trace
  simp only [diag_apply, submatrix_apply]
  exact Equiv.sum_comp σ (fun i => A i i)

/-- The right hand sides are the columns of one matrix: the identity or the permuted factor of `B`. -/
def rhsMatrix {n : ℕ} (LA : Factored n) (LB : Option (Matrix (Fin n) (Fin n) ℝ)) :
    Matrix (Fin n) (Fin n) ℝ :=
  match LB with
  | none => 1
  | some LB => LA.permute LB

theorem invertDirectly_ok {lib : Lib} (hlib : LibSpec lib) {LA : Factored n}
    {S : Matrix (Fin n) (Fin n) ℝ} (h : IsCholesky LA.lower S)
    (LB : Option (Matrix (Fin n) (Fin n) ℝ)) :
    invertDirectly lib n LA LB = .ok (S⁻¹ * (rhsMatrix LA LB * (rhsMatrix LA LB)ᵀ)).trace := by
  unfold invertDirectly
  rw [hlib.inv_ok n _ (cholesky_det h), Except.ok_bind', ← frobenius_inv h]
  cases LB with
  | none => simp only [rhsMatrix, Matrix.mul_one]
  | some LB => rfl

theorem solveColumns_ok {lib : Lib} (hlib : LibSpec lib) {LA : Factored n}
    {S : Matrix (Fin n) (Fin n) ℝ} (h : IsCholesky LA.lower S)
    (LB : Option (Matrix (Fin n) (Fin n) ℝ)) (is : List (Fin n)) (acc : ℝ) :
    solveColumns lib n LA LB is acc =
      .ok (acc + (is.map fun i => ∑ k, (LA.lower⁻¹ * rhsMatrix LA LB) k i ^ 2).sum) := by
  induction is generalizing acc with
  | nil => simp [solveColumns]
  | cons i is ih =>
    unfold solveColumns
    obtain ⟨x, hx, he⟩ := hlib.triSolve_ok n LA.lower (rightHandSide LA LB i) h.lower
      (fun i => (h.pos i).ne')
    rw [hx, Except.ok_bind', ih, List.map_cons, List.sum_cons, ← add_assoc]
    have hcol : rightHandSide LA LB i = fun k => rhsMatrix LA LB k i := by
      cases LB with
      | none =>
        funext k
        simp only [rightHandSide, rhsMatrix, one_apply, Pi.single_apply]
      | some LB => rfl
    have hxv : x = fun k => (LA.lower⁻¹ * rhsMatrix LA LB) k i := by
      have : x = LA.lower⁻¹ *ᵥ (LA.lower *ᵥ x) := by
        rw [mulVec_mulVec, nonsing_inv_mul _ (cholesky_det h), one_mulVec]
      rw [this, he, hcol]
      rfl
    rw [hxv]

theorem invertIndirectly_ok {lib : Lib} (hlib : LibSpec lib) {LA : Factored n}
    {S : Matrix (Fin n) (Fin n) ℝ} (h : IsCholesky LA.lower S)
    (LB : Option (Matrix (Fin n) (Fin n) ℝ)) :
    invertIndirectly lib n LA LB = .ok (S⁻¹ * (rhsMatrix LA LB * (rhsMatrix LA LB)ᵀ)).trace := by
  unfold invertIndirectly
  rw [solveColumns_ok hlib h, zero_add, ← frobenius_inv h]
  congr 1
  unfold frobeniusSq
  rw [Finset.sum_comm, ← List.ofFn_eq_map, List.sum_ofFn]

theorem fitB_square {b : Array2 ℝ} {T : Matrix (Fin n) (Fin n) ℝ} (hb : b.value = square T) :
    fitB n (some b) = .ok (some T) := by
  have key : ∀ (v : Mat ℝ), v = square T → ∀ h : n = v.rows ∧ n = v.cols,
      v.val.submatrix (Fin.cast h.1) (Fin.cast h.2) = T := by
    rintro _ rfl h
    rfl
  unfold fitB
  have h : n = b.value.rows ∧ n = b.value.cols := by rw [hb]; exact ⟨rfl, rfl⟩
  simp only [dif_pos h, key _ hb h]

/-- The branch for a positive exponent. -/
theorem traceinvPositive_ok {lib : Lib} (hlib : LibSpec lib) (sparse useCholmod invertCholesky : Bool)
    {S : Matrix (Fin n) (Fin n) ℝ} (hS : S.PosDef) {B : Option (Array2 ℝ)} {T : Matrix (Fin n) (Fin n) ℝ}
    (hB : (B = none ∧ T = 1) ∨ (∃ b, B = some b ∧ b.value = square T ∧ T.PosDef)) :
    traceinvPositive lib sparse useCholmod invertCholesky B n S = .ok (S⁻¹ * T).trace := by
  obtain ⟨LA, hLA, σ, hσ, hperm⟩ := factorA_ok hlib sparse useCholmod hS
  have hLB : ∃ (B' LB : Option (Matrix (Fin n) (Fin n) ℝ)), fitB n B = .ok B' ∧
      factorBIfGiven lib sparse useCholmod n B' = .ok LB ∧
      ((S.submatrix σ σ)⁻¹ * (rhsMatrix LA LB * (rhsMatrix LA LB)ᵀ)).trace = (S⁻¹ * T).trace := by
    rcases hB with ⟨rfl, rfl⟩ | ⟨b, rfl, hb, hT⟩
    · refine ⟨none, none, rfl, rfl, ?_⟩
      simp only [rhsMatrix, transpose_one, Matrix.mul_one]
      rw [Matrix.inv_submatrix_equiv, trace_submatrix]
    · obtain ⟨L, hL, hc⟩ := factorB_ok hlib sparse useCholmod hT
      refine ⟨some T, some L, ?_, ?_, ?_⟩
      · exact fitB_square hb
      · unfold factorBIfGiven
        simp only [hL, Except.ok_bind']
      · simp only [rhsMatrix, hperm]
        have : L.submatrix σ id * (L.submatrix σ id)ᵀ = T.submatrix σ σ := by
          rw [← hc.eq, transpose_submatrix]
          exact Matrix.submatrix_mul_equiv L Lᵀ σ (Equiv.refl _) σ
        rw [this, Matrix.inv_submatrix_equiv, Matrix.submatrix_mul_equiv, trace_submatrix]
  obtain ⟨B', LB, h1, h2, h3⟩ := hLB
  unfold traceinvPositive
  rw [hLA, Except.ok_bind', h1, Except.ok_bind', h2, Except.ok_bind', ← h3]
  cases invertCholesky with
  | true => exact invertDirectly_ok hlib hσ LB
  | false => exact invertIndirectly_ok hlib hσ LB

theorem withSquare_square {α : Type} (f : (n : ℕ) → Matrix (Fin n) (Fin n) ℝ → Except PyExc α)
    (A : Matrix (Fin n) (Fin n) ℝ) : withSquare (square A) f = f n A := by
  unfold withSquare square
  rw [dif_pos rfl]
  rfl

/-! ### The log-determinant -/

theorem twiceLogSum_some (d : Fin n → ℝ) :
    twiceLogSum (fun i => some (d i)) = some (∑ i, 2 * Real.log |d i|) := by
  unfold twiceLogSum
  have : ∀ (is : List (Fin n)) (a : ℝ),
      (is.map fun i => some (d i)).foldl
        (fun acc x => acc.bind fun a => x.map fun x => a + 2 * Real.log |x|) (some a) =
      some (a + (is.map fun i => 2 * Real.log |d i|).sum) := by
    intro is
    induction is with
    | nil => intro a; simp
    | cons i is ih =>
      intro a
      rw [List.map_cons, List.foldl_cons]
      simp only [Option.bind_some, Option.map_some]
      rw [ih, List.map_cons, List.sum_cons, add_assoc]
  rw [this, zero_add, ← List.ofFn_eq_map, List.sum_ofFn]

theorem log_det_cholesky {L A : Matrix (Fin n) (Fin n) ℝ} (h : IsCholesky L A) :
    ∑ i, 2 * Real.log |L i i| = Real.log A.det := by
  rw [← h.eq, det_mul, det_transpose, det_lower h.lower, Real.log_mul, Real.log_prod,
    ← Finset.mul_sum]
  · simp only [Real.log_abs]
    ring
  · intro i _
    exact (h.pos i).ne'
  · exact Finset.prod_ne_zero_iff.2 fun i _ => (h.pos i).ne'
  · exact Finset.prod_ne_zero_iff.2 fun i _ => (h.pos i).ne'

/-- The log-determinant of the factored matrix. -/
theorem logdetFactor_ok {lib : Lib} (hlib : LibSpec lib) (sparse useCholmod : Bool)
    {A : Matrix (Fin n) (Fin n) ℝ} (hA : A.PosDef) :
    logdetFactor lib sparse useCholmod n A = .ok (some (Real.log A.det)) := by
  unfold logdetFactor
  cases sparse with
  | true =>
    cases useCholmod with
    | true =>
      obtain ⟨F, hF, hb, -, hc⟩ := hlib.cholmod_ok false n A hA
      simp only [if_true, hF, Except.ok_bind']
      rw [twiceLogSum_some, log_det_cholesky hc]
      have := det_submatrix_equiv_self (Equiv.ofBijective F.P hb) A
      rw [show A.submatrix F.P F.P = A.submatrix (Equiv.ofBijective F.P hb) (Equiv.ofBijective F.P hb)
        from rfl, this]
    | false =>
      obtain ⟨C, hC⟩ := exists_cholesky hA
      have hlu := cholesky_lu hC
      obtain ⟨lu, hl, hp⟩ := hlib.splu_natural n A ⟨_, _, hlu⟩
      obtain ⟨-, hc, A', hA', e⟩ := hlib.splu_ok n A lu hl
      have : A' = A := by
        ext i j
        rw [e i j, hp, hc]
        rfl
      subst this
      have hU := (lu_unique hA' hlu).2
      simp only [if_true, Bool.false_eq_true, if_false, sparseCholeskyDiagonal, hl, Except.ok_bind']
      have hd : (fun i => sqrtNan (lu.U i i)) = fun i => some (C i i) := by
        funext i
        have : lu.U i i = C i i * C i i := by rw [hU, diagonal_mul, transpose_apply]
        unfold sqrtNan
        rw [this, if_neg (not_lt.2 (mul_self_nonneg _)), Real.sqrt_mul_self (hC.pos i).le]
      rw [hd, twiceLogSum_some, log_det_cholesky hC]
  | false =>
    have hs := lowerSymm_of_isSymm (isSymm_of_posDef hA)
    obtain ⟨L, hL, hc⟩ := hlib.chol_ok n A (by rwa [hs])
    rw [hs] at hc
    simp only [Bool.false_eq_true, if_false, hL, Except.ok_bind']
    rw [twiceLogSum_some, log_det_cholesky hc]

/-- The assumptions on the libraries can be met. -/
theorem libSpec_exists : ∃ lib : Lib, LibSpec lib := by
  classical
  refine ⟨⟨fun n A => if h : (lowerSymm A).PosDef then .ok (exists_cholesky h).choose
      else .error .linAlgError,
    fun n A => if h : ∃ L U, IsLU L U A then
        .ok ⟨h.choose, h.choose_spec.choose, id, id⟩ else .error .runtimeError,
    fun _ n A => if h : A.PosDef then .ok ⟨(exists_cholesky h).choose, id⟩ else .error .linAlgError,
    fun n A => .ok A⁻¹, fun n L b => .ok (L⁻¹ *ᵥ b)⟩, ?_, ?_, ?_, ?_, ?_, ?_, ?_⟩
  · intro n A h
    exact ⟨_, dif_pos h, (exists_cholesky h).choose_spec⟩
  · intro n A h
    exact dif_neg h
  · intro n A lu h
    simp only at h
    split_ifs at h with hc
    cases h
    exact ⟨Function.bijective_id, rfl, A, hc.choose_spec.choose_spec, fun i j => rfl⟩
  · intro n A h
    exact ⟨_, dif_pos h, rfl⟩
  · intro b n A h
    exact ⟨_, dif_pos h, Function.bijective_id, fun _ => rfl, (exists_cholesky h).choose_spec⟩
  · intro n A h
    rfl
  · intro n L b h hd
    refine ⟨_, rfl, ?_⟩
    rw [mulVec_mulVec, mul_nonsing_inv _ (isUnit_lower h hd), one_mulVec]

end Imate.Direct
