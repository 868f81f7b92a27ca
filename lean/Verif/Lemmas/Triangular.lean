import Verif.Spec.Cholesky
import Mathlib.Analysis.Matrix.LDL
import Mathlib.LinearAlgebra.Matrix.Block
import Mathlib.Algebra.Order.Star.Real

/-!
# Triangular factorisations
-/

namespace Imate.Direct

open Matrix Imate.Spec

variable {n : ℕ}

theorem Lower.mul {A B : Matrix (Fin n) (Fin n) ℝ} (hA : Lower A) (hB : Lower B) : Lower (A * B) := by
  intro i j hij
  rw [mul_apply]
  apply Finset.sum_eq_zero
  intro k _
  rcases lt_or_ge i k with h | h
  · rw [hA i k h, zero_mul]
  · rw [hB k j (lt_of_le_of_lt h hij), mul_zero]

theorem Lower.mul_diag {A B : Matrix (Fin n) (Fin n) ℝ} (hA : Lower A) (hB : Lower B) (i : Fin n) :
    (A * B) i i = A i i * B i i := by
  rw [mul_apply]
  apply Finset.sum_eq_single_of_mem i (Finset.mem_univ _)
  intro k _ hk
  rcases lt_or_gt_of_ne hk with h | h
  · rw [hB k i h, mul_zero]
  · rw [hA i k h, zero_mul]

theorem lower_transpose {A : Matrix (Fin n) (Fin n) ℝ} : Lower Aᵀ ↔ Upper A :=
  ⟨fun h i j hij => h j i hij, fun h i j hij => h j i hij⟩

theorem upper_transpose {A : Matrix (Fin n) (Fin n) ℝ} : Upper Aᵀ ↔ Lower A :=
  ⟨fun h i j hij => h j i hij, fun h i j hij => h j i hij⟩

theorem Upper.mul {A B : Matrix (Fin n) (Fin n) ℝ} (hA : Upper A) (hB : Upper B) : Upper (A * B) := by
  rw [← lower_transpose, transpose_mul]
  exact Lower.mul (lower_transpose.2 hB) (lower_transpose.2 hA)

theorem lower_isLower {A : Matrix (Fin n) (Fin n) ℝ} : A.IsLowerTriangular ↔ Lower A :=
  ⟨fun h i j hij => h hij, fun h i j hij => h i j hij⟩

theorem upper_isUpper {A : Matrix (Fin n) (Fin n) ℝ} : A.IsUpperTriangular ↔ Upper A :=
  ⟨fun h i j hij => h hij, fun h i j hij => h i j hij⟩

theorem det_lower {A : Matrix (Fin n) (Fin n) ℝ} (h : Lower A) : A.det = ∏ i, A i i :=
  det_of_isLowerTriangular A (lower_isLower.2 h)

theorem isUnit_lower {A : Matrix (Fin n) (Fin n) ℝ} (h : Lower A) (hd : ∀ i, A i i ≠ 0) :
    IsUnit A.det := by
  rw [det_lower h, isUnit_iff_ne_zero]
  exact Finset.prod_ne_zero_iff.2 fun i _ => hd i

theorem lower_diag_ne {A : Matrix (Fin n) (Fin n) ℝ} (h : Lower A) (hu : IsUnit A.det) (i : Fin n) :
    A i i ≠ 0 := by
  rw [det_lower h, isUnit_iff_ne_zero] at hu
  exact Finset.prod_ne_zero_iff.1 hu i (Finset.mem_univ _)

theorem Lower.inv {A : Matrix (Fin n) (Fin n) ℝ} (h : Lower A) (hu : IsUnit A.det) : Lower A⁻¹ := by
  haveI := Matrix.invertibleOfIsUnitDet A hu
  exact lower_isLower.1 (blockTriangular_inv_of_blockTriangular (lower_isLower.2 h))

theorem isUnit_upper {A : Matrix (Fin n) (Fin n) ℝ} (h : Upper A) (hd : ∀ i, A i i ≠ 0) :
    IsUnit A.det := by
  rw [← det_transpose]
  exact isUnit_lower (lower_transpose.2 h) hd

theorem Upper.inv {A : Matrix (Fin n) (Fin n) ℝ} (h : Upper A) (hu : IsUnit A.det) : Upper A⁻¹ := by
  rw [← lower_transpose, transpose_nonsing_inv]
  exact Lower.inv (lower_transpose.2 h) (by rwa [det_transpose])

/-- The factorisation `A = L U` is unique. -/
theorem lu_unique {L U L' U' A : Matrix (Fin n) (Fin n) ℝ} (h : IsLU L U A) (h' : IsLU L' U' A) :
    L = L' ∧ U = U' := by
  have uL : IsUnit L.det := isUnit_lower h.lower (fun i => by rw [h.unit]; exact one_ne_zero)
  have uL' : IsUnit L'.det := isUnit_lower h'.lower (fun i => by rw [h'.unit]; exact one_ne_zero)
  have uU : IsUnit U.det := isUnit_upper h.upper h.pivots
  have e : L * U = L' * U' := h.eq.trans h'.eq.symm
  have e2 : L'⁻¹ * L = U' * U⁻¹ := by
    calc L'⁻¹ * L = L'⁻¹ * (L * U) * U⁻¹ := by
          rw [Matrix.mul_assoc L'⁻¹ (L * U), mul_nonsing_inv_cancel_right _ _ uU]
      _ = U' * U⁻¹ := by rw [e, nonsing_inv_mul_cancel_left _ _ uL']
  have low : Lower (L'⁻¹ * L) := Lower.mul (Lower.inv h'.lower uL') h.lower
  have upp : Upper (L'⁻¹ * L) := by rw [e2]; exact Upper.mul h'.upper (Upper.inv h.upper uU)
  have hL : L = L' * (L'⁻¹ * L) := by rw [mul_nonsing_inv_cancel_left _ _ uL']
  have hd : ∀ i, (L'⁻¹ * L) i i = 1 := by
    intro i
    have := congrFun (congrFun hL i) i
    rw [Lower.mul_diag h'.lower low, h.unit, h'.unit, one_mul] at this
    exact this.symm
  have one : L'⁻¹ * L = 1 := by
    ext i j
    rcases lt_trichotomy i j with hij | hij | hij
    · rw [low i j hij, one_apply_ne hij.ne]
    · subst hij; rw [hd, one_apply_eq]
    · rw [upp i j hij, one_apply_ne hij.ne']
  rw [one, Matrix.mul_one] at hL
  refine ⟨hL, ?_⟩
  have h3 : U' * U⁻¹ = 1 := e2.symm.trans one
  calc U = (U' * U⁻¹) * U := by rw [h3, Matrix.one_mul]
    _ = U' := nonsing_inv_mul_cancel_right _ _ uU

/-- For a symmetric matrix the second factor is the transpose of the first, scaled by the pivots. -/
theorem lu_symm {L U A : Matrix (Fin n) (Fin n) ℝ} (h : IsLU L U A) (hA : A.IsSymm) :
    U = diagonal (fun i => U i i) * Lᵀ := by
  have h' : IsLU (Uᵀ * diagonal fun i => (U i i)⁻¹) (diagonal (fun i => U i i) * Lᵀ) A := by
    constructor
    · intro i j hij
      rw [mul_diagonal, transpose_apply, h.upper j i hij, zero_mul]
    · intro i
      rw [mul_diagonal, transpose_apply, mul_inv_cancel₀ (h.pivots i)]
    · intro i j hij
      rw [diagonal_mul, transpose_apply, h.lower j i hij, mul_zero]
    · intro i
      rw [diagonal_mul, transpose_apply, h.unit, mul_one]
      exact h.pivots i
    · rw [Matrix.mul_assoc, ← Matrix.mul_assoc (diagonal _) (diagonal _), diagonal_mul_diagonal]
      have : (diagonal fun i => (U i i)⁻¹ * U i i) = (1 : Matrix (Fin n) (Fin n) ℝ) := by
        rw [← diagonal_one]
        congr 1
        funext i
        exact inv_mul_cancel₀ (h.pivots i)
      rw [this, Matrix.one_mul, ← transpose_mul, h.eq]
      exact hA
  exact (lu_unique h h').2

theorem cholesky_det {L A : Matrix (Fin n) (Fin n) ℝ} (h : IsCholesky L A) : IsUnit L.det :=
  isUnit_lower h.lower fun i => (h.pos i).ne'

theorem cholesky_posDef {L A : Matrix (Fin n) (Fin n) ℝ} (h : IsCholesky L A) : A.PosDef := by
  rw [← h.eq]
  have := PosDef.mul_conjTranspose_self L (Matrix.vecMul_injective_of_isUnit
    ((Matrix.isUnit_iff_isUnit_det L).2 (cholesky_det h)))
  rwa [conjTranspose_eq_transpose_of_trivial] at this

/-- The Cholesky factor from an LU factorisation with positive pivots. -/
theorem lu_cholesky {L U A : Matrix (Fin n) (Fin n) ℝ} (h : IsLU L U A) (hA : A.IsSymm)
    (hpos : ∀ i, 0 < U i i) : IsCholesky (L * diagonal fun i => Real.sqrt (U i i)) A := by
  constructor
  · intro i j hij
    rw [mul_diagonal, h.lower i j hij, zero_mul]
  · intro i
    rw [mul_diagonal, h.unit, one_mul]
    exact Real.sqrt_pos.2 (hpos i)
  · rw [transpose_mul, diagonal_transpose, Matrix.mul_assoc, ← Matrix.mul_assoc (diagonal _) (diagonal _),
      diagonal_mul_diagonal]
    have : (diagonal fun i => Real.sqrt (U i i) * Real.sqrt (U i i)) = diagonal fun i => U i i := by
      congr 1
      funext i
      exact Real.mul_self_sqrt (hpos i).le
    rw [this, ← lu_symm h hA, h.eq]

/-- An LU factorisation from the Cholesky factor. -/
theorem cholesky_lu {L A : Matrix (Fin n) (Fin n) ℝ} (h : IsCholesky L A) :
    IsLU (L * diagonal fun i => (L i i)⁻¹) (diagonal (fun i => L i i) * Lᵀ) A := by
  constructor
  · intro i j hij
    rw [mul_diagonal, h.lower i j hij, zero_mul]
  · intro i
    rw [mul_diagonal, mul_inv_cancel₀ (h.pos i).ne']
  · intro i j hij
    rw [diagonal_mul, transpose_apply, h.lower j i hij, mul_zero]
  · intro i
    rw [diagonal_mul, transpose_apply]
    exact (mul_pos (h.pos i) (h.pos i)).ne'
  · rw [Matrix.mul_assoc, ← Matrix.mul_assoc (diagonal _) (diagonal _), diagonal_mul_diagonal]
    have : (diagonal fun i => (L i i)⁻¹ * L i i) = (1 : Matrix (Fin n) (Fin n) ℝ) := by
      rw [← diagonal_one]
      congr 1
      funext i
      exact inv_mul_cancel₀ (h.pos i).ne'
    rw [this, Matrix.one_mul, h.eq]

/-- Every positive definite matrix has a Cholesky factor. -/
theorem exists_cholesky {A : Matrix (Fin n) (Fin n) ℝ} (hA : A.PosDef) : ∃ L, IsCholesky L A := by
  have hLi : Lower (LDL.lowerInv hA) := fun i j hij => LDL.lowerInv_triangular hA hij
  have hu : IsUnit (LDL.lowerInv hA).det := isUnit_det_of_invertible _
  have hLd := lower_diag_ne hLi hu
  have hM : Lower (LDL.lower hA) := Lower.inv hLi hu
  have hMu : IsUnit (LDL.lower hA).det := by
    unfold LDL.lower
    exact isUnit_nonsing_inv_det _ hu
  have hMd := lower_diag_ne hM hMu
  have hDp : ∀ i, 0 < LDL.diagEntries hA i := by
    have hd : (LDL.diag hA).PosDef := by
      rw [LDL.diag_eq_lowerInv_conj]
      exact hA.mul_mul_conjTranspose_same
        (Matrix.vecMul_injective_of_isUnit ((Matrix.isUnit_iff_isUnit_det _).2 hu))
    exact Matrix.posDef_diagonal_iff.1 hd
  have hA' := LDL.lower_conj_diag hA
  rw [conjTranspose_eq_transpose_of_trivial] at hA'
  have hsgn : ∀ i, SignType.sign (LDL.lower hA i i) * SignType.sign (LDL.lower hA i i) = 1 := by
    intro i
    rcases lt_or_gt_of_ne (hMd i) with h | h
    · rw [sign_neg h]; rfl
    · rw [sign_pos h]; rfl
  refine ⟨LDL.lower hA * diagonal fun i =>
    (SignType.sign (LDL.lower hA i i) : ℝ) * Real.sqrt (LDL.diagEntries hA i), ?_, ?_, ?_⟩
  · intro i j hij
    rw [mul_diagonal, hM i j hij, zero_mul]
  · intro i
    rw [mul_diagonal, ← mul_assoc]
    refine mul_pos ?_ (Real.sqrt_pos.2 (hDp i))
    rw [self_mul_sign]
    exact abs_pos.2 (hMd i)
  · rw [transpose_mul, diagonal_transpose, Matrix.mul_assoc, ← Matrix.mul_assoc (diagonal _) (diagonal _),
      diagonal_mul_diagonal]
    have : (diagonal fun i => (SignType.sign (LDL.lower hA i i) : ℝ) * Real.sqrt (LDL.diagEntries hA i) *
        ((SignType.sign (LDL.lower hA i i) : ℝ) * Real.sqrt (LDL.diagEntries hA i))) = LDL.diag hA := by
      unfold LDL.diag
      congr 1
      funext i
      have h1 : ((SignType.sign (LDL.lower hA i i) : ℝ)) * (SignType.sign (LDL.lower hA i i) : ℝ) = 1 := by
        have := congrArg (fun s : SignType => (s : ℝ)) (hsgn i)
        simpa using this
      have h2 := Real.mul_self_sqrt (hDp i).le
      calc _ = ((SignType.sign (LDL.lower hA i i) : ℝ) * (SignType.sign (LDL.lower hA i i) : ℝ)) *
            (Real.sqrt (LDL.diagEntries hA i) * Real.sqrt (LDL.diagEntries hA i)) := by ring
        _ = _ := by rw [h1, h2, one_mul]
    rw [this, ← Matrix.mul_assoc, hA']

end Imate.Direct
