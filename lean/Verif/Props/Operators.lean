import Verif.Lemmas.MatrixOps
import Verif.Spec.Operators
import Mathlib.Data.Rat.Defs
import Mathlib.Tactic.FinCases
import Mathlib.Tactic.IntervalCases

/-!
# Property theorems C01 – C05: matrix products of the stored operators

All statements are for every size (including 0 and sizes not divisible by the unrolling factor),
every matrix and every vector, over an arbitrary field.  A result `.ok _` also says that no access
left its buffer, because every access of the model is checked.
-/

set_option linter.unusedSectionVars false

namespace Imate.Props

open Matrix Imate.Spec

variable {K : Type _} [Field K] [DecidableEq K] {n m : Nat}

/-! ## C01 dense products -/

/-- C01: `dense_matvec` computes `A v` into a buffer with arbitrary previous contents. -/
theorem dense_matvec_correct {A : Array K} {M : Matrix (Fin n) (Fin m) K} {rowMajor : Bool}
    (h : DenseRepr rowMajor A M) (v : Fin m → K) (c : Array K) (hc : c.size = n) :
    MatrixOps.denseMatvec A (Array.ofFn v) n m rowMajor c = .ok (Array.ofFn (M *ᵥ v)) :=
  MatrixOps.denseMatvec_eq h v c hc

/-- C01: `dense_transposed_matvec` computes `Aᵀ v`. -/
theorem dense_transposed_matvec_correct {A : Array K} {M : Matrix (Fin n) (Fin m) K}
    {rowMajor : Bool} (h : DenseRepr rowMajor A M) (v : Fin n → K) (c : Array K)
    (hc : c.size = m) :
    MatrixOps.denseTransposedMatvec A (Array.ofFn v) n m rowMajor c =
      .ok (Array.ofFn (Mᵀ *ᵥ v)) :=
  MatrixOps.denseTransposedMatvec_eq h v c hc

/-- C01: `dense_matvec_plus` computes `c + α A v`. -/
theorem dense_matvec_plus_correct {A : Array K} {M : Matrix (Fin n) (Fin m) K} {rowMajor : Bool}
    (h : DenseRepr rowMajor A M) (v : Fin m → K) (alpha : K) (w : Fin n → K) :
    MatrixOps.denseMatvecPlus A (Array.ofFn v) alpha n m rowMajor (Array.ofFn w) =
      .ok (Array.ofFn (w + alpha • (M *ᵥ v))) :=
  MatrixOps.denseMatvecPlus_eq h v alpha w

/-- C01: `dense_transposed_matvec_plus` computes `c + α Aᵀ v`. -/
theorem dense_transposed_matvec_plus_correct {A : Array K} {M : Matrix (Fin n) (Fin m) K}
    {rowMajor : Bool} (h : DenseRepr rowMajor A M) (v : Fin n → K) (alpha : K) (w : Fin m → K) :
    MatrixOps.denseTransposedMatvecPlus A (Array.ofFn v) alpha n m rowMajor (Array.ofFn w) =
      .ok (Array.ofFn (w + alpha • (Mᵀ *ᵥ v))) :=
  MatrixOps.denseTransposedMatvecPlus_eq h v alpha w

/-- C01, optional BLAS build: the product is right for square matrices in both layouts. -/
theorem dense_matvec_blas_square_partial {A : Array K} {M : Matrix (Fin n) (Fin n) K}
    {rowMajor : Bool} (h : DenseRepr rowMajor A M) (v : Fin n → K) (c : Array K)
    (hc : c.size = n) :
    MatrixOps.denseMatvecBlas A (Array.ofFn v) n n rowMajor c = .ok (Array.ofFn (M *ᵥ v)) := by
  unfold MatrixOps.denseMatvecBlas
  apply forRange_write_ofFn c _ hc
  intro i c' _ _
  have := MatrixOps.plainDot_fin (a := fun j => rd A (if rowMajor then i.1 * n + j else i.1 + j * n))
    (b := rd (Array.ofFn v)) (fun j => M i j) v
    (fun j => rd_ok (by
      have := h.2 i j
      cases rowMajor
      · simpa [Nat.mul_comm] using this
      · simpa using this)) (fun j => rd_ofFn v j)
  rw [this]
  rfl

/-- C01, optional BLAS build: a row-major non-square matrix is read out of bounds, because the
leading dimension passed to `gemv` is the number of rows. -/
theorem dense_matvec_blas_nonsquare_out_of_bounds :
    ∃ (A : Array ℚ) (M : Matrix (Fin 2) (Fin 1) ℚ) (v : Fin 1 → ℚ) (c : Array ℚ),
      DenseRepr true A M ∧ c.size = 2 ∧
      MatrixOps.denseMatvecBlas A (Array.ofFn v) 2 1 true c = .error .outOfBounds := by
  refine ⟨#[3, 4], ![![3], ![4]], ![1], #[0, 0], ⟨rfl, ?_⟩, rfl, by decide⟩
  intro i j
  fin_cases i <;> fin_cases j <;> rfl

/-! ## C02 sparse products -/

section Sparse
variable {data : Array K} {indices ptr : Array Nat} {M : Matrix (Fin n) (Fin m) K}

/-- C02: `csr_matvec`. -/
theorem csr_matvec_correct (h : CSRRepr data indices ptr M) (v : Fin m → K) (c : Array K)
    (hc : c.size = n) :
    MatrixOps.csrMatvec data indices ptr (Array.ofFn v) n c = .ok (Array.ofFn (M *ᵥ v)) :=
  MatrixOps.csrMatvec_eq h v c hc

/-- C02: `csr_matvec_plus`. -/
theorem csr_matvec_plus_correct (h : CSRRepr data indices ptr M) (v : Fin m → K) (alpha : K)
    (w : Fin n → K) :
    MatrixOps.csrMatvecPlus data indices ptr (Array.ofFn v) alpha n (Array.ofFn w) =
      .ok (Array.ofFn (w + alpha • (M *ᵥ v))) :=
  MatrixOps.csrMatvecPlus_eq h v alpha w

/-- C02: `csr_transposed_matvec`. -/
theorem csr_transposed_matvec_correct (h : CSRRepr data indices ptr M) (v : Fin n → K)
    (c : Array K) (hc : c.size = m) :
    MatrixOps.csrTransposedMatvec data indices ptr (Array.ofFn v) n m c =
      .ok (Array.ofFn (Mᵀ *ᵥ v)) :=
  MatrixOps.csrTransposedMatvec_eq h v c hc

/-- C02: `csr_transposed_matvec_plus`. -/
theorem csr_transposed_matvec_plus_correct (h : CSRRepr data indices ptr M) (v : Fin n → K)
    (alpha : K) (w : Fin m → K) :
    MatrixOps.csrTransposedMatvecPlus data indices ptr (Array.ofFn v) alpha n (Array.ofFn w) =
      .ok (Array.ofFn (w + alpha • (Mᵀ *ᵥ v))) :=
  MatrixOps.csrTransposedMatvecPlus_eq h v alpha w

/-- C02: `csc_matvec`. -/
theorem csc_matvec_correct (h : CSCRepr data indices ptr M) (v : Fin m → K) (c : Array K)
    (hc : c.size = n) :
    MatrixOps.cscMatvec data indices ptr (Array.ofFn v) n m c = .ok (Array.ofFn (M *ᵥ v)) :=
  MatrixOps.cscMatvec_eq h v c hc

/-- C02: `csc_matvec_plus`. -/
theorem csc_matvec_plus_correct (h : CSCRepr data indices ptr M) (v : Fin m → K) (alpha : K)
    (w : Fin n → K) :
    MatrixOps.cscMatvecPlus data indices ptr (Array.ofFn v) alpha m (Array.ofFn w) =
      .ok (Array.ofFn (w + alpha • (M *ᵥ v))) :=
  MatrixOps.cscMatvecPlus_eq h v alpha w

/-- C02: `csc_transposed_matvec`. -/
theorem csc_transposed_matvec_correct (h : CSCRepr data indices ptr M) (v : Fin n → K)
    (c : Array K) (hc : c.size = m) :
    MatrixOps.cscTransposedMatvec data indices ptr (Array.ofFn v) m c =
      .ok (Array.ofFn (Mᵀ *ᵥ v)) :=
  MatrixOps.cscTransposedMatvec_eq h v c hc

/-- C02: `csc_transposed_matvec_plus`. -/
theorem csc_transposed_matvec_plus_correct (h : CSCRepr data indices ptr M) (v : Fin n → K)
    (alpha : K) (w : Fin m → K) :
    MatrixOps.cscTransposedMatvecPlus data indices ptr (Array.ofFn v) alpha m (Array.ofFn w) =
      .ok (Array.ofFn (w + alpha • (Mᵀ *ᵥ v))) :=
  MatrixOps.cscTransposedMatvecPlus_eq h v alpha w

end Sparse

/-! ## C03 storage-format independence -/

/-- C03: every stored format of `M` has `dot = M v`. -/
theorem stored_dot_correct {S : StoredMatrix K} {M : Matrix (Fin n) (Fin m) K}
    (h : Represents S M) (v : Fin m → K) (c : Array K) (hc : c.size = n) :
    S.dot n m (Array.ofFn v) c = .ok (Array.ofFn (M *ᵥ v)) := by
  cases S with
  | dense A rm => exact dense_matvec_correct h v c hc
  | csr d ix p => exact csr_matvec_correct h v c hc
  | csc d ix p => exact csc_matvec_correct h v c hc

/-- C03: every stored format of `M` has `transpose_dot = Mᵀ v`. -/
theorem stored_transpose_dot_correct {S : StoredMatrix K} {M : Matrix (Fin n) (Fin m) K}
    (h : Represents S M) (v : Fin n → K) (c : Array K) (hc : c.size = m) :
    S.transposeDot n m (Array.ofFn v) c = .ok (Array.ofFn (Mᵀ *ᵥ v)) := by
  cases S with
  | dense A rm => exact dense_transposed_matvec_correct h v c hc
  | csr d ix p => exact csr_transposed_matvec_correct h v c hc
  | csc d ix p => exact csc_transposed_matvec_correct h v c hc

theorem stored_dot_plus_correct {S : StoredMatrix K} {M : Matrix (Fin n) (Fin m) K}
    (h : Represents S M) (v : Fin m → K) (alpha : K) (w : Fin n → K) :
    S.dotPlus n m (Array.ofFn v) alpha (Array.ofFn w) =
      .ok (Array.ofFn (w + alpha • (M *ᵥ v))) := by
  cases S with
  | dense A rm => exact dense_matvec_plus_correct h v alpha w
  | csr d ix p => exact csr_matvec_plus_correct h v alpha w
  | csc d ix p => exact csc_matvec_plus_correct h v alpha w

theorem stored_transpose_dot_plus_correct {S : StoredMatrix K} {M : Matrix (Fin n) (Fin m) K}
    (h : Represents S M) (v : Fin n → K) (alpha : K) (w : Fin m → K) :
    S.transposeDotPlus n m (Array.ofFn v) alpha (Array.ofFn w) =
      .ok (Array.ofFn (w + alpha • (Mᵀ *ᵥ v))) := by
  cases S with
  | dense A rm => exact dense_transposed_matvec_plus_correct h v alpha w
  | csr d ix p => exact csr_transposed_matvec_plus_correct h v alpha w
  | csc d ix p => exact csc_transposed_matvec_plus_correct h v alpha w

/-- C03: two stored matrices of the same mathematical matrix give identical products (both
directions), whatever their formats and whatever was in the output buffers. -/
theorem storage_format_independent {S T : StoredMatrix K} {M : Matrix (Fin n) (Fin m) K}
    (hS : Represents S M) (hT : Represents T M) (v : Fin m → K) (u : Fin n → K)
    (c c' : Array K) (hc : c.size = n) (hc' : c'.size = n) (d d' : Array K) (hd : d.size = m)
    (hd' : d'.size = m) :
    S.dot n m (Array.ofFn v) c = T.dot n m (Array.ofFn v) c' ∧
    S.transposeDot n m (Array.ofFn u) d = T.transposeDot n m (Array.ofFn u) d' := by
  rw [stored_dot_correct hS v c hc, stored_dot_correct hT v c' hc',
    stored_transpose_dot_correct hS u d hd, stored_transpose_dot_correct hT u d' hd']
  exact ⟨rfl, rfl⟩

/-- C03: the transposed product is the adjoint of the product: `⟨u, A v⟩ = ⟨Aᵀ u, v⟩` for the
arrays the two routines return. -/
theorem stored_transpose_adjoint {S : StoredMatrix K} {M : Matrix (Fin n) (Fin m) K}
    (hS : Represents S M) (v : Fin m → K) (u : Fin n → K) (c d : Array K) (hc : c.size = n)
    (hd : d.size = m) :
    ∃ (y : Fin n → K) (z : Fin m → K),
      S.dot n m (Array.ofFn v) c = .ok (Array.ofFn y) ∧
      S.transposeDot n m (Array.ofFn u) d = .ok (Array.ofFn z) ∧ u ⬝ᵥ y = z ⬝ᵥ v := by
  refine ⟨M *ᵥ v, Mᵀ *ᵥ u, stored_dot_correct hS v c hc, stored_transpose_dot_correct hS u d hd, ?_⟩
  rw [Matrix.dotProduct_mulVec, Matrix.mulVec_transpose]

/-! ## C04 affine matrix function -/

theorem rectOne_mulVec (v : Fin m → K) :
    (rectOne : Matrix (Fin n) (Fin m) K) *ᵥ v =
      fun i => if h : i.1 < m then v ⟨i.1, h⟩ else 0 := by
  funext i
  simp only [Matrix.mulVec, dotProduct, rectOne]
  split
  · rename_i h
    rw [Finset.sum_eq_single ⟨i.1, h⟩]
    · simp
    · intro b _ hb
      have : ¬ i.1 = b.1 := fun hh => hb (by ext; exact hh.symm)
      simp [this]
    · simp
  · rename_i h
    apply Finset.sum_eq_zero
    intro j _
    have : ¬ i.1 = j.1 := by omega
    simp [this]

theorem rectOne_transpose : (rectOne : Matrix (Fin n) (Fin m) K)ᵀ = rectOne := by
  funext i j
  simp [rectOne, Matrix.transpose_apply, eq_comm]

/-- C04: with `B` not given, the operator with parameter `t` applies `A + t I` (`I` rectangular if
the matrix is not square). -/
theorem affine_identity_dot_correct {S : StoredMatrix K} {A : Matrix (Fin n) (Fin m) K}
    (hS : Represents S A) (t : K) (v : Fin m → K) (c : Array K) (hc : c.size = n) :
    ∃ O, AffineOp.construct S none n m = .ok O ∧
      O.dot (some t) (Array.ofFn v) c = .ok (Array.ofFn ((A + t • rectOne) *ᵥ v)) := by
  refine ⟨_, rfl, ?_⟩
  unfold AffineOp.dot
  rw [stored_dot_correct hS v c hc]
  simp only [Except.ok_bind', if_true, AffineOp.addScaledVector]
  rw [VectorOps.subtractScaledVector_eq' v (-t) (A *ᵥ v) (by split <;> omega) (by split <;> omega)]
  congr 2
  funext i
  rw [Matrix.add_mulVec, Matrix.smul_mulVec, rectOne_mulVec]
  have hi := i.2
  by_cases h : i.1 < m
  · have : i.1 < (if n < m then n else m) := by split <;> omega
    simp [h, this]
  · have : ¬ i.1 < (if n < m then n else m) := by split <;> omega
    simp [h, this]

/-- C04: transposed product with `B` not given. -/
theorem affine_identity_transpose_dot_correct {S : StoredMatrix K} {A : Matrix (Fin n) (Fin m) K}
    (hS : Represents S A) (t : K) (v : Fin n → K) (c : Array K) (hc : c.size = m) :
    ∃ O, AffineOp.construct S none n m = .ok O ∧
      O.transposeDot (some t) (Array.ofFn v) c =
        .ok (Array.ofFn ((A + t • rectOne)ᵀ *ᵥ v)) := by
  refine ⟨_, rfl, ?_⟩
  unfold AffineOp.transposeDot
  rw [stored_transpose_dot_correct hS v c hc]
  simp only [Except.ok_bind', if_true, AffineOp.addScaledVector]
  rw [VectorOps.subtractScaledVector_eq' v (-t) (Aᵀ *ᵥ v) (by split <;> omega)
    (by split <;> omega)]
  congr 2
  funext i
  rw [Matrix.transpose_add, Matrix.transpose_smul, rectOne_transpose, Matrix.add_mulVec,
    Matrix.smul_mulVec, rectOne_mulVec]
  have hi := i.2
  by_cases h : i.1 < n
  · have : i.1 < (if n < m then n else m) := by split <;> omega
    simp [h, this]
  · have : ¬ i.1 < (if n < m then n else m) := by split <;> omega
    simp [h, this]

/-- C04: with a `B` that is not taken for the identity, the operator with parameter `t` applies
`A + t B`, and its transpose. -/
theorem affine_generic_dot_correct {S T : StoredMatrix K} {A B : Matrix (Fin n) (Fin m) K}
    (hS : Represents S A) (hT : Represents T B) (hI : T.isIdentity n m = .ok false) (t : K)
    (v : Fin m → K) (u : Fin n → K) (c : Array K) (hc : c.size = n) (d : Array K)
    (hd : d.size = m) :
    ∃ O, AffineOp.construct S (some T) n m = .ok O ∧
      O.dot (some t) (Array.ofFn v) c = .ok (Array.ofFn ((A + t • B) *ᵥ v)) ∧
      O.transposeDot (some t) (Array.ofFn u) d = .ok (Array.ofFn ((A + t • B)ᵀ *ᵥ u)) := by
  refine ⟨⟨S, some T, n, m, false, false⟩, by simp [AffineOp.construct, hI, Except.ok_bind'],
    ?_, ?_⟩
  · unfold AffineOp.dot
    rw [stored_dot_correct hS v c hc]
    simp only [Except.ok_bind', Bool.false_eq_true, if_false]
    rw [stored_dot_plus_correct hT, Matrix.add_mulVec, Matrix.smul_mulVec]
  · unfold AffineOp.transposeDot
    rw [stored_transpose_dot_correct hS u d hd]
    simp only [Except.ok_bind', Bool.false_eq_true, if_false]
    rw [stored_transpose_dot_plus_correct hT, Matrix.transpose_add, Matrix.transpose_smul,
      Matrix.add_mulVec, Matrix.smul_mulVec]

/-- C04: the parameter must be set before a product (the `assert` fires). -/
theorem affine_unset_parameter_aborts {S : StoredMatrix K} {A : Matrix (Fin n) (Fin m) K}
    (hS : Represents S A) (B : Option (StoredMatrix K)) (b r : Bool) (v : Fin m → K) (c : Array K)
    (hc : c.size = n) :
    (AffineOp.mk S B n m b r).dot none (Array.ofFn v) c = .error .abort := by
  unfold AffineOp.dot
  rw [stored_dot_correct hS v c hc]
  rfl

/-! ## C05 identity detection -/

theorem identityElementOk_true {row column : Nat} {x : K}
    (h : StoredMatrix.identityElementOk row column x = true) : x = 0 := by
  unfold StoredMatrix.identityElementOk at h
  split at h
  · simp at h
  · split at h
    · simp at h
    · rename_i h2; simpa using h2

/-- C05 (what the code does): whenever `is_identity_matrix` answers "identity", the matrix is the
*zero* matrix; and it always answers without leaving its buffers. -/
theorem isIdentity_true_imp_zero {S : StoredMatrix K} {M : Matrix (Fin n) (Fin m) K}
    (h : Represents S M) :
    ∃ b, S.isIdentity n m = .ok b ∧ (b = true → M = 0) := by
  have csrCase : ∀ (n m : Nat) (M : Matrix (Fin n) (Fin m) K) (d : Array K) (ix p : Array Nat)
      (body : Nat → Nat → K → Bool) (hbody : ∀ r c x, body r c x = true → x = 0),
      CSRRepr d ix p M → ∃ b, forRange 0 n (fun row ok =>
        if ok then do
          forRange (← rd p row) (← rd p (row + 1)) (fun k ok =>
            if ok then do
              let column ← rd ix k
              .ok (body row column (← rd d k))
            else .ok false) ok
        else .ok false) true = .ok b ∧ (b = true → M = 0) := by
    intro n m M d ix p body hbody h
    obtain ⟨b, h1, h2⟩ := forRange_inv (body := fun row ok =>
        if ok then do
          forRange (← rd p row) (← rd p (row + 1)) (fun k ok =>
            if ok then do
              let column ← rd ix k
              .ok (body row column (← rd d k))
            else .ok false) ok
        else .ok false)
      (fun r b => b = true → ∀ (i : Fin n), i.1 < r → ∀ j, M i j = 0)
      (Nat.zero_le n) true (by intro _ i hi; omega) (by
        intro r _ hr ok hok
        by_cases hok' : ok = true
        · subst hok'
          obtain ⟨lo, hi, h1, h2, h3, h4, h5, h6⟩ := h.2.2 ⟨r, hr⟩
          have h1' : rd p r = .ok lo := rd_ok h1
          have h2' : rd p (r + 1) = .ok hi := rd_ok h2
          simp only [if_true, h1', h2', Except.ok_bind']
          obtain ⟨b, hb1, hb2⟩ := forRange_inv (body := fun k ok =>
              if ok = true then do
                let column ← rd ix k
                .ok (body r column (← rd d k))
              else .ok false)
            (fun k b => b = true → ∀ k', lo ≤ k' → k' < k → d.getD k' 0 = 0) h3 true
            (by intro _ k' _ _; omega) (by
              intro k hk1 hk2 b hb
              by_cases hb' : b = true
              · subst hb'
                obtain ⟨j, hj, hkj⟩ := h5 k hk1 hk2
                have hd : d[k]? = some (d.getD k 0) := by
                  simp [Array.getD_eq_getD_getElem?,
                    Array.getElem?_eq_getElem (show k < d.size by omega)]
                simp only [if_true, rd_ok hkj, rd_ok hd, Except.ok_bind']
                refine ⟨_, rfl, ?_⟩
                intro hx k' hk'1 hk'2
                rcases Nat.lt_succ_iff_lt_or_eq.mp hk'2 with hlt | heq
                · exact hb rfl k' hk'1 hlt
                · subst heq; exact hbody _ _ _ hx
              · simp only [hb', Bool.false_eq_true, if_false]
                exact ⟨false, rfl, by simp⟩)
          refine ⟨b, hb1, ?_⟩
          intro hbt i hi j
          rcases Nat.lt_succ_iff_lt_or_eq.mp hi with hlt | heq
          · exact hok rfl i hlt j
          · have : i = ⟨r, hr⟩ := by ext; exact heq
            subst this
            rw [h6 j]
            apply Finset.sum_eq_zero
            intro k hk
            rw [Finset.mem_Ico] at hk
            rw [hb2 hbt k hk.1 hk.2]
            simp
        · simp only [hok', Bool.false_eq_true, if_false]
          exact ⟨false, rfl, by simp⟩)
    refine ⟨b, h1, fun hb => ?_⟩
    ext i j
    exact h2 hb i i.2 j
  cases S with
  | csr d ix p =>
    exact csrCase n m M d ix p (fun r c x => StoredMatrix.identityElementOk r c x)
      (fun _ _ _ => identityElementOk_true) h
  | csc d ix p =>
    obtain ⟨b, h1, h2⟩ := csrCase m n Mᵀ d ix p (fun c r x => StoredMatrix.identityElementOk r c x)
      (fun _ _ _ => identityElementOk_true) h
    exact ⟨b, h1, fun hb => by simpa using congrArg Matrix.transpose (h2 hb)⟩
  | dense A rm =>
    have hrd : ∀ (i : Fin n) (j : Fin m),
        rd A (if rm = true then i.1 * m + j.1 else j.1 * n + i.1) = .ok (M i j) := by
      intro i j
      have := h.2 i j
      cases rm
      · simp only [Bool.false_eq_true, if_false] at this ⊢
        apply rd_ok; rw [← this]; congr 1; ring
      · simp only [if_true] at this ⊢
        exact rd_ok this
    obtain ⟨b, h1, h2⟩ := forRange_inv (body := fun row ok =>
        forRange 0 m (fun column ok =>
          if ok then do
            let x ← rd A (if rm then row * m + column else column * n + row)
            .ok (StoredMatrix.identityElementOk row column x)
          else .ok false) ok)
      (fun r b => b = true → ∀ (i : Fin n), i.1 < r → ∀ j, M i j = 0)
      (Nat.zero_le n) true (by intro _ i hi; omega) (by
        intro r _ hr ok hok
        obtain ⟨b, hb1, hb2⟩ := forRange_inv (body := fun column ok =>
            if ok then do
              let x ← rd A (if rm then r * m + column else column * n + r)
              .ok (StoredMatrix.identityElementOk r column x)
            else .ok false)
          (fun c b => b = true → ok = true ∧ ∀ (j : Fin m), j.1 < c → M ⟨r, hr⟩ j = 0)
          (Nat.zero_le m) ok (by intro h; exact ⟨h, by intro j hj; omega⟩) (by
            intro c _ hc b hb
            by_cases hb' : b = true
            · subst hb'
              have := hrd ⟨r, hr⟩ ⟨c, hc⟩
              simp only at this
              simp only [if_true, this, Except.ok_bind']
              refine ⟨_, rfl, ?_⟩
              intro hx
              refine ⟨(hb rfl).1, ?_⟩
              intro j hj
              rcases Nat.lt_succ_iff_lt_or_eq.mp hj with hlt | heq
              · exact (hb rfl).2 j hlt
              · have : j = ⟨c, hc⟩ := by ext; exact heq
                subst this
                exact identityElementOk_true hx
            · simp only [hb', Bool.false_eq_true, if_false]
              exact ⟨false, rfl, by simp⟩)
        refine ⟨b, hb1, ?_⟩
        intro hbt i hi j
        rcases Nat.lt_succ_iff_lt_or_eq.mp hi with hlt | heq
        · exact hok (hb2 hbt).1 i hlt j
        · have : i = ⟨r, hr⟩ := by ext; exact heq
          subst this
          exact (hb2 hbt).2 j j.2)
    refine ⟨b, h1, fun hb => ?_⟩
    ext i j
    exact h2 hb i i.2 j

/-- C05 is violated: an explicitly supplied identity matrix is never recognised, in any storage
format and any size `n ≥ 1`. -/
theorem explicit_identity_not_recognised {S : StoredMatrix K} {n : Nat} (hn : 0 < n)
    (h : Represents S (1 : Matrix (Fin n) (Fin n) K)) : S.isIdentity n n = .ok false := by
  obtain ⟨b, h1, h2⟩ := isIdentity_true_imp_zero h
  cases b with
  | false => exact h1
  | true =>
    have := congrFun (congrFun (h2 rfl) ⟨0, hn⟩) ⟨0, hn⟩
    simp at this

/-- C05 is violated: with `B` the zero matrix in CSR format (no stored entry), the operator
`A + t B` applies `A + t I` instead of `A`; here `A = 1` (1×1), `t = 5`, giving 6 instead of 1. -/
theorem zero_B_treated_as_identity :
    ∃ (S T : StoredMatrix ℚ) (O : AffineOp ℚ),
      Represents S (1 : Matrix (Fin 1) (Fin 1) ℚ) ∧ Represents T (0 : Matrix (Fin 1) (Fin 1) ℚ) ∧
      AffineOp.construct S (some T) 1 1 = .ok O ∧ O.eigenvalueRelationKnown = true ∧
      O.dot (some 5) #[1] #[0] = .ok #[6] := by
  refine ⟨.csr #[1] #[0] #[0, 1], .csr #[] #[] #[0, 0], ⟨.csr #[1] #[0] #[0, 1],
    some (.csr #[] #[] #[0, 0]), 1, 1, true, true⟩, ?_, ?_, ?_, rfl, by decide +kernel⟩
  · refine ⟨rfl, rfl, fun i => ⟨0, 1, ?_, ?_, by decide, by decide, ?_, ?_⟩⟩
    · fin_cases i; rfl
    · fin_cases i; rfl
    · intro k h1 h2; interval_cases k; exact ⟨0, by decide, rfl⟩
    · intro j; fin_cases i; fin_cases j; decide +kernel
  · refine ⟨rfl, rfl, fun i => ⟨0, 0, ?_, ?_, by decide, by decide, ?_, ?_⟩⟩
    · fin_cases i; rfl
    · fin_cases i; rfl
    · intro k h1 h2; omega
    · intro j; simp
  · rfl

/-- C05, the part that holds: for non-zero `B`, `A + t B` is applied exactly (`B` is never mistaken
for the identity), for every format. Missing: the case `B = 0` (wrong, see
`zero_B_treated_as_identity`) and recognition of an explicit identity. -/
theorem affine_nonzero_B_correct_partial {S T : StoredMatrix K} {A B : Matrix (Fin n) (Fin m) K}
    (hS : Represents S A) (hT : Represents T B) (hB : B ≠ 0) (t : K)
    (v : Fin m → K) (u : Fin n → K) (c : Array K) (hc : c.size = n) (d : Array K)
    (hd : d.size = m) :
    ∃ O, AffineOp.construct S (some T) n m = .ok O ∧ O.eigenvalueRelationKnown = false ∧
      O.dot (some t) (Array.ofFn v) c = .ok (Array.ofFn ((A + t • B) *ᵥ v)) ∧
      O.transposeDot (some t) (Array.ofFn u) d = .ok (Array.ofFn ((A + t • B)ᵀ *ᵥ u)) := by
  have hI : T.isIdentity n m = .ok false := by
    obtain ⟨b, h1, h2⟩ := isIdentity_true_imp_zero hT
    cases b with
    | false => exact h1
    | true => exact absurd (h2 rfl) hB
  obtain ⟨O, h1, h2, h3⟩ := affine_generic_dot_correct hS hT hI t v u c hc d hd
  refine ⟨O, h1, ?_, h2, h3⟩
  simp only [AffineOp.construct, hI, Except.ok_bind', Bool.false_eq_true, if_false,
    Except.ok.injEq] at h1
  rw [← h1]

/-! ### the hypotheses are met by concrete matrices -/

/-- a 2×3 matrix used in the examples -/
def exM : Matrix (Fin 2) (Fin 3) ℚ := ![![1, 0, 2], ![0, 3, 0]]

example : DenseRepr true #[(1 : ℚ), 0, 2, 0, 3, 0] exM :=
  ⟨rfl, by intro i j; fin_cases i <;> fin_cases j <;> rfl⟩

example : DenseRepr false #[(1 : ℚ), 0, 0, 3, 2, 0] exM :=
  ⟨rfl, by intro i j; fin_cases i <;> fin_cases j <;> rfl⟩

theorem exM_csr : CSRRepr #[(1 : ℚ), 2, 3] #[0, 2, 1] #[0, 2, 3] exM := by
  refine ⟨rfl, rfl, ?_⟩
  intro i
  fin_cases i
  · refine ⟨0, 2, rfl, rfl, by decide, by decide, ?_, ?_⟩
    · intro k h1 h2; interval_cases k
      · exact ⟨0, by decide, rfl⟩
      · exact ⟨2, by decide, rfl⟩
    · intro j; fin_cases j <;> decide +kernel
  · refine ⟨2, 3, rfl, rfl, by decide, by decide, ?_, ?_⟩
    · intro k h1 h2; interval_cases k
      · exact ⟨1, by decide, rfl⟩
    · intro j; fin_cases j <;> decide +kernel

theorem exM_csc : CSCRepr #[(1 : ℚ), 3, 2] #[0, 1, 0] #[0, 1, 2, 3] exM := by
  refine ⟨rfl, rfl, ?_⟩
  intro i
  fin_cases i
  · refine ⟨0, 1, rfl, rfl, by decide, by decide, ?_, ?_⟩
    · intro k h1 h2; interval_cases k; exact ⟨0, by decide, rfl⟩
    · intro j; fin_cases j <;> decide +kernel
  · refine ⟨1, 2, rfl, rfl, by decide, by decide, ?_, ?_⟩
    · intro k h1 h2; interval_cases k; exact ⟨1, by decide, rfl⟩
    · intro j; fin_cases j <;> decide +kernel
  · refine ⟨2, 3, rfl, rfl, by decide, by decide, ?_, ?_⟩
    · intro k h1 h2; interval_cases k; exact ⟨0, by decide, rfl⟩
    · intro j; fin_cases j <;> decide +kernel

example : MatrixOps.csrMatvec #[(1 : ℚ), 2, 3] #[0, 2, 1] #[0, 2, 3] #[5, 7, 11] 2 #[0, 0] =
    .ok #[27, 21] := by decide +kernel

end Imate.Props
