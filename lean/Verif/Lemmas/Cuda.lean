import Verif.Model.Cuda
import Verif.Lemmas.MatrixOps
import Verif.Spec.Operators

/-! Helper lemmas about the GPU products. -/

set_option linter.unusedSectionVars false

namespace Imate.Cuda

open Matrix

variable {K : Type _} [Field K] [DecidableEq K] {n m p q : Nat}

theorem scaledOld_congr {beta : K} {y y' : Array K} {i : Nat} (h : y'[i]? = y[i]?) :
    scaledOld beta y' i = scaledOld beta y i := by
  unfold scaledOld rd
  rw [h]

theorem scaledOld_zero (y : Array K) (i : Nat) : scaledOld (0 : K) y i = .ok 0 := by
  simp [scaledOld]

theorem scaledOld_one (w : Fin n → K) (i : Fin n) : scaledOld 1 (Array.ofFn w) i.1 = .ok (w i) := by
  simp [scaledOld, rd_ofFn w i, Except.ok_bind']

/-- `gemv` without transposition. -/
theorem gemv_N {N : Matrix (Fin p) (Fin q) K} {A : Array K} {lda : Nat}
    (hA : ∀ (i : Fin p) (j : Fin q), rd A (i.1 + j.1 * lda) = .ok (N i j)) (hl : max 1 p ≤ lda)
    (alpha beta : K) (v : Fin q → K) (y : Array K) (hy : y.size = p) (o : Fin p → K)
    (ho : ∀ i : Fin p, scaledOld beta y i.1 = .ok (o i)) :
    gemv false p q alpha A lda (Array.ofFn v) beta y =
      .ok (Array.ofFn (fun i => alpha * (N *ᵥ v) i + o i)) := by
  unfold gemv
  rw [if_neg (by omega)]
  simp only [Bool.false_eq_true, if_false]
  apply forRange_write_ofFn y _ hy
  intro i c' _ hc
  rw [MatrixOps.plainDot_fin (fun j => N i j) v (fun j => hA i j) (fun j => rd_ofFn v j)]
  simp only [Except.ok_bind', scaledOld_congr hc, ho i]
  rfl

/-- `gemv` with transposition. -/
theorem gemv_T {N : Matrix (Fin p) (Fin q) K} {A : Array K} {lda : Nat}
    (hA : ∀ (i : Fin p) (j : Fin q), rd A (i.1 + j.1 * lda) = .ok (N i j)) (hl : max 1 p ≤ lda)
    (alpha beta : K) (v : Fin p → K) (y : Array K) (hy : y.size = q) (o : Fin q → K)
    (ho : ∀ i : Fin q, scaledOld beta y i.1 = .ok (o i)) :
    gemv true p q alpha A lda (Array.ofFn v) beta y =
      .ok (Array.ofFn (fun i => alpha * (Nᵀ *ᵥ v) i + o i)) := by
  unfold gemv
  rw [if_neg (by omega)]
  simp only [if_true]
  apply forRange_write_ofFn y _ hy
  intro i c' _ hc
  rw [MatrixOps.plainDot_fin (fun j => N j i) v (fun j => hA j i) (fun j => rd_ofFn v j)]
  simp only [Except.ok_bind', scaledOld_congr hc, ho i]
  rfl

/-- A row major array, read column major, is the transpose. -/
theorem rd_rowMajor {A : Array K} {M : Matrix (Fin n) (Fin m) K} (h : Spec.DenseRepr true A M)
    (i : Fin m) (j : Fin n) : rd A (i.1 + j.1 * m) = .ok (Mᵀ i j) := by
  apply rd_ok
  have := h.2 j i
  simp only [if_true] at this
  rw [add_comm, this, Matrix.transpose_apply]

theorem rd_colMajor {A : Array K} {M : Matrix (Fin n) (Fin m) K} (h : Spec.DenseRepr false A M)
    (i : Fin n) (j : Fin m) : rd A (i.1 + j.1 * n) = .ok (M i j) := by
  apply rd_ok
  have := h.2 i j
  simp only [Bool.false_eq_true, if_false] at this
  rw [mul_comm, this]

/-- The general dense product: `alpha * M v + beta * y`. -/
theorem dense_gemv {A : Array K} {M : Matrix (Fin n) (Fin m) K} {rm : Bool}
    (h : Spec.DenseRepr rm A M) (hn : 0 < n) (hm : 0 < m) (alpha beta : K) (v : Fin m → K)
    (y : Array K) (hy : y.size = n) (o : Fin n → K)
    (ho : ∀ i : Fin n, scaledOld beta y i.1 = .ok (o i)) :
    gemv rm (if rm then m else n) (if rm then n else m) alpha A (if rm then m else n) (Array.ofFn v)
      beta y = .ok (Array.ofFn (fun i => alpha * (M *ᵥ v) i + o i)) := by
  cases rm with
  | true =>
    simpa using gemv_T (N := Mᵀ) (rd_rowMajor h) (by omega) alpha beta v y hy o ho
  | false =>
    simpa using gemv_N (N := M) (rd_colMajor h) (by omega) alpha beta v y hy o ho

/-- The general transposed dense product: `alpha * Mᵀ v + beta * y`. -/
theorem dense_gemv_transposed {A : Array K} {M : Matrix (Fin n) (Fin m) K} {rm : Bool}
    (h : Spec.DenseRepr rm A M) (hn : 0 < n) (hm : 0 < m) (alpha beta : K) (v : Fin n → K)
    (y : Array K) (hy : y.size = m) (o : Fin m → K)
    (ho : ∀ i : Fin m, scaledOld beta y i.1 = .ok (o i)) :
    gemv (!rm) (if rm then m else n) (if rm then n else m) alpha A (if rm then m else n)
      (Array.ofFn v) beta y = .ok (Array.ofFn (fun i => alpha * (Mᵀ *ᵥ v) i + o i)) := by
  cases rm with
  | true =>
    simpa using gemv_N (N := Mᵀ) (rd_rowMajor h) (by omega) alpha beta v y hy o ho
  | false =>
    simpa using gemv_T (N := M) (rd_colMajor h) (by omega) alpha beta v y hy o ho

/-- `SpMV` without transposition. -/
theorem spmv_N {data : Array K} {ix ptr : Array Nat} {M : Matrix (Fin p) (Fin q) K}
    (h : Spec.CSRRepr data ix ptr M) (alpha beta : K) (v : Fin q → K) (y : Array K)
    (hy : y.size = p) (o : Fin p → K) (ho : ∀ i : Fin p, scaledOld beta y i.1 = .ok (o i)) :
    spmv false p q data ix ptr alpha q (Array.ofFn v) beta p y =
      .ok (Array.ofFn (fun i => alpha * (M *ᵥ v) i + o i)) := by
  unfold spmv
  rw [if_neg (by simp)]
  simp only [Bool.false_eq_true, if_false]
  rw [MatrixOps.csrMatvec_eq h v _ (by simp)]
  simp only [Except.ok_bind']
  apply forRange_write_ofFn y _ hy
  intro i c' _ hc
  simp only [rd_ofFn (M *ᵥ v) i, Except.ok_bind', scaledOld_congr hc, ho i]

/-- `SpMV` with transposition. -/
theorem spmv_T {data : Array K} {ix ptr : Array Nat} {M : Matrix (Fin p) (Fin q) K}
    (h : Spec.CSRRepr data ix ptr M) (alpha beta : K) (v : Fin p → K) (y : Array K)
    (hy : y.size = q) (o : Fin q → K) (ho : ∀ i : Fin q, scaledOld beta y i.1 = .ok (o i)) :
    spmv true p q data ix ptr alpha p (Array.ofFn v) beta q y =
      .ok (Array.ofFn (fun i => alpha * (Mᵀ *ᵥ v) i + o i)) := by
  unfold spmv
  rw [if_neg (by simp)]
  simp only [if_true]
  rw [MatrixOps.csrTransposedMatvec_eq h v _ (by simp)]
  simp only [Except.ok_bind']
  apply forRange_write_ofFn y _ hy
  intro i c' _ hc
  simp only [rd_ofFn (Mᵀ *ᵥ v) i, Except.ok_bind', scaledOld_congr hc, ho i]

/-- `SpMV` rejects vectors of other lengths. -/
theorem spmv_mismatch {trans : Bool} {rows cols xs ys : Nat} (data : Array K) (ix ptr : Array Nat)
    (alpha beta : K) (x y : Array K)
    (h : xs ≠ (if trans then rows else cols) ∨ ys ≠ (if trans then cols else rows)) :
    spmv trans rows cols data ix ptr alpha xs x beta ys y = .error .abort := by
  unfold spmv
  rw [if_pos h]

/-! ### Copies of a compressed matrix -/

theorem csr_ptr_mono {data : Array K} {ix ptr : Array Nat} {M : Matrix (Fin p) (Fin q) K}
    (h : Spec.CSRRepr data ix ptr M) {i : Nat} (hi : i ≤ p) {x nnz : Nat} (hx : ptr[i]? = some x)
    (hn : ptr[p]? = some nnz) : x ≤ nnz := by
  obtain ⟨k, hk⟩ := Nat.exists_eq_add_of_le hi
  induction k generalizing i x with
  | zero =>
    have : i = p := by omega
    subst this
    rw [hx] at hn
    exact le_of_eq (Option.some.inj hn)
  | succ k ih =>
    obtain ⟨lo, hi', h1, h2, h3, -⟩ := h.2.2 ⟨i, by omega⟩
    simp only at h1 h2
    rw [hx] at h1
    cases h1
    exact le_trans h3 (ih (by omega) h2 (by omega))

/-- The number of stored entries. -/
theorem csr_nnz {data : Array K} {ix ptr : Array Nat} {M : Matrix (Fin p) (Fin q) K}
    (h : Spec.CSRRepr data ix ptr M) (hp : 0 < p) :
    ∃ nnz, ptr[p]? = some nnz ∧ nnz ≤ data.size := by
  obtain ⟨lo, hi, h1, h2, h3, h4, -⟩ := h.2.2 ⟨p - 1, by omega⟩
  simp only [Nat.sub_add_cancel hp] at h2
  exact ⟨hi, h2, h4⟩

/-- The copy of the stored entries represents the same matrix. -/
theorem csr_extract {data : Array K} {ix ptr : Array Nat} {M : Matrix (Fin p) (Fin q) K}
    (h : Spec.CSRRepr data ix ptr M) {nnz : Nat} (hn : ptr[p]? = some nnz) (hd : nnz ≤ data.size) :
    Spec.CSRRepr (data.extract 0 nnz) (ix.extract 0 nnz) (ptr.extract 0 (p + 1)) M := by
  have hps := h.1
  have his := h.2.1
  refine ⟨by simp [hps], by simp [his], fun i => ?_⟩
  obtain ⟨lo, hi, h1, h2, h3, h4, h5, h6⟩ := h.2.2 i
  have hle : hi ≤ nnz := csr_ptr_mono h i.2 h2 hn
  have hget : ∀ k < nnz, (ix.extract 0 nnz)[k]? = ix[k]? := by
    intro k hk
    rw [Array.getElem?_extract]
    simp [his]
    omega
  have hgetd : ∀ k < nnz, (data.extract 0 nnz).getD k 0 = data.getD k 0 := by
    intro k hk
    rw [Array.getD_eq_getD_getElem?, Array.getD_eq_getD_getElem?, Array.getElem?_extract]
    rw [if_pos (by omega)]
    simp
  refine ⟨lo, hi, ?_, ?_, h3, by simp; omega, ?_, ?_⟩
  · rw [Array.getElem?_extract, if_pos (by omega)]
    simpa using h1
  · rw [Array.getElem?_extract, if_pos (by omega)]
    simpa using h2
  · intro k hk1 hk2
    rw [hget k (by omega)]
    exact h5 k hk1 hk2
  · intro j
    rw [h6 j]
    apply Finset.sum_congr rfl
    intro k hk
    rw [Finset.mem_Ico] at hk
    rw [hget k (by omega), hgetd k (by omega)]

end Imate.Cuda
