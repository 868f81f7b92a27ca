import Verif.Model.Operators
import Verif.Lemmas.Mem
import Verif.Spec.Storage
import Mathlib.Tactic.LinearCombination

/-! Helper lemmas: the matrix and vector kernels compute the mathematical product. -/

set_option linter.unusedSectionVars false

namespace Imate

open Finset Matrix

namespace MatrixOps

section Ring
variable {K : Type _} [CommRing K] [DecidableEq K]

theorem chunkedDot_eq {a b : Nat → Except Fault K} {n : Nat} (f g : Nat → K)
    (ha : ∀ j < n, a j = .ok (f j)) (hb : ∀ j < n, b j = .ok (g j)) :
    chunkedDot a b n = .ok (∑ j ∈ range n, f j * g j) := by
  unfold chunkedDot
  have hq : n - n % 5 = 5 * (n / 5) := by omega
  simp only [hq]
  rw [forStep5_sum (fun j => f j * g j) 0 (by
    intro i hi s
    rw [ha i (by omega), hb i (by omega), ha (i+1) (by omega), hb (i+1) (by omega),
      ha (i+2) (by omega), hb (i+2) (by omega), ha (i+3) (by omega), hb (i+3) (by omega),
      ha (i+4) (by omega), hb (i+4) (by omega)]
    rfl)]
  simp only [Except.ok_bind']
  rw [forRange_sum (by omega) (fun j => f j * g j) _ (by
    intro i h1 h2 s
    rw [ha i h2, hb i h2]; rfl)]
  congr 1
  rw [zero_add, Finset.sum_range_add_sum_Ico _ (by omega)]

theorem plainDot_eq {a b : Nat → Except Fault K} {n : Nat} (f g : Nat → K)
    (ha : ∀ j < n, a j = .ok (f j)) (hb : ∀ j < n, b j = .ok (g j)) :
    plainDot a b n = .ok (∑ j ∈ range n, f j * g j) := by
  unfold plainDot
  rw [forRange_sum (Nat.zero_le n) (fun j => f j * g j) _ (by
    intro i _ h2 s
    rw [ha i h2, hb i h2]; rfl)]
  simp

/-- `Fin`-indexed versions. -/
theorem chunkedDot_fin {a b : Nat → Except Fault K} {n : Nat} (f g : Fin n → K)
    (ha : ∀ j : Fin n, a j.1 = .ok (f j)) (hb : ∀ j : Fin n, b j.1 = .ok (g j)) :
    chunkedDot a b n = .ok (∑ j, f j * g j) := by
  rw [chunkedDot_eq (fun j => if h : j < n then f ⟨j, h⟩ else 0)
    (fun j => if h : j < n then g ⟨j, h⟩ else 0)
    (by intro j hj; simpa [hj] using ha ⟨j, hj⟩) (by intro j hj; simpa [hj] using hb ⟨j, hj⟩)]
  congr 1
  rw [Finset.sum_range]
  simp

theorem plainDot_fin {a b : Nat → Except Fault K} {n : Nat} (f g : Fin n → K)
    (ha : ∀ j : Fin n, a j.1 = .ok (f j)) (hb : ∀ j : Fin n, b j.1 = .ok (g j)) :
    plainDot a b n = .ok (∑ j, f j * g j) := by
  rw [plainDot_eq (fun j => if h : j < n then f ⟨j, h⟩ else 0)
    (fun j => if h : j < n then g ⟨j, h⟩ else 0)
    (by intro j hj; simpa [hj] using ha ⟨j, hj⟩) (by intro j hj; simpa [hj] using hb ⟨j, hj⟩)]
  congr 1
  rw [Finset.sum_range]
  simp

theorem rd_of_getElem? {α : Type _} {a : Array α} {i : Nat} {x : α} (h : a[i]? = some x) :
    rd a i = .ok x := rd_ok h

variable {n m : Nat}

theorem dense_rd_row {A : Array K} {M : Matrix (Fin n) (Fin m) K}
    (h : Spec.DenseRepr true A M) (i : Fin n) (j : Fin m) :
    rd A (i.1 * m + j.1) = .ok (M i j) := rd_ok (by simpa using h.2 i j)

theorem dense_rd_col {A : Array K} {M : Matrix (Fin n) (Fin m) K}
    (h : Spec.DenseRepr false A M) (i : Fin n) (j : Fin m) :
    rd A (i.1 + n * j.1) = .ok (M i j) := rd_ok (by simpa using h.2 i j)

theorem denseMatvec_eq {A : Array K} {M : Matrix (Fin n) (Fin m) K} {rm : Bool}
    (h : Spec.DenseRepr rm A M) (v : Fin m → K) (c : Array K) (hc : c.size = n) :
    denseMatvec A (Array.ofFn v) n m rm c = .ok (Array.ofFn (M *ᵥ v)) := by
  unfold denseMatvec
  cases rm
  · simp only [Bool.false_eq_true, if_false]
    apply forRange_write_ofFn c _ hc
    intro i c' _ _
    rw [plainDot_fin (fun j => M i j) v (fun j => dense_rd_col h i j) (fun j => rd_ofFn v j)]
    rfl
  · simp only [if_true]
    apply forRange_write_ofFn c _ hc
    intro i c' _ _
    rw [chunkedDot_fin (fun j => M i j) v (fun j => dense_rd_row h i j) (fun j => rd_ofFn v j)]
    rfl

theorem denseTransposedMatvec_eq {A : Array K} {M : Matrix (Fin n) (Fin m) K} {rm : Bool}
    (h : Spec.DenseRepr rm A M) (v : Fin n → K) (c : Array K) (hc : c.size = m) :
    denseTransposedMatvec A (Array.ofFn v) n m rm c = .ok (Array.ofFn (Mᵀ *ᵥ v)) := by
  unfold denseTransposedMatvec
  cases rm
  · simp only [Bool.false_eq_true, if_false]
    apply forRange_write_ofFn c _ hc
    intro i c' _ _
    rw [chunkedDot_fin (fun j => M j i) v (fun j => dense_rd_col h j i) (fun j => rd_ofFn v j)]
    rfl
  · simp only [if_true]
    apply forRange_write_ofFn c _ hc
    intro i c' _ _
    rw [plainDot_fin (fun j => M j i) v (fun j => dense_rd_row h j i) (fun j => rd_ofFn v j)]
    rfl

theorem denseMatvecPlus_eq {A : Array K} {M : Matrix (Fin n) (Fin m) K} {rm : Bool}
    (h : Spec.DenseRepr rm A M) (v : Fin m → K) (alpha : K) (w : Fin n → K) :
    denseMatvecPlus A (Array.ofFn v) alpha n m rm (Array.ofFn w) =
      .ok (Array.ofFn (w + alpha • (M *ᵥ v))) := by
  unfold denseMatvecPlus
  split
  · rename_i h0; subst h0; simp
  · cases rm
    · simp only [Bool.false_eq_true, if_false]
      apply forRange_write_ofFn _ _ (by simp)
      intro i c' _ hci
      rw [plainDot_fin (fun j => M i j) v (fun j => dense_rd_col h i j) (fun j => rd_ofFn v j)]
      simp only [Except.ok_bind']
      rw [rd_ok (x := w i) (by rw [hci]; simp)]
      rfl
    · simp only [if_true]
      apply forRange_write_ofFn _ _ (by simp)
      intro i c' _ hci
      rw [chunkedDot_fin (fun j => M i j) v (fun j => dense_rd_row h i j) (fun j => rd_ofFn v j)]
      simp only [Except.ok_bind']
      rw [rd_ok (x := w i) (by rw [hci]; simp)]
      rfl

theorem denseTransposedMatvecPlus_eq {A : Array K} {M : Matrix (Fin n) (Fin m) K} {rm : Bool}
    (h : Spec.DenseRepr rm A M) (v : Fin n → K) (alpha : K) (w : Fin m → K) :
    denseTransposedMatvecPlus A (Array.ofFn v) alpha n m rm (Array.ofFn w) =
      .ok (Array.ofFn (w + alpha • (Mᵀ *ᵥ v))) := by
  unfold denseTransposedMatvecPlus
  split
  · rename_i h0; subst h0; simp
  · cases rm
    · simp only [Bool.false_eq_true, if_false]
      apply forRange_write_ofFn _ _ (by simp)
      intro i c' _ hci
      rw [chunkedDot_fin (fun j => M j i) v (fun j => dense_rd_col h j i) (fun j => rd_ofFn v j)]
      simp only [Except.ok_bind']
      rw [rd_ok (x := w i) (by rw [hci]; simp)]
      rfl
    · simp only [if_true]
      apply forRange_write_ofFn _ _ (by simp)
      intro i c' _ hci
      rw [plainDot_fin (fun j => M j i) v (fun j => dense_rd_row h j i) (fun j => rd_ofFn v j)]
      simp only [Except.ok_bind']
      rw [rd_ok (x := w i) (by rw [hci]; simp)]
      rfl

/-! ### compressed storage -/

/-- Value of a compressed row times a vector. -/
theorem compressed_row_sum {data : Array K} {ix : Array Nat} {lo hi : Nat} {M : Fin m → K}
    (hix : ∀ k, lo ≤ k → k < hi → ∃ j < m, ix[k]? = some j)
    (hM : ∀ j : Fin m, M j = ∑ k ∈ Ico lo hi, if ix[k]? = some j.1 then data.getD k 0 else 0)
    (v : Fin m → K) :
    ∑ k ∈ Ico lo hi, data.getD k 0 * (if h : (ix.getD k 0) < m then v ⟨ix.getD k 0, h⟩ else 0) =
      ∑ j, M j * v j := by
  simp only [hM, Finset.sum_mul]
  rw [Finset.sum_comm]
  apply Finset.sum_congr rfl
  intro k hk
  rw [Finset.mem_Ico] at hk
  obtain ⟨j, hj, hkj⟩ := hix k hk.1 hk.2
  have hgd : ix.getD k 0 = j := by simp [Array.getD_eq_getD_getElem?, hkj]
  simp only [hgd, hj, dif_pos, hkj]
  rw [Finset.sum_eq_single ⟨j, hj⟩]
  · simp
  · intro b _ hb
    have : ¬ (j = b.1) := fun h => hb (by ext; exact h.symm)
    simp [this]
  · simp

theorem gather_eq {data : Array K} {ix : Array Nat} {lo hi : Nat} {M : Fin m → K}
    (hle : lo ≤ hi) (hsz : hi ≤ data.size)
    (hix : ∀ k, lo ≤ k → k < hi → ∃ j < m, ix[k]? = some j)
    (hM : ∀ j : Fin m, M j = ∑ k ∈ Ico lo hi, if ix[k]? = some j.1 then data.getD k 0 else 0)
    (v : Fin m → K) :
    gather data ix (Array.ofFn v) lo hi = .ok (∑ j, M j * v j) := by
  unfold gather
  rw [forRange_sum hle (fun k => data.getD k 0 *
    (if h : (ix.getD k 0) < m then v ⟨ix.getD k 0, h⟩ else 0)) 0 (by
      intro k h1 h2 s
      obtain ⟨j, hj, hkj⟩ := hix k h1 h2
      rw [rd_ok hkj]
      have hgd : ix.getD k 0 = j := by simp [Array.getD_eq_getD_getElem?, hkj]
      have hd : data[k]? = some (data.getD k 0) := by
        simp [Array.getD_eq_getD_getElem?, Array.getElem?_eq_getElem (show k < data.size by omega)]
      simp only [Except.ok_bind', rd_ok hd, hgd, hj, dif_pos]
      rw [rd_ofFn v ⟨j, hj⟩]
      rfl)]
  rw [compressed_row_sum hix hM v, zero_add]

theorem scatter_eq {data : Array K} {ix : Array Nat} {lo hi p : Nat} {M : Fin m → K}
    {b : Array K} {bp : K} (alpha : Option K)
    (hle : lo ≤ hi) (hsz : hi ≤ data.size)
    (hix : ∀ k, lo ≤ k → k < hi → ∃ j < m, ix[k]? = some j)
    (hM : ∀ j : Fin m, M j = ∑ k ∈ Ico lo hi, if ix[k]? = some j.1 then data.getD k 0 else 0)
    (hb : rd b p = .ok bp) (w : Fin m → K) :
    scatter data ix b alpha p lo hi (Array.ofFn w) =
      .ok (Array.ofFn (fun j => w j + alpha.getD 1 * M j * bp)) := by
  unfold scatter
  obtain ⟨c', h1, h2⟩ := forRange_inv
    (body := fun k c => do
      let column ← rd ix k
      wr c column ((← rd c column) + scatterTerm alpha (← rd data k) (← rd b p)))
    (fun k c' => c' = Array.ofFn (fun j : Fin m => w j +
      ∑ k ∈ Ico lo k, alpha.getD 1 * (if ix[k]? = some j.1 then data.getD k 0 else 0) * bp))
    hle (Array.ofFn w) (by simp) (by
      intro k hk1 hk2 s hs
      obtain ⟨j, hj, hkj⟩ := hix k hk1 hk2
      have hd : data[k]? = some (data.getD k 0) := by
        simp [Array.getD_eq_getD_getElem?, Array.getElem?_eq_getElem (show k < data.size by omega)]
      have hterm : scatterTerm alpha (data.getD k 0) bp = alpha.getD 1 * data.getD k 0 * bp := by
        cases alpha <;> simp [scatterTerm]
      simp only [rd_ok hkj, Except.ok_bind', rd_ok hd, hb, hterm]
      subst hs
      rw [rd_ofFn _ ⟨j, hj⟩]
      simp only [Except.ok_bind']
      rw [wr_ok (by simpa using hj)]
      refine ⟨_, rfl, ?_⟩
      apply eq_ofFn (by simp)
      intro i
      rw [Array.getElem?_set]
      rw [Finset.sum_Ico_succ_top hk1, hkj]
      by_cases hij : j = i.1
      · have : (⟨j, hj⟩ : Fin m) = i := by ext; exact hij
        subst this
        simp [add_assoc]
      · simp [hij])
  rw [h1, h2]
  congr 2
  funext j
  rw [hM j, Finset.mul_sum, Finset.sum_mul]

theorem zeroFill_eq (c : Array K) (hc : c.size = n) :
    zeroFill n c = .ok (Array.ofFn (fun _ : Fin n => (0 : K))) := by
  unfold zeroFill
  exact forRange_write_ofFn c _ hc (fun i c' _ _ => rfl)

variable {data : Array K} {ix ptr : Array Nat} {M : Matrix (Fin n) (Fin m) K}

/-- gather product over the major dimension -/
theorem csrMatvec_eq (h : Spec.CSRRepr data ix ptr M) (v : Fin m → K) (c : Array K)
    (hc : c.size = n) :
    csrMatvec data ix ptr (Array.ofFn v) n c = .ok (Array.ofFn (M *ᵥ v)) := by
  unfold csrMatvec
  apply forRange_write_ofFn c _ hc
  intro i c' _ _
  obtain ⟨lo, hi, h1, h2, h3, h4, h5, h6⟩ := h.2.2 i
  rw [rd_ok h1, rd_ok h2]
  simp only [Except.ok_bind']
  rw [gather_eq h3 h4 h5 h6]
  rfl

theorem csrMatvecPlus_eq (h : Spec.CSRRepr data ix ptr M) (v : Fin m → K) (alpha : K)
    (w : Fin n → K) :
    csrMatvecPlus data ix ptr (Array.ofFn v) alpha n (Array.ofFn w) =
      .ok (Array.ofFn (w + alpha • (M *ᵥ v))) := by
  unfold csrMatvecPlus
  split
  · rename_i h0; subst h0; simp
  · apply forRange_write_ofFn _ _ (by simp)
    intro i c' _ hci
    obtain ⟨lo, hi, h1, h2, h3, h4, h5, h6⟩ := h.2.2 i
    rw [rd_ok h1, rd_ok h2]
    simp only [Except.ok_bind']
    rw [gather_eq h3 h4 h5 h6]
    simp only [Except.ok_bind']
    rw [rd_ok (x := w i) (by rw [hci]; simp)]
    rfl

/-- The scatter loop over all rows. -/
theorem scatterAll_eq (h : Spec.CSRRepr data ix ptr M) (alpha : Option K) (v : Fin n → K)
    (w : Fin m → K) :
    forRange 0 n (fun row c => do
      scatter data ix (Array.ofFn v) alpha row (← rd ptr row) (← rd ptr (row + 1)) c)
      (Array.ofFn w) =
      .ok (Array.ofFn (w + alpha.getD 1 • (Mᵀ *ᵥ v))) := by
  obtain ⟨c', h1, h2⟩ := forRange_inv
    (body := fun row c => do
      scatter data ix (Array.ofFn v) alpha row (← rd ptr row) (← rd ptr (row + 1)) c)
    (fun k c' => c' = Array.ofFn (fun j : Fin m => w j +
      ∑ i ∈ range k, if hi : i < n then alpha.getD 1 * M ⟨i, hi⟩ j * v ⟨i, hi⟩ else 0))
    (Nat.zero_le n) (Array.ofFn w) (by simp) (by
      intro i _ hi s hs
      obtain ⟨lo, hi', h1, h2, h3, h4, h5, h6⟩ := h.2.2 ⟨i, hi⟩
      have h1' : rd ptr i = .ok lo := rd_ok h1
      have h2' : rd ptr (i + 1) = .ok hi' := rd_ok h2
      simp only [h1', h2', Except.ok_bind']
      subst hs
      rw [scatter_eq alpha h3 h4 h5 h6 (rd_ofFn v ⟨i, hi⟩)]
      refine ⟨_, rfl, ?_⟩
      congr 1
      funext j
      rw [Finset.sum_range_succ]
      simp [hi, add_assoc])
  rw [h1, h2]
  congr 2
  funext j
  rw [Finset.sum_range]
  simp [Matrix.mulVec, dotProduct, Finset.mul_sum, mul_assoc]

theorem csrTransposedMatvec_eq (h : Spec.CSRRepr data ix ptr M) (v : Fin n → K) (c : Array K)
    (hc : c.size = m) :
    csrTransposedMatvec data ix ptr (Array.ofFn v) n m c = .ok (Array.ofFn (Mᵀ *ᵥ v)) := by
  unfold csrTransposedMatvec
  rw [zeroFill_eq c hc]
  simp only [Except.ok_bind']
  rw [scatterAll_eq h]
  congr 2
  funext j
  simp

theorem csrTransposedMatvecPlus_eq (h : Spec.CSRRepr data ix ptr M) (v : Fin n → K) (alpha : K)
    (w : Fin m → K) :
    csrTransposedMatvecPlus data ix ptr (Array.ofFn v) alpha n (Array.ofFn w) =
      .ok (Array.ofFn (w + alpha • (Mᵀ *ᵥ v))) := by
  unfold csrTransposedMatvecPlus
  split
  · rename_i h0; subst h0; simp
  · rw [scatterAll_eq h]; rfl

/-- The CSC kernels are the CSR kernels of the transposed matrix. -/
theorem cscMatvec_eq (h : Spec.CSCRepr data ix ptr M) (v : Fin m → K) (c : Array K)
    (hc : c.size = n) :
    cscMatvec data ix ptr (Array.ofFn v) n m c = .ok (Array.ofFn (M *ᵥ v)) := by
  have := csrTransposedMatvec_eq (M := Mᵀ) h v c hc
  rw [transpose_transpose] at this
  exact this

theorem cscMatvecPlus_eq (h : Spec.CSCRepr data ix ptr M) (v : Fin m → K) (alpha : K)
    (w : Fin n → K) :
    cscMatvecPlus data ix ptr (Array.ofFn v) alpha m (Array.ofFn w) =
      .ok (Array.ofFn (w + alpha • (M *ᵥ v))) := by
  have := csrTransposedMatvecPlus_eq (M := Mᵀ) h v alpha w
  rw [transpose_transpose] at this
  exact this

theorem cscTransposedMatvec_eq (h : Spec.CSCRepr data ix ptr M) (v : Fin n → K) (c : Array K)
    (hc : c.size = m) :
    cscTransposedMatvec data ix ptr (Array.ofFn v) m c = .ok (Array.ofFn (Mᵀ *ᵥ v)) :=
  csrMatvec_eq (M := Mᵀ) h v c hc

theorem cscTransposedMatvecPlus_eq (h : Spec.CSCRepr data ix ptr M) (v : Fin n → K) (alpha : K)
    (w : Fin m → K) :
    cscTransposedMatvecPlus data ix ptr (Array.ofFn v) alpha m (Array.ofFn w) =
      .ok (Array.ofFn (w + alpha • (Mᵀ *ᵥ v))) :=
  csrMatvecPlus_eq (M := Mᵀ) h v alpha w

end Ring
end MatrixOps

namespace VectorOps
variable {K : Type _} [Field K] [DecidableEq K] {n : Nat}

theorem innerProduct_eq (u v : Fin n → K) :
    innerProduct (Array.ofFn u) (Array.ofFn v) n = .ok (u ⬝ᵥ v) :=
  MatrixOps.chunkedDot_fin u v (fun j => rd_ofFn u j) (fun j => rd_ofFn v j)

theorem normSq_eq (u : Fin n → K) : normSq (Array.ofFn u) n = .ok (u ⬝ᵥ u) :=
  MatrixOps.chunkedDot_fin u u (fun j => rd_ofFn u j) (fun j => rd_ofFn u j)

theorem copyVector_eq (u : Fin n → K) (c : Array K) (hc : c.size = n) :
    copyVector (Array.ofFn u) n c = .ok (Array.ofFn u) := by
  apply forRange_write_ofFn c _ hc
  intro i c' _ _
  rw [rd_ofFn u i]; rfl

theorem copyScaledVector_eq (u : Fin n → K) (s : K) (c : Array K) (hc : c.size = n) :
    copyScaledVector (Array.ofFn u) n s c = .ok (Array.ofFn (s • u)) := by
  apply forRange_write_ofFn c _ hc
  intro i c' _ _
  rw [rd_ofFn u i]; rfl

/-- `subtract_scaled_vector` on a possibly longer output and input. -/
theorem subtractScaledVector_eq' {k m n : Nat} (u : Fin m → K) (s : K) (w : Fin n → K)
    (hm : k ≤ m) (hn : k ≤ n) :
    subtractScaledVector (Array.ofFn u) k s (Array.ofFn w) =
      .ok (Array.ofFn (fun i : Fin n =>
        w i - if h : i.1 < k then s * u ⟨i.1, by omega⟩ else 0)) := by
  unfold subtractScaledVector
  split
  · rename_i h0; subst h0; simp
  · obtain ⟨c', h1, h2, h3⟩ := forRange_write (n := k)
      (body := fun i out => do
        wr out i ((← rd out i) - s * (← rd (Array.ofFn u) i)))
      (Array.ofFn w)
      (fun i => if h : i < k then w ⟨i, by omega⟩ - s * u ⟨i, by omega⟩ else 0) (by simpa) (by
        intro i hi c' _ hci
        rw [rd_ok (x := w ⟨i, by omega⟩) (by rw [hci]; simp [show i < n by omega])]
        rw [rd_ofFn u ⟨i, by omega⟩]
        simp only [Except.ok_bind', hi, dif_pos])
    rw [h1]
    congr 1
    apply eq_ofFn (by simpa using h2)
    intro i
    rw [h3]
    by_cases hik : i.1 < k
    · simp [hik]
    · simp [hik]

theorem subtractScaledVector_eq (u : Fin n → K) (s : K) (w : Fin n → K) :
    subtractScaledVector (Array.ofFn u) n s (Array.ofFn w) = .ok (Array.ofFn (w - s • u)) := by
  rw [subtractScaledVector_eq' u s w le_rfl le_rfl]
  congr 2
  funext i
  simp

end VectorOps
end Imate
