import Verif.Lemmas.MatrixOps
import Verif.Spec.Operators

/-! Helper lemmas: the kernels on pointers into larger buffers.  `Begins a v`: the first cells of `a`
hold `v`; `Updated c c' w`: `c'` is `c` with its first cells replaced by `w`. -/

set_option linter.unusedSectionVars false

namespace Imate

open Finset Matrix

/-- The first cells of `a` hold `v`. -/
def Begins {α : Type _} {n : Nat} (a : Array α) (v : Fin n → α) : Prop :=
  ∀ i : Fin n, a[i.1]? = some (v i)

/-- `c'` is `c` with the first cells replaced by `w`. -/
structure Updated {α : Type _} {n : Nat} (c c' : Array α) (w : Fin n → α) : Prop where
  size : c'.size = c.size
  begins : Begins c' w
  rest : ∀ i, n ≤ i → c'[i]? = c[i]?

variable {α : Type _} {n m : Nat}

theorem Begins.rd {a : Array α} {v : Fin n → α} (h : Begins a v) (i : Fin n) :
    Imate.rd a i.1 = .ok (v i) := rd_ok (h i)

theorem Begins.ofFn (v : Fin n → α) : Begins (Array.ofFn v) v := by intro i; simp

theorem Begins.le {a : Array α} {v : Fin n → α} (h : Begins a v) : n ≤ a.size := by
  rcases Nat.eq_zero_or_pos n with rfl | hp
  · exact Nat.zero_le _
  · have := h ⟨n - 1, by omega⟩
    rw [Array.getElem?_eq_some_iff] at this
    obtain ⟨h1, _⟩ := this
    simp only at h1
    omega

theorem Updated.refl {c : Array α} {v : Fin n → α} (h : Begins c v) : Updated c c v :=
  ⟨rfl, h, fun _ _ => rfl⟩

theorem Updated.trans {c c' c'' : Array α} {v w : Fin n → α} (h : Updated c c' v)
    (h' : Updated c' c'' w) : Updated c c'' w :=
  ⟨h'.size.trans h.size, h'.begins, fun i hi => (h'.rest i hi).trans (h.rest i hi)⟩

/-- A loop that writes one cell per iteration. -/
theorem forRange_write_begins {body : Nat → Array α → Except Fault (Array α)} (c : Array α)
    (f : Fin n → α) (hn : n ≤ c.size)
    (hb : ∀ i : Fin n, ∀ c' : Array α, c'.size = c.size → c'[i.1]? = c[i.1]? →
      body i.1 c' = wr c' i.1 (f i)) :
    ∃ c', forRange 0 n body c = .ok c' ∧ Updated c c' f := by
  rcases Nat.eq_zero_or_pos n with h0 | hpos
  · subst h0
    exact ⟨c, rfl, Updated.refl (fun i => i.elim0)⟩
  · obtain ⟨c', h1, h2, h3⟩ := forRange_write (body := body) (n := n) c
      (fun i => if h : i < n then f ⟨i, h⟩ else f ⟨0, hpos⟩) hn (by
        intro i hi c' hs hc
        have := hb ⟨i, hi⟩ c' hs hc
        simpa [hi] using this)
    refine ⟨c', h1, h2, ?_, ?_⟩
    · intro i
      simp [h3]
    · intro i hi
      rw [h3, if_neg (by omega)]

namespace MatrixOps
variable {K : Type _} [CommRing K] [DecidableEq K]

theorem denseMatvec_long {A : Array K} {M : Matrix (Fin n) (Fin m) K} {rm : Bool}
    (h : Spec.DenseRepr rm A M) {b : Array K} {v : Fin m → K} (hb : Begins b v) (c : Array K)
    (hc : n ≤ c.size) :
    ∃ c', denseMatvec A b n m rm c = .ok c' ∧ Updated c c' (M *ᵥ v) := by
  unfold denseMatvec
  cases rm
  · simp only [Bool.false_eq_true, if_false]
    apply forRange_write_begins c _ hc
    intro i c' _ _
    rw [plainDot_fin (fun j => M i j) v (fun j => dense_rd_col h i j) (fun j => hb.rd j)]
    rfl
  · simp only [if_true]
    apply forRange_write_begins c _ hc
    intro i c' _ _
    rw [chunkedDot_fin (fun j => M i j) v (fun j => dense_rd_row h i j) (fun j => hb.rd j)]
    rfl

theorem denseTransposedMatvec_long {A : Array K} {M : Matrix (Fin n) (Fin m) K} {rm : Bool}
    (h : Spec.DenseRepr rm A M) {b : Array K} {v : Fin n → K} (hb : Begins b v) (c : Array K)
    (hc : m ≤ c.size) :
    ∃ c', denseTransposedMatvec A b n m rm c = .ok c' ∧ Updated c c' (Mᵀ *ᵥ v) := by
  unfold denseTransposedMatvec
  cases rm
  · simp only [Bool.false_eq_true, if_false]
    apply forRange_write_begins c _ hc
    intro i c' _ _
    rw [chunkedDot_fin (fun j => M j i) v (fun j => dense_rd_col h j i) (fun j => hb.rd j)]
    rfl
  · simp only [if_true]
    apply forRange_write_begins c _ hc
    intro i c' _ _
    rw [plainDot_fin (fun j => M j i) v (fun j => dense_rd_row h j i) (fun j => hb.rd j)]
    rfl

theorem denseMatvecPlus_long {A : Array K} {M : Matrix (Fin n) (Fin m) K} {rm : Bool}
    (h : Spec.DenseRepr rm A M) {b : Array K} {v : Fin m → K} (hb : Begins b v) (alpha : K)
    {c : Array K} {w : Fin n → K} (hc : Begins c w) :
    ∃ c', denseMatvecPlus A b alpha n m rm c = .ok c' ∧ Updated c c' (w + alpha • (M *ᵥ v)) := by
  unfold denseMatvecPlus
  split
  · rename_i h0; subst h0
    exact ⟨c, rfl, by simpa using Updated.refl hc⟩
  · cases rm
    · simp only [Bool.false_eq_true, if_false]
      apply forRange_write_begins _ _ hc.le
      intro i c' _ hci
      rw [plainDot_fin (fun j => M i j) v (fun j => dense_rd_col h i j) (fun j => hb.rd j)]
      simp only [Except.ok_bind']
      rw [rd_ok (x := w i) (by rw [hci]; exact hc i)]
      rfl
    · simp only [if_true]
      apply forRange_write_begins _ _ hc.le
      intro i c' _ hci
      rw [chunkedDot_fin (fun j => M i j) v (fun j => dense_rd_row h i j) (fun j => hb.rd j)]
      simp only [Except.ok_bind']
      rw [rd_ok (x := w i) (by rw [hci]; exact hc i)]
      rfl

theorem denseTransposedMatvecPlus_long {A : Array K} {M : Matrix (Fin n) (Fin m) K} {rm : Bool}
    (h : Spec.DenseRepr rm A M) {b : Array K} {v : Fin n → K} (hb : Begins b v) (alpha : K)
    {c : Array K} {w : Fin m → K} (hc : Begins c w) :
    ∃ c', denseTransposedMatvecPlus A b alpha n m rm c = .ok c' ∧
      Updated c c' (w + alpha • (Mᵀ *ᵥ v)) := by
  unfold denseTransposedMatvecPlus
  split
  · rename_i h0; subst h0
    exact ⟨c, rfl, by simpa using Updated.refl hc⟩
  · cases rm
    · simp only [Bool.false_eq_true, if_false]
      apply forRange_write_begins _ _ hc.le
      intro i c' _ hci
      rw [chunkedDot_fin (fun j => M j i) v (fun j => dense_rd_col h j i) (fun j => hb.rd j)]
      simp only [Except.ok_bind']
      rw [rd_ok (x := w i) (by rw [hci]; exact hc i)]
      rfl
    · simp only [if_true]
      apply forRange_write_begins _ _ hc.le
      intro i c' _ hci
      rw [plainDot_fin (fun j => M j i) v (fun j => dense_rd_row h j i) (fun j => hb.rd j)]
      simp only [Except.ok_bind']
      rw [rd_ok (x := w i) (by rw [hci]; exact hc i)]
      rfl

/-- `gather` on a longer vector is `gather` on the vector. -/
theorem gather_long {data : Array K} {ix : Array Nat} {lo hi : Nat} {M : Fin m → K}
    (hle : lo ≤ hi) (hsz : hi ≤ data.size)
    (hix : ∀ k, lo ≤ k → k < hi → ∃ j < m, ix[k]? = some j)
    (hM : ∀ j : Fin m, M j = ∑ k ∈ Ico lo hi, if ix[k]? = some j.1 then data.getD k 0 else 0)
    {b : Array K} {v : Fin m → K} (hb : Begins b v) :
    gather data ix b lo hi = .ok (∑ j, M j * v j) := by
  unfold gather
  rw [forRange_sum hle (fun k => data.getD k 0 *
    (if h : (ix.getD k 0) < m then v ⟨ix.getD k 0, h⟩ else 0)) 0 (by
      intro k h1 h2 s
      obtain ⟨j, hj, hkj⟩ := hix k h1 h2
      rw [rd_ok hkj]
      have hgd : ix.getD k 0 = j := by simp [Array.getD_eq_getD_getElem?, hkj]
      have hd : data[k]? = some (data.getD k 0) := by
        simp [Array.getD_eq_getD_getElem?, Array.getElem?_eq_getElem (show k < data.size by omega)]
      simp only [Except.ok_bind', rd_ok hd, hgd, hj, dif_pos]
      rw [hb.rd ⟨j, hj⟩]
      rfl)]
  rw [compressed_row_sum hix hM v, zero_add]

theorem scatter_long {data : Array K} {ix : Array Nat} {lo hi p : Nat} {M : Fin m → K}
    {b : Array K} {bp : K} (alpha : Option K)
    (hle : lo ≤ hi) (hsz : hi ≤ data.size)
    (hix : ∀ k, lo ≤ k → k < hi → ∃ j < m, ix[k]? = some j)
    (hM : ∀ j : Fin m, M j = ∑ k ∈ Ico lo hi, if ix[k]? = some j.1 then data.getD k 0 else 0)
    (hb : rd b p = .ok bp) {c : Array K} {w : Fin m → K} (hc : Begins c w) :
    ∃ c', scatter data ix b alpha p lo hi c = .ok c' ∧
      Updated c c' (fun j => w j + alpha.getD 1 * M j * bp) := by
  unfold scatter
  obtain ⟨c', h1, h2⟩ := forRange_inv
    (body := fun k c => do
      let column ← rd ix k
      wr c column ((← rd c column) + scatterTerm alpha (← rd data k) (← rd b p)))
    (fun k c' => Updated c c' (fun j : Fin m => w j +
      ∑ k ∈ Ico lo k, alpha.getD 1 * (if ix[k]? = some j.1 then data.getD k 0 else 0) * bp))
    hle c (by simpa using Updated.refl hc) (by
      intro k hk1 hk2 s hs
      obtain ⟨j, hj, hkj⟩ := hix k hk1 hk2
      have hd : data[k]? = some (data.getD k 0) := by
        simp [Array.getD_eq_getD_getElem?, Array.getElem?_eq_getElem (show k < data.size by omega)]
      have hterm : scatterTerm alpha (data.getD k 0) bp = alpha.getD 1 * data.getD k 0 * bp := by
        cases alpha <;> simp [scatterTerm]
      simp only [rd_ok hkj, Except.ok_bind', rd_ok hd, hb, hterm]
      rw [hs.begins.rd ⟨j, hj⟩]
      simp only [Except.ok_bind']
      rw [wr_ok (by have := hs.begins.le; omega)]
      refine ⟨_, rfl, by simp [hs.size], ?_, ?_⟩
      · intro i
        rw [Array.getElem?_set]
        beta_reduce
        rw [Finset.sum_Ico_succ_top hk1, hkj]
        by_cases hij : j = i.1
        · have : (⟨j, hj⟩ : Fin m) = i := by ext; exact hij
          subst this
          simp [add_assoc]
        · simp only [hij, if_false, Option.some.injEq, mul_zero, zero_mul, add_zero]
          exact hs.begins i
      · intro i hi
        rw [Array.getElem?_set_ne _ (by omega)]
        exact hs.rest i hi)
  refine ⟨c', h1, ?_⟩
  have : (fun j => w j + alpha.getD 1 * M j * bp) = (fun j : Fin m => w j +
      ∑ k ∈ Ico lo hi, alpha.getD 1 * (if ix[k]? = some j.1 then data.getD k 0 else 0) * bp) := by
    funext j
    rw [hM j, Finset.mul_sum, Finset.sum_mul]
  rw [this]
  exact h2

theorem zeroFill_long (c : Array K) (hc : n ≤ c.size) :
    ∃ c', zeroFill n c = .ok c' ∧ Updated c c' (fun _ : Fin n => (0 : K)) := by
  unfold zeroFill
  exact forRange_write_begins c _ hc (fun i c' _ _ => rfl)

variable {data : Array K} {ix ptr : Array Nat} {M : Matrix (Fin n) (Fin m) K}

theorem csrMatvec_long (h : Spec.CSRRepr data ix ptr M) {b : Array K} {v : Fin m → K}
    (hb : Begins b v) (c : Array K) (hc : n ≤ c.size) :
    ∃ c', csrMatvec data ix ptr b n c = .ok c' ∧ Updated c c' (M *ᵥ v) := by
  unfold csrMatvec
  apply forRange_write_begins c _ hc
  intro i c' _ _
  obtain ⟨lo, hi, h1, h2, h3, h4, h5, h6⟩ := h.2.2 i
  rw [rd_ok h1, rd_ok h2]
  simp only [Except.ok_bind']
  rw [gather_long h3 h4 h5 h6 hb]
  rfl

theorem csrMatvecPlus_long (h : Spec.CSRRepr data ix ptr M) {b : Array K} {v : Fin m → K}
    (hb : Begins b v) (alpha : K) {c : Array K} {w : Fin n → K} (hc : Begins c w) :
    ∃ c', csrMatvecPlus data ix ptr b alpha n c = .ok c' ∧
      Updated c c' (w + alpha • (M *ᵥ v)) := by
  unfold csrMatvecPlus
  split
  · rename_i h0; subst h0
    exact ⟨c, rfl, by simpa using Updated.refl hc⟩
  · apply forRange_write_begins _ _ hc.le
    intro i c' _ hci
    obtain ⟨lo, hi, h1, h2, h3, h4, h5, h6⟩ := h.2.2 i
    rw [rd_ok h1, rd_ok h2]
    simp only [Except.ok_bind']
    rw [gather_long h3 h4 h5 h6 hb]
    simp only [Except.ok_bind']
    rw [rd_ok (x := w i) (by rw [hci]; exact hc i)]
    rfl

theorem scatterAll_long (h : Spec.CSRRepr data ix ptr M) (alpha : Option K) {b : Array K}
    {v : Fin n → K} (hb : Begins b v) {c : Array K} {w : Fin m → K} (hc : Begins c w) :
    ∃ c', forRange 0 n (fun row c => do
      scatter data ix b alpha row (← rd ptr row) (← rd ptr (row + 1)) c) c = .ok c' ∧
      Updated c c' (w + alpha.getD 1 • (Mᵀ *ᵥ v)) := by
  obtain ⟨c', h1, h2⟩ := forRange_inv
    (body := fun row c => do
      scatter data ix b alpha row (← rd ptr row) (← rd ptr (row + 1)) c)
    (fun k c' => Updated c c' (fun j : Fin m => w j +
      ∑ i ∈ range k, if hi : i < n then alpha.getD 1 * M ⟨i, hi⟩ j * v ⟨i, hi⟩ else 0))
    (Nat.zero_le n) c (by simpa using Updated.refl hc) (by
      intro i _ hi s hs
      obtain ⟨lo, hi', h1, h2, h3, h4, h5, h6⟩ := h.2.2 ⟨i, hi⟩
      have h1' : rd ptr i = .ok lo := rd_ok h1
      have h2' : rd ptr (i + 1) = .ok hi' := rd_ok h2
      simp only [h1', h2', Except.ok_bind']
      obtain ⟨s', hs1, hs2⟩ := scatter_long alpha h3 h4 h5 h6 (hb.rd ⟨i, hi⟩) hs.begins
      refine ⟨s', hs1, ?_⟩
      have := hs.trans hs2
      convert this using 1
      funext j
      rw [Finset.sum_range_succ]
      simp [hi, add_assoc])
  refine ⟨c', h1, ?_⟩
  convert h2 using 1
  funext j
  rw [Finset.sum_range]
  simp [Matrix.mulVec, dotProduct, Finset.mul_sum, mul_assoc]

theorem csrTransposedMatvec_long (h : Spec.CSRRepr data ix ptr M) {b : Array K} {v : Fin n → K}
    (hb : Begins b v) (c : Array K) (hc : m ≤ c.size) :
    ∃ c', csrTransposedMatvec data ix ptr b n m c = .ok c' ∧ Updated c c' (Mᵀ *ᵥ v) := by
  unfold csrTransposedMatvec
  obtain ⟨c1, h1, h2⟩ := zeroFill_long (n := m) c hc
  rw [h1]
  simp only [Except.ok_bind']
  obtain ⟨c2, h3, h4⟩ := scatterAll_long h none hb h2.begins
  refine ⟨c2, h3, ?_⟩
  convert h2.trans h4 using 1
  funext j
  simp

theorem csrTransposedMatvecPlus_long (h : Spec.CSRRepr data ix ptr M) {b : Array K} {v : Fin n → K}
    (hb : Begins b v) (alpha : K) {c : Array K} {w : Fin m → K} (hc : Begins c w) :
    ∃ c', csrTransposedMatvecPlus data ix ptr b alpha n c = .ok c' ∧
      Updated c c' (w + alpha • (Mᵀ *ᵥ v)) := by
  unfold csrTransposedMatvecPlus
  split
  · rename_i h0; subst h0
    exact ⟨c, rfl, by simpa using Updated.refl hc⟩
  · exact scatterAll_long h (some alpha) hb hc

end MatrixOps

namespace VectorOps
variable {K : Type _} [Field K] [DecidableEq K]

theorem innerProduct_long {a b : Array K} {u v : Fin n → K} (ha : Begins a u) (hb : Begins b v) :
    innerProduct a b n = .ok (u ⬝ᵥ v) :=
  MatrixOps.chunkedDot_fin u v (fun j => ha.rd j) (fun j => hb.rd j)

theorem euclideanNorm_long (sqrt : K → K) {a : Array K} {u : Fin n → K} (ha : Begins a u) :
    euclideanNorm sqrt a n = .ok (sqrt (u ⬝ᵥ u)) := by
  have : normSq a n = .ok (u ⬝ᵥ u) :=
    MatrixOps.chunkedDot_fin u u (fun j => ha.rd j) (fun j => ha.rd j)
  simp only [euclideanNorm, this, Except.ok_bind']

theorem copyVector_long {a : Array K} {u : Fin n → K} (ha : Begins a u) (c : Array K)
    (hc : n ≤ c.size) : ∃ c', copyVector a n c = .ok c' ∧ Updated c c' u := by
  apply forRange_write_begins c _ hc
  intro i c' _ _
  rw [ha.rd i]; rfl

theorem copyScaledVector_long {a : Array K} {u : Fin n → K} (ha : Begins a u) (s : K) (c : Array K)
    (hc : n ≤ c.size) : ∃ c', copyScaledVector a n s c = .ok c' ∧ Updated c c' (s • u) := by
  apply forRange_write_begins c _ hc
  intro i c' _ _
  rw [ha.rd i]; rfl

theorem subtractScaledVector_long {a : Array K} {u : Fin n → K} (ha : Begins a u) (s : K)
    {c : Array K} {w : Fin n → K} (hc : Begins c w) :
    ∃ c', subtractScaledVector a n s c = .ok c' ∧ Updated c c' (w - s • u) := by
  unfold subtractScaledVector
  split
  · rename_i h0; subst h0
    exact ⟨c, rfl, by simpa using Updated.refl hc⟩
  · apply forRange_write_begins c _ hc.le
    intro i c' _ hci
    rw [rd_ok (x := w i) (by rw [hci]; exact hc i), ha.rd i]
    rfl

theorem normalizeInPlace_long (sqrt : K → K) {c : Array K} {w : Fin n → K} (hc : Begins c w) :
    ∃ c', normalizeInPlace sqrt c n = .ok (c', sqrt (w ⬝ᵥ w)) ∧
      Updated c c' (fun i => w i / sqrt (w ⬝ᵥ w)) := by
  unfold normalizeInPlace
  rw [euclideanNorm_long sqrt hc]
  simp only [Except.ok_bind']
  obtain ⟨c', h1, h2⟩ := forRange_write_begins
    (body := fun i out => do wr out i ((← rd out i) / sqrt (w ⬝ᵥ w))) c
    (fun i => w i / sqrt (w ⬝ᵥ w)) hc.le (by
      intro i c' _ hci
      rw [rd_ok (x := w i) (by rw [hci]; exact hc i)]
      rfl)
  refine ⟨c', ?_, h2⟩
  rw [h1]; rfl

theorem normalizeAndCopy_long (sqrt : K → K) {a : Array K} {u : Fin n → K} (ha : Begins a u)
    (c : Array K) (hc : n ≤ c.size) :
    ∃ c', normalizeAndCopy sqrt a n c = .ok (c', sqrt (u ⬝ᵥ u)) ∧
      Updated c c' (fun i => u i / sqrt (u ⬝ᵥ u)) := by
  unfold normalizeAndCopy
  rw [euclideanNorm_long sqrt ha]
  simp only [Except.ok_bind']
  obtain ⟨c', h1, h2⟩ := forRange_write_begins
    (body := fun i out => do wr out i ((← rd a i) / sqrt (u ⬝ᵥ u))) c
    (fun i => u i / sqrt (u ⬝ᵥ u)) hc (by
      intro i c' _ _
      rw [ha.rd i]
      rfl)
  refine ⟨c', ?_, h2⟩
  rw [h1]; rfl

end VectorOps

section Stored
variable {K : Type _} [Field K] [DecidableEq K]
open Spec

theorem StoredMatrix.dot_long {S : StoredMatrix K} {M : Matrix (Fin n) (Fin m) K}
    (h : Represents S M) {b : Array K} {v : Fin m → K} (hb : Begins b v) (c : Array K)
    (hc : n ≤ c.size) : ∃ c', S.dot n m b c = .ok c' ∧ Updated c c' (M *ᵥ v) := by
  cases S with
  | dense A rm => exact MatrixOps.denseMatvec_long h hb c hc
  | csr d ix p => exact MatrixOps.csrMatvec_long h hb c hc
  | csc d ix p =>
    have := MatrixOps.csrTransposedMatvec_long (M := Mᵀ) h hb c hc
    rw [transpose_transpose] at this
    exact this

theorem StoredMatrix.transposeDot_long {S : StoredMatrix K} {M : Matrix (Fin n) (Fin m) K}
    (h : Represents S M) {b : Array K} {v : Fin n → K} (hb : Begins b v) (c : Array K)
    (hc : m ≤ c.size) : ∃ c', S.transposeDot n m b c = .ok c' ∧ Updated c c' (Mᵀ *ᵥ v) := by
  cases S with
  | dense A rm => exact MatrixOps.denseTransposedMatvec_long h hb c hc
  | csr d ix p => exact MatrixOps.csrTransposedMatvec_long h hb c hc
  | csc d ix p => exact MatrixOps.csrMatvec_long (M := Mᵀ) h hb c hc

theorem StoredMatrix.dotPlus_long {S : StoredMatrix K} {M : Matrix (Fin n) (Fin m) K}
    (h : Represents S M) {b : Array K} {v : Fin m → K} (hb : Begins b v) (alpha : K) {c : Array K}
    {w : Fin n → K} (hc : Begins c w) :
    ∃ c', S.dotPlus n m b alpha c = .ok c' ∧ Updated c c' (w + alpha • (M *ᵥ v)) := by
  cases S with
  | dense A rm => exact MatrixOps.denseMatvecPlus_long h hb alpha hc
  | csr d ix p => exact MatrixOps.csrMatvecPlus_long h hb alpha hc
  | csc d ix p =>
    have := MatrixOps.csrTransposedMatvecPlus_long (M := Mᵀ) h hb alpha hc
    rw [transpose_transpose] at this
    exact this

theorem StoredMatrix.transposeDotPlus_long {S : StoredMatrix K} {M : Matrix (Fin n) (Fin m) K}
    (h : Represents S M) {b : Array K} {v : Fin n → K} (hb : Begins b v) (alpha : K) {c : Array K}
    {w : Fin m → K} (hc : Begins c w) :
    ∃ c', S.transposeDotPlus n m b alpha c = .ok c' ∧ Updated c c' (w + alpha • (Mᵀ *ᵥ v)) := by
  cases S with
  | dense A rm => exact MatrixOps.denseTransposedMatvecPlus_long h hb alpha hc
  | csr d ix p => exact MatrixOps.csrTransposedMatvecPlus_long h hb alpha hc
  | csc d ix p => exact MatrixOps.csrMatvecPlus_long (M := Mᵀ) h hb alpha hc

end Stored
end Imate
