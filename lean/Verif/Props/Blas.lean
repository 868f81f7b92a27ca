import Verif.Model.Blas
import Verif.Props.Cuda
import Mathlib.LinearAlgebra.Matrix.Notation
import Mathlib.Tactic.Linarith
import Mathlib.Tactic.Positivity

/-! # C74: the build with OpenBLAS computes the same as the default build -/

namespace Imate.Props

open Imate Imate.Spec Matrix

variable {K : Type _} [Field K] [DecidableEq K] {n m : Nat}

theorem count_small (h : n < 2 ^ 31) : Blas.count n = n := by
  unfold Blas.count Blas.toInt
  have : ((n : Int) + 2 ^ 31) % 2 ^ 32 = n + 2 ^ 31 := Int.emod_eq_of_lt (by positivity) (by norm_num at h ⊢; omega)
  rw [this]
  simp

theorem toInt_small (h : n < 2 ^ 31) : Blas.toInt n = n := by
  unfold Blas.toInt
  have : ((n : Int) + 2 ^ 31) % 2 ^ 32 = n + 2 ^ 31 := Int.emod_eq_of_lt (by positivity) (by norm_num at h ⊢; omega)
  rw [this]
  simp

theorem native_ok {α : Type _} {p : Blas.Precision} (hp : p ≠ .extended) (r : Except Fault α) : Blas.native p r = r := by
  cases p with
  | single => rfl
  | double => rfl
  | extended => exact absurd rfl hp

theorem axpy_neg (s : K) (u w : Fin n → K) :
    Cuda.axpy n (-s) (Array.ofFn u) (Array.ofFn w) = .ok (Array.ofFn (w - s • u)) := by
  apply forRange_write_ofFn _ _ (by simp)
  intro i c' _ hci
  rw [rd_ofFn u i, rd_ok (x := w i) (by rw [hci]; simp)]
  simp only [Except.ok_bind']
  congr 1
  simp [sub_eq_add_neg, add_comm]

/-- **C74** (vector operations).  For `float` and `double` and sizes an `int` can hold, the operations of the OpenBLAS build
compute what they are documented to compute. -/
theorem blas_vector_operations_correct (sqrt : K → K) {p : Blas.Precision} (hp : p ≠ .extended) (hn : n < 2 ^ 31)
    (u w : Fin n → K) (s : K) (c : Array K) (hc : c.size = n) :
    Blas.copyVector p (Array.ofFn u) n c = .ok (Array.ofFn u) ∧
    Blas.copyScaledVector p (Array.ofFn u) n s c = .ok (Array.ofFn (s • u)) ∧
    Blas.subtractScaledVector p (Array.ofFn u) n s (Array.ofFn w) = .ok (Array.ofFn (w - s • u)) ∧
    Blas.innerProduct p (Array.ofFn u) (Array.ofFn w) n = .ok (u ⬝ᵥ w) ∧
    Blas.euclideanNorm sqrt p (Array.ofFn u) n = .ok (sqrt (u ⬝ᵥ u)) ∧
    Blas.normalizeInPlace sqrt p (Array.ofFn u) n =
      .ok (Array.ofFn (fun i => u i / sqrt (u ⬝ᵥ u)), sqrt (u ⬝ᵥ u)) ∧
    Blas.normalizeAndCopy sqrt p (Array.ofFn u) n c =
      .ok (Array.ofFn (fun i => u i / sqrt (u ⬝ᵥ u)), sqrt (u ⬝ᵥ u)) := by
  have hcnt := count_small hn
  have hcopy : ∀ c : Array K, c.size = n → Blas.xcopy p n (Array.ofFn u) c = .ok (Array.ofFn u) := by
    intro c hc
    unfold Blas.xcopy
    rw [native_ok hp, hcnt]
    apply forRange_write_ofFn c _ hc
    intro i c' _ _
    rw [rd_ofFn u i]; rfl
  have hscal : ∀ (s : K) (x : Fin n → K), Blas.xscal p n s (Array.ofFn x) = .ok (Array.ofFn (s • x)) := by
    intro s x
    unfold Blas.xscal
    rw [native_ok hp, hcnt]
    apply forRange_write_ofFn _ _ (by simp)
    intro i c' _ hci
    rw [rd_ok (x := x i) (by rw [hci]; simp)]; rfl
  have hdot : ∀ x y : Fin n → K,
      MatrixOps.plainDot (rd (Array.ofFn x)) (rd (Array.ofFn y)) n = .ok (x ⬝ᵥ y) := fun x y =>
    MatrixOps.plainDot_fin x y (fun j => rd_ofFn x j) (fun j => rd_ofFn y j)
  have hnorm : Blas.euclideanNorm sqrt p (Array.ofFn u) n = .ok (sqrt (u ⬝ᵥ u)) := by
    unfold Blas.euclideanNorm Blas.xnrm2
    rw [native_ok hp, hcnt, hdot, Except.ok_bind']
  have hdiv : (fun i => u i / sqrt (u ⬝ᵥ u)) = (1 / sqrt (u ⬝ᵥ u)) • u := by
    funext i
    simp [div_eq_inv_mul]
  refine ⟨hcopy c hc, ?_, ?_, ?_, hnorm, ?_, ?_⟩
  · unfold Blas.copyScaledVector
    rw [hcopy c hc, Except.ok_bind', hscal]
  · unfold Blas.subtractScaledVector Blas.xaxpy
    rw [native_ok hp, hcnt, axpy_neg]
  · unfold Blas.innerProduct Blas.xdot
    rw [native_ok hp, hcnt, hdot]
  · unfold Blas.normalizeInPlace
    rw [hnorm]
    simp only [Except.ok_bind']
    rw [hscal, hdiv]
    rfl
  · unfold Blas.normalizeAndCopy Blas.copyScaledVector
    rw [hnorm]
    simp only [Except.ok_bind']
    rw [hcopy c hc]
    simp only [Except.ok_bind']
    rw [hscal, hdiv]
    rfl

example : Blas.innerProduct .double (Array.ofFn ![1, 2, (3 : ℚ)]) (Array.ofFn ![4, 5, 6]) 3 = .ok 32 := by
  have := (blas_vector_operations_correct (fun x => x) (p := .double) (by decide) (by norm_num) ![1, 2, (3 : ℚ)] ![4, 5, 6] 0
    #[0, 0, 0] rfl).2.2.2.1
  rw [this]
  congr 1
  simp [dotProduct, Fin.sum_univ_succ]
  norm_num

/-- **C74** (dense product).  The product is right for column major matrices of every shape and for square matrices. -/
theorem blas_matvec_correct_partial {p : Blas.Precision} (hp : p ≠ .extended) (hn : n < 2 ^ 31) (hm : m < 2 ^ 31)
    (hn0 : 0 < n) (hm0 : 0 < m) {A : Array K} {M : Matrix (Fin n) (Fin m) K} {rowMajor : Bool} (h : DenseRepr rowMajor A M)
    (hshape : rowMajor = true → n = m) (v : Fin m → K) (c : Array K) (hc : c.size = n) :
    Blas.denseMatvec p A (Array.ofFn v) n m rowMajor c = .ok (Array.ofFn (M *ᵥ v)) := by
  unfold Blas.denseMatvec Blas.xgemv
  rw [native_ok hp, toInt_small hn, toInt_small hm]
  rw [if_neg, if_neg (by omega)]
  · simp only [Int.toNat_natCast]
    apply forRange_write_ofFn c _ hc
    intro i c' _ _
    have := MatrixOps.plainDot_fin (a := fun j => rd A (if rowMajor then i.1 * n + j else i.1 + j * n))
      (b := rd (Array.ofFn v)) (fun j => M i j) v
      (fun j => rd_ok (by
        have := h.2 i j
        cases rowMajor
        · simpa [Nat.mul_comm] using this
        · have e := hshape rfl
          subst e
          simpa using this)) (fun j => rd_ofFn v j)
    rw [this]
    simp only [Except.ok_bind', Cuda.scaledOld, if_true, one_mul, add_zero]
    rfl
  · cases rowMajor
    · simp; omega
    · have e := hshape rfl
      simp; omega

/-- **C74** (refuted: wide matrices).  The product with a row major matrix that has more columns than rows is not computed at
all: OpenBLAS rejects the leading dimension and the product keeps its old contents. -/
theorem blas_wide_row_major_not_computed {p : Blas.Precision} (hp : p ≠ .extended) (hn : n < 2 ^ 31) (hm : m < 2 ^ 31)
    (h : n < m) (A b c : Array K) : Blas.denseMatvec p A b n m true c = .ok c := by
  unfold Blas.denseMatvec Blas.xgemv
  rw [native_ok hp, toInt_small hn, toInt_small hm, if_pos]
  right; right
  simp; omega

theorem loopN_error {σ : Type _} {body : Nat → σ → Except Fault σ} {e : Fault} {k : Nat} :
    ∀ (cnt i : Nat) (s : σ), i ≤ k → k < i + cnt → (∀ j s, i ≤ j → j < k → (∃ s', body j s = .ok s') ∨ body j s = .error e) →
    (∀ s, body k s = .error e) → loopN 1 body cnt i s = .error e := by
  intro cnt
  induction cnt with
  | zero => intro i s h1 h2; omega
  | succ cnt ih =>
    intro i s h1 h2 h3 h4
    unfold loopN
    by_cases hik : i = k
    · subst hik
      rw [h4]; rfl
    · rcases h3 i s (le_refl _) (by omega) with ⟨s', e'⟩ | e'
      · rw [e']
        exact ih (i + 1) s' (by omega) (by omega) (fun j s hj hk => h3 j s (by omega) hk) h4
      · rw [e']; rfl

theorem beyond_end (hm0 : 0 < m) (h : m < n) : n * m ≤ (n - 1) * n + (m - 1) := by
  obtain ⟨k, rfl⟩ := Nat.exists_eq_succ_of_ne_zero (by omega : n ≠ 0)
  have : (k + 1) * m ≤ (k + 1) * k := Nat.mul_le_mul_left _ (by omega)
  have e : (k + 1 - 1) * (k + 1) = (k + 1) * k := by rw [Nat.add_sub_cancel, Nat.mul_comm]
  rw [Nat.succ_eq_add_one, e]
  omega

theorem rd_cases {α : Type _} (a : Array α) (i : Nat) : (∃ x, rd a i = .ok x) ∨ rd a i = .error .outOfBounds := by
  unfold rd
  split
  · exact Or.inl ⟨_, rfl⟩
  · exact Or.inr rfl

/-- **C74** (refuted: tall matrices).  The product with a row major matrix that has more rows than columns reads beyond the
end of the matrix, whatever the matrix and the vector. -/
theorem blas_tall_row_major_out_of_bounds {p : Blas.Precision} (hp : p ≠ .extended) (hn : n < 2 ^ 31) (hm0 : 0 < m) (h : m < n)
    {A : Array K} {M : Matrix (Fin n) (Fin m) K} (hA : DenseRepr true A M) (v : Fin m → K) (c : Array K) :
    Blas.denseMatvec p A (Array.ofFn v) n m true c = .error .outOfBounds := by
  have hm : m < 2 ^ 31 := by omega
  have hsize : A.size = n * m := hA.1
  unfold Blas.denseMatvec Blas.xgemv
  rw [native_ok hp, toInt_small hn, toInt_small hm, if_neg, if_neg (by omega)]
  · simp only [Int.toNat_natCast, if_true]
    -- one dot product either succeeds or reads out of bounds
    have hdot : ∀ i : Nat, (∃ x, MatrixOps.plainDot (fun j => rd A (i * n + j)) (rd (Array.ofFn v)) m = .ok x) ∨
        MatrixOps.plainDot (fun j => rd A (i * n + j)) (rd (Array.ofFn v)) m = .error .outOfBounds := by
      intro i
      unfold MatrixOps.plainDot forRange
      generalize (0 : K) = s
      generalize m - 0 = cnt
      generalize 0 = j
      induction cnt generalizing j s with
      | zero => exact Or.inl ⟨s, rfl⟩
      | succ cnt ih =>
        unfold loopN
        rcases rd_cases A (i * n + j) with ⟨x, e⟩ | e
        · rcases rd_cases (Array.ofFn v) j with ⟨y, e'⟩ | e'
          · simp only [e, e', Except.ok_bind']
            exact ih _ _
          · exact Or.inr (by simp only [e, e', Except.ok_bind']; rfl)
        · exact Or.inr (by simp only [e]; rfl)
    have hlast : MatrixOps.plainDot (fun j => rd A ((n - 1) * n + j)) (rd (Array.ofFn v)) m = .error .outOfBounds := by
      unfold MatrixOps.plainDot forRange
      refine loopN_error (k := m - 1) (m - 0) 0 (0 : K) (by omega) (by omega) (fun j s _ hj => ?_) (fun s => ?_)
      · rcases rd_cases A ((n - 1) * n + j) with ⟨x, e⟩ | e
        · dsimp only
          rw [e, rd_ofFn v ⟨j, by omega⟩]
          exact Or.inl ⟨_, rfl⟩
        · dsimp only
          rw [e]; exact Or.inr rfl
      · have : rd A ((n - 1) * n + (m - 1)) = .error .outOfBounds := by
          unfold rd
          rw [Array.getElem?_eq_none]
          rw [hsize]
          exact beyond_end hm0 h
        dsimp only
        rw [this]; rfl
    unfold forRange
    refine loopN_error (k := n - 1) (n - 0) 0 c (by omega) (by omega) (fun j s _ hj => ?_) (fun s => ?_)
    · rcases hdot j with ⟨x, e⟩ | e
      · rw [e]
        simp only [Except.ok_bind', Cuda.scaledOld, if_true]
        unfold wr
        split
        · exact Or.inl ⟨_, rfl⟩
        · exact Or.inr rfl
      · rw [e]; exact Or.inr rfl
    · rw [hlast]; rfl
  · simp; omega

/-- **C74** (refuted: the Gram matrix of a wide matrix).  With OpenBLAS the product with `Aᵀ A` does not depend on the
vector it is applied to. -/
theorem blas_gram_ignores_vector {p : Blas.Precision} (hp : p ≠ .extended) (hn : n < 2 ^ 31) (hm : m < 2 ^ 31) (h : n < m)
    {A : Array K} {M : Matrix (Fin n) (Fin m) K} (hA : DenseRepr true A M) (v : Fin m → K) (w : Fin n → K) (d : Array K)
    (hd : d.size = m) :
    Blas.gramProduct p A (Array.ofFn v) n m true (Array.ofFn w) d = .ok (Array.ofFn (Mᵀ *ᵥ w)) := by
  unfold Blas.gramProduct
  rw [blas_wide_row_major_not_computed hp hn hm h, Except.ok_bind', MatrixOps.denseTransposedMatvec_eq hA w d hd]

/-- **C74** (refuted: `long double`).  Every operation ends the process. -/
theorem blas_long_double_aborts (sqrt : K → K) (u w c : Array K) (s : K) (rowMajor : Bool) :
    Blas.copyVector .extended u n c = .error .abort ∧ Blas.copyScaledVector .extended u n s c = .error .abort ∧
    Blas.subtractScaledVector .extended u n s w = .error .abort ∧ Blas.innerProduct .extended u w n = .error .abort ∧
    Blas.euclideanNorm sqrt .extended u n = .error .abort ∧ Blas.normalizeInPlace sqrt .extended u n = .error .abort ∧
    Blas.normalizeAndCopy sqrt .extended u n c = .error .abort ∧ Blas.denseMatvec .extended u w n m rowMajor c = .error .abort :=
  ⟨rfl, rfl, rfl, rfl, rfl, rfl, rfl, rfl⟩

/-- **C74** (refuted: long indices).  With 64-bit indices (`LONG_INT = 1`) a vector with between `2^31` and `2^32` elements is
treated as empty: inner products are zero and copies do nothing. -/
theorem blas_long_vectors_ignored {p : Blas.Precision} (hp : p ≠ .extended) (h1 : 2 ^ 31 ≤ n) (h2 : n ≤ 2 ^ 32) (u w c : Array K) :
    Blas.innerProduct p u w n = .ok 0 ∧ Blas.copyVector p u n c = .ok c := by
  have hcnt : Blas.count n = 0 := by
    unfold Blas.count Blas.toInt
    rw [Int.toNat_eq_zero]
    norm_num at h1 h2 ⊢
    omega
  unfold Blas.innerProduct Blas.xdot Blas.copyVector Blas.xcopy
  rw [native_ok hp, native_ok hp, hcnt]
  exact ⟨rfl, rfl⟩

/-! Non-vacuity -/

theorem wide_repr : DenseRepr true (#[1, 2] : Array ℚ) (!![1, 2] : Matrix (Fin 1) (Fin 2) ℚ) := by
  refine ⟨rfl, ?_⟩
  intro i j
  fin_cases i; fin_cases j <;> rfl

theorem tall_repr : DenseRepr true (#[1, 2] : Array ℚ) (!![1; 2] : Matrix (Fin 2) (Fin 1) ℚ) := by
  refine ⟨rfl, ?_⟩
  intro i j
  fin_cases i <;> fin_cases j <;> rfl

example : Blas.denseMatvec .double (#[1, 2] : Array ℚ) #[1, 1] 1 2 true #[7] = .ok #[7] := by decide +kernel
example : MatrixOps.denseMatvec (#[1, 2] : Array ℚ) #[1, 1] 1 2 true #[7] = .ok #[3] := by decide +kernel
example : Blas.denseMatvec .double (#[1, 2] : Array ℚ) (Array.ofFn ![1]) 2 1 true #[0, 0] = .error .outOfBounds :=
  blas_tall_row_major_out_of_bounds (by decide) (by norm_num) (by decide) (by decide) tall_repr _ _
example : Blas.gramProduct .double (#[1, 2] : Array ℚ) (Array.ofFn ![1, 1]) 1 2 true (Array.ofFn ![7]) #[0, 0] =
    .ok (Array.ofFn ((!![1, 2] : Matrix (Fin 1) (Fin 2) ℚ)ᵀ *ᵥ ![7])) :=
  blas_gram_ignores_vector (by decide) (by norm_num) (by norm_num) (by decide) wide_repr _ _ _ rfl

end Imate.Props
