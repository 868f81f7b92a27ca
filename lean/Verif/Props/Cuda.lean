import Verif.Lemmas.Cuda
import Verif.Spec.Cuda
import Verif.Props.Operators
import Mathlib.Tactic.NormNum

/-!
# Property theorems C60: products on the GPU

For every size, matrix, storage format and vector, over an arbitrary field.  A theorem about `upload S n m`
followed by a product is a theorem about the constructor of the GPU matrix followed by a product on the
device.
-/

set_option linter.unusedSectionVars false

namespace Imate.Props

open Matrix Imate.Spec

variable {K : Type _} [Field K] [DecidableEq K] {n m : Nat}

/-! ## Vector operations -/

/-- C60: the cuBLAS vector operations compute the same as the loops of the CPU code, on every vector. -/
theorem gpu_vector_operations_correct (sqrt : K → K) (u w : Fin n → K) (s : K) (c : Array K)
    (hc : c.size = n) :
    Cuda.copyVector (Array.ofFn u) n c = .ok (Array.ofFn u) ∧
    Cuda.copyScaledVector (Array.ofFn u) n s c = .ok (Array.ofFn (s • u)) ∧
    Cuda.subtractScaledVector (Array.ofFn u) n s (Array.ofFn w) = .ok (Array.ofFn (w - s • u)) ∧
    Cuda.innerProduct (Array.ofFn u) (Array.ofFn w) n = .ok (u ⬝ᵥ w) ∧
    Cuda.euclideanNorm sqrt (Array.ofFn u) n = .ok (sqrt (u ⬝ᵥ u)) ∧
    Cuda.normalizeInPlace sqrt (Array.ofFn u) n =
      .ok (Array.ofFn (fun i => u i / sqrt (u ⬝ᵥ u)), sqrt (u ⬝ᵥ u)) ∧
    Cuda.normalizeAndCopy sqrt (Array.ofFn u) n c =
      .ok (Array.ofFn (fun i => u i / sqrt (u ⬝ᵥ u)), sqrt (u ⬝ᵥ u)) := by
  have hcopy : ∀ c : Array K, c.size = n →
      Cuda.copyVector (Array.ofFn u) n c = .ok (Array.ofFn u) := by
    intro c hc
    apply forRange_write_ofFn c _ hc
    intro i c' _ _
    rw [rd_ofFn u i]; rfl
  have hscal : ∀ (s : K) (x : Fin n → K), Cuda.scal n s (Array.ofFn x) = .ok (Array.ofFn (s • x)) := by
    intro s x
    apply forRange_write_ofFn _ _ (by simp)
    intro i c' _ hci
    rw [rd_ok (x := x i) (by rw [hci]; simp)]; rfl
  have hdot : ∀ x y : Fin n → K,
      MatrixOps.plainDot (rd (Array.ofFn x)) (rd (Array.ofFn y)) n = .ok (x ⬝ᵥ y) := fun x y =>
    MatrixOps.plainDot_fin x y (fun j => rd_ofFn x j) (fun j => rd_ofFn y j)
  have hdiv : (fun i => u i / sqrt (u ⬝ᵥ u)) = (1 / sqrt (u ⬝ᵥ u)) • u := by
    funext i
    simp [div_eq_inv_mul]
  refine ⟨hcopy c hc, ?_, ?_, hdot u w, ?_, ?_, ?_⟩
  · unfold Cuda.copyScaledVector
    rw [hcopy c hc, Except.ok_bind', hscal]
  · unfold Cuda.subtractScaledVector
    split
    · rename_i h0; subst h0; simp
    · apply forRange_write_ofFn _ _ (by simp)
      intro i c' _ hci
      rw [rd_ofFn u i, rd_ok (x := w i) (by rw [hci]; simp)]
      simp only [Except.ok_bind']
      congr 1
      simp [sub_eq_add_neg, add_comm]
  · unfold Cuda.euclideanNorm
    rw [hdot, Except.ok_bind']
  · unfold Cuda.normalizeInPlace Cuda.euclideanNorm
    rw [hdot]
    simp only [Except.ok_bind']
    rw [hscal, hdiv]
    rfl
  · unfold Cuda.normalizeAndCopy Cuda.euclideanNorm Cuda.copyScaledVector
    rw [hdot]
    simp only [Except.ok_bind']
    rw [hcopy c hc]
    simp only [Except.ok_bind']
    rw [hscal, hdiv]
    rfl

/-! ## Matrix products -/

theorem extract_all {α : Type _} (a : Array α) {k : Nat} (h : a.size ≤ k) : a.extract 0 k = a := by
  apply Array.ext
  · simp; omega
  · intro i h1 h2
    simp

theorem copyToDevice_ok {α : Type _} (a : Array α) {k : Nat} (h0 : 0 < k) (h : k ≤ a.size) :
    Cuda.copyToDevice a k = .ok (a.extract 0 k) := by
  unfold Cuda.copyToDevice
  rw [if_neg (by omega), if_neg (by omega)]

/-- The copy on the device represents the matrix. -/
theorem upload_represents {S : StoredMatrix K} {M : Matrix (Fin n) (Fin m) K} (h : Represents S M)
    (hn : 0 < n) (hm : 0 < m) (he : StoresEntry n m S) (hsq : IsCSC S → n = m) :
    ∃ D, Cuda.upload S n m = .ok D ∧ Represents D M ∧ (IsDense D ↔ IsDense S) ∧ (IsCSC D ↔ IsCSC S) := by
  cases S with
  | dense A rm =>
    refine ⟨.dense A rm, ?_, h, Iff.rfl, Iff.rfl⟩
    have hs : A.size = n * m := h.1
    have hpos : n * m ≠ 0 := by positivity
    simp only [Cuda.upload, Cuda.copyToDevice, hs, hpos, if_false, lt_irrefl, Except.ok_bind']
    rw [extract_all A (by omega)]
  | csr d ix p =>
    obtain ⟨nnz, h1, h2⟩ := he
    obtain ⟨nnz', h1', h3⟩ := Cuda.csr_nnz (M := M) h hn
    rw [h1] at h1'
    cases h1'
    have hps : p.size = n + 1 := h.1
    have his : ix.size = d.size := h.2.1
    refine ⟨.csr (d.extract 0 nnz) (ix.extract 0 nnz) (p.extract 0 (n + 1)), ?_,
      Cuda.csr_extract (M := M) h h1 h3, Iff.rfl, Iff.rfl⟩
    simp only [Cuda.upload, rd_ok h1, Except.ok_bind', copyToDevice_ok d h2 h3,
      copyToDevice_ok ix h2 (by omega : nnz ≤ ix.size),
      copyToDevice_ok p (Nat.succ_pos n) (by omega : n + 1 ≤ p.size)]
  | csc d ix p =>
    obtain ⟨nnz, h1, h2⟩ := he
    have hnm : n = m := hsq trivial
    subst hnm
    obtain ⟨nnz', h1', h3⟩ := Cuda.csr_nnz (M := Mᵀ) h hn
    rw [h1] at h1'
    cases h1'
    have hps : p.size = n + 1 := h.1
    have his : ix.size = d.size := h.2.1
    refine ⟨.csc (d.extract 0 nnz) (ix.extract 0 nnz) (p.extract 0 (n + 1)), ?_,
      Cuda.csr_extract (M := Mᵀ) h h1 h3, Iff.rfl, Iff.rfl⟩
    simp only [Cuda.upload, rd_ok h1, Except.ok_bind', copyToDevice_ok d h2 h3,
      copyToDevice_ok ix h2 (by omega : nnz ≤ ix.size),
      copyToDevice_ok p (Nat.succ_pos n) (by omega : n + 1 ≤ p.size)]

/-- The four products of a device matrix; a dense matrix only the first three. -/
theorem device_products {D : StoredMatrix K} {M : Matrix (Fin n) (Fin m) K} (h : Represents D M)
    (hn : 0 < n) (hm : 0 < m) :
    (∀ (v : Fin m → K) (c : Array K), c.size = n →
      Cuda.dot D n m (Array.ofFn v) c = .ok (Array.ofFn (M *ᵥ v))) ∧
    (∀ (v : Fin m → K) (alpha : K) (w : Fin n → K),
      Cuda.dotPlus D n m (Array.ofFn v) alpha (Array.ofFn w) =
        .ok (Array.ofFn (w + alpha • (M *ᵥ v)))) ∧
    ((¬ IsDense D → n = m) → ∀ (v : Fin n → K) (c : Array K), c.size = m →
      Cuda.transposeDot D n m (Array.ofFn v) c = .ok (Array.ofFn (Mᵀ *ᵥ v))) ∧
    (¬ IsDense D → n = m → ∀ (v : Fin n → K) (alpha : K) (w : Fin m → K),
      Cuda.transposeDotPlus D n m (Array.ofFn v) alpha (Array.ofFn w) =
        .ok (Array.ofFn (w + alpha • (Mᵀ *ᵥ v)))) := by
  have e0 : ∀ {k : Nat} (x : Fin k → K), (fun i => (1 : K) * x i + 0) = x := by
    intro k x; funext i; simp
  have e1 : ∀ {k : Nat} (a : K) (x w : Fin k → K), (fun i => a * x i + w i) = w + a • x := by
    intro k a x w; funext i; simp [add_comm]
  cases D with
  | dense A rm =>
    refine ⟨?_, ?_, ?_, fun hd => absurd trivial hd⟩
    · intro v c hc
      have := Cuda.dense_gemv (M := M) h hn hm 1 0 v c hc (fun _ => 0)
        (fun i => Cuda.scaledOld_zero c i.1)
      rwa [e0] at this
    · intro v alpha w
      have := Cuda.dense_gemv (M := M) h hn hm alpha 1 v (Array.ofFn w) (by simp) w
        (fun i => Cuda.scaledOld_one w i)
      rwa [e1] at this
    · intro _ v c hc
      have := Cuda.dense_gemv_transposed (M := M) h hn hm 1 0 v c hc (fun _ => 0)
        (fun i => Cuda.scaledOld_zero c i.1)
      rwa [e0] at this
  | csr d ix p =>
    refine ⟨?_, ?_, ?_, ?_⟩
    · intro v c hc
      have := Cuda.spmv_N (M := M) h 1 0 v c hc (fun _ => 0) (fun i => Cuda.scaledOld_zero c i.1)
      rwa [e0] at this
    · intro v alpha w
      have := Cuda.spmv_N (M := M) h alpha 1 v (Array.ofFn w) (by simp) w
        (fun i => Cuda.scaledOld_one w i)
      rwa [e1] at this
    · intro hsq v c hc
      have hnm : n = m := hsq id
      subst hnm
      have := Cuda.spmv_T (M := M) h 1 0 v c hc (fun _ => 0) (fun i => Cuda.scaledOld_zero c i.1)
      rwa [e0] at this
    · intro _ hnm v alpha w
      subst hnm
      have := Cuda.spmv_T (M := M) h alpha 1 v (Array.ofFn w) (by simp) w
        (fun i => Cuda.scaledOld_one w i)
      rwa [e1] at this
  | csc d ix p =>
    refine ⟨?_, ?_, ?_, ?_⟩
    · intro v c hc
      have := Cuda.spmv_T (M := Mᵀ) h 1 0 v c hc (fun _ => 0) (fun i => Cuda.scaledOld_zero c i.1)
      rwa [e0, transpose_transpose] at this
    · intro v alpha w
      have := Cuda.spmv_T (M := Mᵀ) h alpha 1 v (Array.ofFn w) (by simp) w
        (fun i => Cuda.scaledOld_one w i)
      rwa [e1, transpose_transpose] at this
    · intro hsq v c hc
      have hnm : n = m := hsq id
      subst hnm
      have := Cuda.spmv_N (M := Mᵀ) h 1 0 v c hc (fun _ => 0) (fun i => Cuda.scaledOld_zero c i.1)
      rwa [e0] at this
    · intro _ hnm v alpha w
      subst hnm
      have := Cuda.spmv_N (M := Mᵀ) h alpha 1 v (Array.ofFn w) (by simp) w
        (fun i => Cuda.scaledOld_one w i)
      rwa [e1] at this

/-- C60: on the GPU, `M v` and `w + α M v` are right for every dense and CSR matrix and every square CSC
matrix; the condition is that a sparse matrix stores an entry. -/
theorem gpu_dot_correct_partial {S : StoredMatrix K} {M : Matrix (Fin n) (Fin m) K}
    (h : Represents S M) (hn : 0 < n) (hm : 0 < m) (he : StoresEntry n m S) (hsq : IsCSC S → n = m) :
    ∃ D, Cuda.upload S n m = .ok D ∧
      (∀ (v : Fin m → K) (c : Array K), c.size = n →
        Cuda.dot D n m (Array.ofFn v) c = .ok (Array.ofFn (M *ᵥ v))) ∧
      ∀ (v : Fin m → K) (alpha : K) (w : Fin n → K),
        Cuda.dotPlus D n m (Array.ofFn v) alpha (Array.ofFn w) =
          .ok (Array.ofFn (w + alpha • (M *ᵥ v))) := by
  obtain ⟨D, h1, h2, -, -⟩ := upload_represents h hn hm he hsq
  exact ⟨D, h1, (device_products h2 hn hm).1, (device_products h2 hn hm).2.1⟩

/-- C60: on the GPU, `Mᵀ v` is right for every dense matrix and every square sparse matrix. -/
theorem gpu_transpose_dot_correct_partial {S : StoredMatrix K} {M : Matrix (Fin n) (Fin m) K}
    (h : Represents S M) (hn : 0 < n) (hm : 0 < m) (he : StoresEntry n m S)
    (hsq : ¬ IsDense S → n = m) :
    ∃ D, Cuda.upload S n m = .ok D ∧
      ∀ (v : Fin n → K) (c : Array K), c.size = m →
        Cuda.transposeDot D n m (Array.ofFn v) c = .ok (Array.ofFn (Mᵀ *ᵥ v)) := by
  have hcsc : IsCSC S → n = m := by
    intro hc
    apply hsq
    cases S <;> simp_all [IsCSC, IsDense]
  obtain ⟨D, h1, h2, h3, -⟩ := upload_represents h hn hm he hcsc
  exact ⟨D, h1, (device_products h2 hn hm).2.2.1 (fun hd => hsq (by rwa [h3] at hd))⟩

/-- C60: on the GPU, `w + α Mᵀ v` is right for square sparse matrices. -/
theorem gpu_transpose_dot_plus_sparse_correct_partial {S : StoredMatrix K}
    {M : Matrix (Fin n) (Fin n) K} (h : Represents S M) (hn : 0 < n) (he : StoresEntry n n S)
    (hsp : ¬ IsDense S) :
    ∃ D, Cuda.upload S n n = .ok D ∧
      ∀ (v : Fin n → K) (alpha : K) (w : Fin n → K),
        Cuda.transposeDotPlus D n n (Array.ofFn v) alpha (Array.ofFn w) =
          .ok (Array.ofFn (w + alpha • (Mᵀ *ᵥ v))) := by
  obtain ⟨D, h1, h2, h3, -⟩ := upload_represents h hn hn he (fun _ => rfl)
  exact ⟨D, h1, (device_products h2 hn hn).2.2.2 (by rwa [h3]) rfl⟩

/-- A CSR matrix that meets the hypotheses of the last three theorems. -/
example : Represents (K := ℚ) (.csr #[5, 7] #[1, 0] #[0, 1, 2]) (Matrix.of ![![0, 5], ![7, 0]]) ∧
    StoresEntry 2 2 (K := ℚ) (.csr #[5, 7] #[1, 0] #[0, 1, 2]) ∧
    ¬ IsDense (K := ℚ) (.csr #[5, 7] #[1, 0] #[0, 1, 2]) := by
  refine ⟨⟨rfl, rfl, fun i => ?_⟩, ⟨2, rfl, by norm_num⟩, id⟩
  fin_cases i
  · refine ⟨0, 1, rfl, rfl, by norm_num, by decide, ?_, ?_⟩
    · intro k _ hk
      interval_cases k
      exact ⟨1, by norm_num, rfl⟩
    · intro j
      fin_cases j <;> simp
  · refine ⟨1, 2, rfl, rfl, by norm_num, by decide, ?_, ?_⟩
    · intro k hk1 hk
      interval_cases k
      exact ⟨0, by norm_num, rfl⟩
    · intro j
      fin_cases j <;> simp

/-- C60 is violated: `transpose_dot_plus` of a dense matrix on the GPU overwrites its output; it returns
`α Mᵀ v` instead of `w + α Mᵀ v`, for every matrix and every `α ≠ 0`. -/
theorem gpu_dense_transpose_dot_plus_overwrites {A : Array K} {rm : Bool}
    {M : Matrix (Fin n) (Fin m) K} (h : DenseRepr rm A M) (hn : 0 < n) (hm : 0 < m) {alpha : K}
    (ha : alpha ≠ 0) (v : Fin n → K) (w : Fin m → K) :
    Cuda.upload (.dense A rm) n m = .ok (.dense A rm) ∧
    Cuda.transposeDotPlus (.dense A rm) n m (Array.ofFn v) alpha (Array.ofFn w) =
      .ok (Array.ofFn (alpha • (Mᵀ *ᵥ v))) := by
  constructor
  · have hs : A.size = n * m := h.1
    have hpos : n * m ≠ 0 := by positivity
    simp only [Cuda.upload, Cuda.copyToDevice, hs, hpos, if_false, lt_irrefl, Except.ok_bind']
    rw [extract_all A (by omega)]
  · have := Cuda.dense_gemv_transposed (M := M) h hn hm alpha 0 v (Array.ofFn w) (by simp)
      (fun _ => 0) (fun i => Cuda.scaledOld_zero _ i.1)
    simp only [Cuda.transposeDotPlus, Cuda.denseTransposedMatvecPlus, if_neg ha]
    refine this.trans ?_
    congr 2
    funext i
    simp

/-- C60 is violated: the transposed product of a sparse matrix that is not square kills the process on
the GPU, whatever the matrix and the vector. -/
theorem gpu_sparse_transpose_nonsquare_aborts {D : StoredMatrix K} (hsp : ¬ IsDense D) (hnm : n ≠ m)
    (v c : Array K) (alpha : K) :
    Cuda.transposeDot D n m v c = .error .abort ∧
    Cuda.transposeDotPlus D n m v alpha c = .error .abort := by
  cases D with
  | dense A rm => exact absurd trivial hsp
  | csr d ix p =>
    exact ⟨Cuda.spmv_mismatch _ _ _ _ _ _ _ (Or.inl (by simpa using hnm.symm)),
      Cuda.spmv_mismatch _ _ _ _ _ _ _ (Or.inl (by simpa using hnm.symm))⟩
  | csc d ix p =>
    exact ⟨Cuda.spmv_mismatch _ _ _ _ _ _ _ (Or.inl (by simpa using hnm.symm)),
      Cuda.spmv_mismatch _ _ _ _ _ _ _ (Or.inl (by simpa using hnm.symm))⟩

/-- C60 is violated: a sparse matrix without stored entries (the zero matrix) kills the process when it
is copied to the GPU; on the CPU its product is right. -/
theorem gpu_empty_sparse_aborts {data : Array K} {ix ptr : Array Nat} (M : Matrix (Fin n) (Fin m) K)
    (h : CSRRepr data ix ptr M) (h0 : ptr[n]? = some 0) (v : Fin m → K) (c : Array K) (hc : c.size = n) :
    Cuda.upload (.csr data ix ptr) n m = .error .abort ∧
    (StoredMatrix.csr data ix ptr).dot n m (Array.ofFn v) c = .ok (Array.ofFn (M *ᵥ v)) := by
  refine ⟨?_, stored_dot_correct (S := .csr data ix ptr) h v c hc⟩
  simp [Cuda.upload, rd_ok h0, Cuda.copyToDevice, Except.ok_bind', Except.error_bind']

/-- Such a matrix exists for every shape. -/
example : CSRRepr (K := ℚ) #[] #[] (Array.replicate (n + 1) 0) (0 : Matrix (Fin n) (Fin m) ℚ) ∧
    (Array.replicate (n + 1) 0)[n]? = some 0 := by
  refine ⟨⟨by simp, rfl, fun i => ⟨0, 0, by simp, by simp, le_rfl, by simp, ?_, by simp⟩⟩, by simp⟩
  intro k _ hk
  omega

theorem loopN_ok_body {σ : Type _} {step : Nat} {body : Nat → σ → Except Fault σ} :
    ∀ (c i : Nat) (s s' : σ), loopN step body c i s = .ok s' →
      ∀ k < c, ∃ t t', body (i + k * step) t = .ok t' := by
  intro c
  induction c with
  | zero => intro i s s' _ k hk; omega
  | succ c ih =>
    intro i s s' h k hk
    simp only [loopN] at h
    cases hb : body i s with
    | error e => rw [hb, Except.error_bind'] at h; cases h
    | ok s1 =>
      rw [hb, Except.ok_bind'] at h
      cases k with
      | zero => exact ⟨s, s1, by simpa using hb⟩
      | succ k =>
        obtain ⟨t, t', ht⟩ := ih (i + step) s1 s' h k (by omega)
        exact ⟨t, t', by rw [← ht]; congr 1; ring⟩

/-- C60 is violated: no CSC matrix that is not square can be used on the GPU.  With more rows than
columns, its constructor reads outside of the index pointer; with fewer, every product reads outside of
its copy. -/
theorem gpu_csc_nonsquare_fails {data : Array K} {ix ptr : Array Nat} {M : Matrix (Fin n) (Fin m) K}
    (h : CSCRepr data ix ptr M) (hm : 0 < m) (he : StoresEntry n m (.csc data ix ptr))
    (v : Fin m → K) (c : Array K) :
    (m < n → Cuda.upload (.csc data ix ptr) n m = .error .outOfBounds) ∧
    (n < m → ∃ D, Cuda.upload (.csc data ix ptr) n m = .ok D ∧
      ∀ out, Cuda.dot D n m (Array.ofFn v) c ≠ .ok out) := by
  obtain ⟨nnz, h1, h2⟩ := he
  obtain ⟨nnz', h1', h3⟩ := Cuda.csr_nnz (M := Mᵀ) h hm
  rw [h1] at h1'
  cases h1'
  have hps : ptr.size = m + 1 := h.1
  have his : ix.size = data.size := h.2.1
  have hup : Cuda.upload (.csc data ix ptr) n m = (do
      .ok (.csc (data.extract 0 nnz) (ix.extract 0 nnz) (← Cuda.copyToDevice ptr (n + 1)))) := by
    simp only [Cuda.upload, rd_ok h1, Except.ok_bind', copyToDevice_ok data h2 h3,
      copyToDevice_ok ix h2 (by omega : nnz ≤ ix.size)]
  constructor
  · intro hlt
    rw [hup]
    simp only [Cuda.copyToDevice]
    rw [if_neg (by omega), if_pos (by omega)]
    rfl
  · intro hlt
    refine ⟨.csc (data.extract 0 nnz) (ix.extract 0 nnz) (ptr.extract 0 (n + 1)), ?_, ?_⟩
    · rw [hup]
      simp only [Cuda.copyToDevice]
      rw [if_neg (by omega), if_neg (by omega)]
      rfl
    · intro out hout
      unfold Cuda.dot Cuda.spmv at hout
      simp only [if_true, ne_eq, not_true_eq_false, or_self, if_false] at hout
      cases hz : MatrixOps.csrTransposedMatvec (data.extract 0 nnz) (ix.extract 0 nnz)
          (ptr.extract 0 (n + 1)) (Array.ofFn v) m n (Array.replicate n (0 : K)) with
      | error e => rw [hz, Except.error_bind'] at hout; cases hout
      | ok z =>
        unfold MatrixOps.csrTransposedMatvec at hz
        rw [MatrixOps.zeroFill_eq _ (by simp), Except.ok_bind'] at hz
        obtain ⟨t, t', ht⟩ := loopN_ok_body _ _ _ _ hz (m - 1) (by omega)
        have : rd (ptr.extract 0 (n + 1)) (0 + (m - 1) * 1 + 1) = .error .outOfBounds := by
          unfold rd
          rw [Array.getElem?_eq_none (by simp; omega)]
        rw [this] at ht
        cases hr : rd (ptr.extract 0 (n + 1)) (0 + (m - 1) * 1) with
        | error e => rw [hr, Except.error_bind'] at ht; cases ht
        | ok x => rw [hr, Except.ok_bind', Except.error_bind'] at ht; cases ht

/-- A CSC matrix with one row and two columns meets the hypotheses. -/
example : CSCRepr (K := ℚ) #[3, 4] #[0, 0] #[0, 1, 2] (Matrix.of ![![3, 4]]) ∧
    StoresEntry 1 2 (K := ℚ) (.csc #[3, 4] #[0, 0] #[0, 1, 2]) := by
  refine ⟨⟨rfl, rfl, fun i => ?_⟩, ⟨2, rfl, by norm_num⟩⟩
  fin_cases i
  · refine ⟨0, 1, rfl, rfl, by norm_num, by decide, ?_, ?_⟩
    · intro k _ hk
      interval_cases k
      exact ⟨0, by norm_num, rfl⟩
    · intro j
      fin_cases j; simp
  · refine ⟨1, 2, rfl, rfl, by norm_num, by decide, ?_, ?_⟩
    · intro k hk1 hk
      interval_cases k
      exact ⟨0, by norm_num, rfl⟩
    · intro j
      fin_cases j; simp

/-! ## Affine matrix functions -/

/-- `_add_scaled_vector` on the GPU is the CPU function. -/
theorem gpu_addScaledVector_eq (x y : Array K) (k : Nat) (s : K) :
    Cuda.addScaledVector x k s y = AffineOp.addScaledVector x k s y := by
  unfold Cuda.addScaledVector AffineOp.addScaledVector Cuda.subtractScaledVector
    VectorOps.subtractScaledVector Cuda.axpy
  split
  · rfl
  · congr 1
    funext i out
    cases h1 : rd out i with
    | error e =>
      cases h2 : rd x i with
      | error e' =>
        unfold rd at h1 h2
        split at h1 <;> split at h2 <;> simp_all [Except.error_bind']
      | ok b => simp only [Except.ok_bind', Except.error_bind']
    | ok a =>
      cases h2 : rd x i with
      | error e' => simp only [Except.ok_bind', Except.error_bind']
      | ok b =>
        simp only [Except.ok_bind']
        congr 1
        ring

/-- C60: without `B`, the GPU operator applies `A + t I` and its transpose (dense matrices of every shape,
square sparse matrices). -/
theorem gpu_affine_identity_correct_partial {S : StoredMatrix K} {A : Matrix (Fin n) (Fin m) K}
    (hS : Represents S A) (hn : 0 < n) (hm : 0 < m) (he : StoresEntry n m S)
    (hsq : ¬ IsDense S → n = m) (t : K) (v : Fin m → K) (c : Array K) (hc : c.size = n)
    (u : Fin n → K) (d : Array K) (hd : d.size = m) :
    ∃ O, Cuda.construct S none n m = .ok O ∧
      Cuda.affineDot O (some t) (Array.ofFn v) c = .ok (Array.ofFn ((A + t • rectOne) *ᵥ v)) ∧
      Cuda.affineTransposeDot O (some t) (Array.ofFn u) d =
        .ok (Array.ofFn ((A + t • rectOne)ᵀ *ᵥ u)) := by
  have hcsc : IsCSC S → n = m := by
    intro hc
    apply hsq
    cases S <;> simp_all [IsCSC, IsDense]
  obtain ⟨D, h1, h2, h3, -⟩ := upload_represents hS hn hm he hcsc
  obtain ⟨p1, -, p3, -⟩ := device_products h2 hn hm
  refine ⟨⟨D, none, n, m, true, true⟩, by simp [Cuda.construct, h1, Except.ok_bind'], ?_, ?_⟩
  · obtain ⟨O, hO, hdot⟩ := affine_identity_dot_correct hS t v c hc
    cases hO
    rw [← hdot]
    unfold Cuda.affineDot AffineOp.dot
    rw [p1 v c hc, stored_dot_correct hS v c hc]
    simp only [Except.ok_bind', if_true, gpu_addScaledVector_eq]
  · obtain ⟨O, hO, hdot⟩ := affine_identity_transpose_dot_correct hS t u d hd
    cases hO
    rw [← hdot]
    unfold Cuda.affineTransposeDot AffineOp.transposeDot
    rw [p3 (fun hd => hsq (by rwa [h3] at hd)) u d hd, stored_transpose_dot_correct hS u d hd]
    simp only [Except.ok_bind', if_true, gpu_addScaledVector_eq]

/-- C60: with a generic `B`, the GPU operator applies `A + t B`; and its transpose if the storage is
sparse (and square). -/
theorem gpu_affine_generic_correct_partial {S T : StoredMatrix K} {A B : Matrix (Fin n) (Fin m) K}
    (hS : Represents S A) (hT : Represents T B) (hn : 0 < n) (hm : 0 < m) (heS : StoresEntry n m S)
    (heT : StoresEntry n m T) (hsqS : IsCSC S → n = m) (hsqT : IsCSC T → n = m)
    (hI : T.isIdentity n m = .ok false) (t : K) :
    ∃ O, Cuda.construct S (some T) n m = .ok O ∧
      (∀ (v : Fin m → K) (c : Array K), c.size = n →
        Cuda.affineDot O (some t) (Array.ofFn v) c = .ok (Array.ofFn ((A + t • B) *ᵥ v))) ∧
      (¬ IsDense S → ¬ IsDense T → n = m → ∀ (u : Fin n → K) (d : Array K), d.size = m →
        Cuda.affineTransposeDot O (some t) (Array.ofFn u) d =
          .ok (Array.ofFn ((A + t • B)ᵀ *ᵥ u))) := by
  obtain ⟨D, h1, h2, h3, -⟩ := upload_represents hS hn hm heS hsqS
  obtain ⟨E, k1, k2, k3, -⟩ := upload_represents hT hn hm heT hsqT
  refine ⟨⟨D, some E, n, m, false, false⟩, by simp [Cuda.construct, h1, k1, hI, Except.ok_bind'],
    ?_, ?_⟩
  · intro v c hc
    unfold Cuda.affineDot
    rw [(device_products h2 hn hm).1 v c hc]
    simp only [Except.ok_bind', Bool.false_eq_true, if_false]
    rw [(device_products k2 hn hm).2.1, Matrix.add_mulVec, Matrix.smul_mulVec]
  · intro hdS hdT hnm u d hd
    unfold Cuda.affineTransposeDot
    rw [(device_products h2 hn hm).2.2.1 (fun _ => hnm) u d hd]
    simp only [Except.ok_bind', Bool.false_eq_true, if_false]
    rw [(device_products k2 hn hm).2.2.2 (by rwa [k3]) hnm, Matrix.transpose_add,
      Matrix.transpose_smul, Matrix.add_mulVec, Matrix.smul_mulVec]

/-- C60 is violated: with a dense generic `B` the transposed product of the GPU operator is `t Bᵀ u`, the
part of `A` is lost, for all matrices and every `t ≠ 0`.  The CPU operator returns `(A + t B)ᵀ u`. -/
theorem gpu_dense_affine_transpose_loses_A {a b : Array K} {ra rb : Bool}
    {A B : Matrix (Fin n) (Fin m) K} (hA : DenseRepr ra a A) (hB : DenseRepr rb b B) (hn : 0 < n)
    (hm : 0 < m) (hI : (StoredMatrix.dense b rb).isIdentity n m = .ok false) {t : K} (ht : t ≠ 0)
    (u : Fin n → K) (d : Array K) (hd : d.size = m) :
    (∃ O, Cuda.construct (.dense a ra) (some (.dense b rb)) n m = .ok O ∧
      Cuda.affineTransposeDot O (some t) (Array.ofFn u) d = .ok (Array.ofFn (t • (Bᵀ *ᵥ u)))) ∧
    ∃ O, AffineOp.construct (.dense a ra) (some (.dense b rb)) n m = .ok O ∧
      O.transposeDot (some t) (Array.ofFn u) d = .ok (Array.ofFn ((A + t • B)ᵀ *ᵥ u)) := by
  constructor
  · refine ⟨⟨.dense a ra, some (.dense b rb), n, m, false, false⟩, ?_, ?_⟩
    · have h1 := (gpu_dense_transpose_dot_plus_overwrites hA hn hm ht u 0).1
      have h2 := (gpu_dense_transpose_dot_plus_overwrites hB hn hm ht u 0).1
      simp [Cuda.construct, h1, h2, hI, Except.ok_bind']
    · unfold Cuda.affineTransposeDot
      rw [(device_products (D := .dense a ra) (M := A) hA hn hm).2.2.1
        (fun h => absurd trivial h) u d hd]
      simp only [Except.ok_bind', Bool.false_eq_true, if_false]
      exact (gpu_dense_transpose_dot_plus_overwrites hB hn hm ht u _).2
  · obtain ⟨O, h1, -, h3⟩ := affine_generic_dot_correct (S := .dense a ra) (T := .dense b rb) hA hB hI t
      (0 : Fin m → K) u (Array.replicate n 0) (by simp) d hd
    exact ⟨O, h1, h3⟩

/-- For instance for `A = B = I` given explicitly (the identity is not recognised), where the result
differs for every `u ≠ 0`. -/
example (u : Fin 2 → ℚ) (hu : u ≠ 0) :
    DenseRepr true #[1, 0, 0, 1] (1 : Matrix (Fin 2) (Fin 2) ℚ) ∧
    (StoredMatrix.dense (K := ℚ) #[1, 0, 0, 1] true).isIdentity 2 2 = .ok false ∧
    (3 : ℚ) • ((1 : Matrix (Fin 2) (Fin 2) ℚ)ᵀ *ᵥ u) ≠
      ((1 : Matrix (Fin 2) (Fin 2) ℚ) + (3 : ℚ) • (1 : Matrix (Fin 2) (Fin 2) ℚ))ᵀ *ᵥ u := by
  have h1 : DenseRepr true #[1, 0, 0, 1] (1 : Matrix (Fin 2) (Fin 2) ℚ) := by
    refine ⟨rfl, fun i j => ?_⟩
    fin_cases i <;> fin_cases j <;> rfl
  refine ⟨h1, explicit_identity_not_recognised (by norm_num) h1, fun he => hu ?_⟩
  funext i
  have := congrFun he i
  simp [Matrix.add_mulVec, Matrix.smul_mulVec] at this
  simpa using this

/-! ## The work buffer of the sparse products -/

/-- C60: a history of sparse products that all need a buffer (`required > 0`) never fails: each product
works in a live buffer of exactly the size it needs, no block is released twice, and only the last one
is still allocated. -/
theorem gpu_buffer_history (rs : List Nat) (hpos : ∀ r ∈ rs, 0 < r) :
    ∃ b, Cuda.Buffer.new.run rs = .ok b ∧
      (∀ r, rs.getLast? = some r → b.numBytes = r ∧
        ∃ k, b.block = some k ∧ k < b.allocated ∧ k ∉ b.released) ∧
      b.released.Nodup ∧
      (∀ k < b.allocated, k ∈ b.released ∨ b.block = some k) := by
  suffices H : ∀ (rs : List Nat) (b : Cuda.Buffer), (∀ r ∈ rs, 0 < r) →
      b.released.Nodup → (∀ k < b.allocated, k ∈ b.released ∨ b.block = some k) →
      (∀ k ∈ b.released, k < b.allocated) →
      (b.numBytes ≠ 0 → ∃ k, b.block = some k) →
      (∀ k, b.block = some k → k < b.allocated ∧ k ∉ b.released) →
      ∃ b', b.run rs = .ok b' ∧
        (∀ r, rs.getLast? = some r → b'.numBytes = r ∧
          ∃ k, b'.block = some k ∧ k < b'.allocated ∧ k ∉ b'.released) ∧
        b'.released.Nodup ∧ (∀ k < b'.allocated, k ∈ b'.released ∨ b'.block = some k) by
    exact H rs .new hpos List.nodup_nil (by simp [Cuda.Buffer.new]) (by simp [Cuda.Buffer.new])
      (by simp [Cuda.Buffer.new]) (by simp [Cuda.Buffer.new])
  intro rs
  induction rs with
  | nil =>
    intro b _ h1 h2 _ _ _
    exact ⟨b, rfl, by simp, h1, h2⟩
  | cons r rs ih =>
    intro b hr h1 h2 h3 h4 h5
    have hr0 : 0 < r := hr r (by simp)
    -- the state after this product
    obtain ⟨b1, e1, n1, g1, g2, g3, g5⟩ : ∃ b1, b.allocate r = .ok b1 ∧ b1.numBytes = r ∧
        b1.released.Nodup ∧ (∀ k < b1.allocated, k ∈ b1.released ∨ b1.block = some k) ∧
        (∀ k ∈ b1.released, k < b1.allocated) ∧
        (∃ k, b1.block = some k ∧ k < b1.allocated ∧ k ∉ b1.released) := by
      unfold Cuda.Buffer.allocate
      by_cases hb : b.numBytes = r
      · rw [if_neg (by simpa using hb)]
        obtain ⟨k, hk⟩ := h4 (by omega)
        exact ⟨b, rfl, hb, h1, h2, h3, k, hk, h5 k hk⟩
      · rw [if_pos hb]
        simp only
        rw [if_neg (by omega)]
        refine ⟨_, rfl, ?_⟩
        unfold Cuda.Buffer.del
        cases hblk : b.block with
        | none =>
          simp only
          refine ⟨trivial, h1, ?_, fun k hk => Nat.lt_succ_of_lt (h3 k hk), _, rfl, Nat.lt_succ_self _, ?_⟩
          · intro k hk
            rcases Nat.lt_succ_iff_lt_or_eq.1 hk with hk | hk
            · rcases h2 k hk with h | h
              · exact Or.inl h
              · rw [hblk] at h; cases h
            · exact Or.inr (by rw [hk])
          · intro hk
            exact absurd (h3 _ hk) (lt_irrefl _)
        | some k0 =>
          obtain ⟨q1, q2⟩ := h5 k0 hblk
          simp only
          refine ⟨trivial, ?_, ?_, ?_, _, rfl, Nat.lt_succ_self _, ?_⟩
          · rw [List.nodup_append]
            refine ⟨h1, by simp, ?_⟩
            intro x hx y hy
            simp only [List.mem_singleton] at hy
            rintro rfl
            exact q2 (hy ▸ hx)
          · intro k hk
            rcases Nat.lt_succ_iff_lt_or_eq.1 hk with hk | hk
            · rcases h2 k hk with h | h
              · exact Or.inl (List.mem_append_left _ h)
              · rw [hblk] at h
                cases h
                exact Or.inl (List.mem_append_right _ (by simp))
            · exact Or.inr (by rw [hk])
          · intro k hk
            rcases List.mem_append.1 hk with hk | hk
            · exact Nat.lt_succ_of_lt (h3 k hk)
            · simp only [List.mem_singleton] at hk
              subst hk
              exact Nat.lt_succ_of_lt q1
          · intro hk
            rcases List.mem_append.1 hk with hk | hk
            · exact absurd (h3 _ hk) (lt_irrefl _)
            · simp only [List.mem_singleton] at hk
              omega
    obtain ⟨kb, gb, gb1, gb2⟩ := g5
    obtain ⟨b', e', f1, f2, f3⟩ := ih b1 (fun x hx => hr x (by simp [hx])) g1 g2 g3
      (fun _ => ⟨kb, gb⟩) (fun k hk => by rw [gb] at hk; cases hk; exact ⟨gb1, gb2⟩)
    refine ⟨b', by simp only [Cuda.Buffer.run, e1, Except.ok_bind', e'], ?_, f2, f3⟩
    intro x hx
    cases rs with
    | nil =>
      simp only [List.getLast?_singleton, Option.some.injEq] at hx
      subst hx
      simp only [Cuda.Buffer.run] at e'
      cases e'
      exact ⟨n1, kb, gb, gb1, gb2⟩
    | cons y ys =>
      apply f1
      simpa [List.getLast?_cons_cons] using hx

/-- C60 is violated: a product that needs no buffer after one that needed some kills the process. -/
theorem gpu_buffer_zero_aborts (r : Nat) (hr : 0 < r) :
    Cuda.Buffer.new.run [r, 0] = .error .abort := by
  have hr' : ¬ (0 = r) := by omega
  have hr'' : ¬ (r = 0) := by omega
  simp [Cuda.Buffer.run, Cuda.Buffer.allocate, Cuda.Buffer.new, Cuda.Buffer.del, hr', hr'',
    Except.ok_bind', Except.error_bind']

end Imate.Props
