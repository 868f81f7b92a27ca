import Mathlib.Algebra.BigOperators.Intervals
import Mathlib.Algebra.Order.BigOperators.Group.Finset
import Mathlib.Data.Matrix.Mul
import Mathlib.LinearAlgebra.Matrix.Notation
import Mathlib.Tactic.FinCases
import Verif.Lemmas.Machine
import Verif.Spec.Storage

/-!
# C64: sizes for which the index arithmetic of the native code is right
-/

namespace Imate.Props

open Matrix Spec

section

variable {K : Type _} [CommRing K] [DecidableEq K] {n m : ℕ}

/-- C64 (part): with signed indices of `w` bits the four dense products are `A v`, `Aᵀ v`, `c + alpha A v` and
`c + alpha Aᵀ v` for every matrix with at most `2^(w-1)` elements. -/
theorem machine_dense_partial (w : ℕ) {A : Array K} {M : Matrix (Fin n) (Fin m) K} {rowMajor : Bool}
    (h : DenseRepr rowMajor A M) (hs : n * m ≤ 2 ^ (w - 1)) (u : Fin n → K) (v : Fin m → K) (alpha : K) :
    (∀ c : Array K, c.size = n →
      Machine.denseMatvec w A (Array.ofFn v) n m rowMajor c = .ok (Array.ofFn (M *ᵥ v))) ∧
    (∀ c : Array K, c.size = m →
      Machine.denseTransposedMatvec w A (Array.ofFn u) n m rowMajor c = .ok (Array.ofFn (Mᵀ *ᵥ u))) ∧
    Machine.denseMatvecPlus w A (Array.ofFn v) alpha n m rowMajor (Array.ofFn u) =
      .ok (Array.ofFn (u + alpha • (M *ᵥ v))) ∧
    Machine.denseTransposedMatvecPlus w A (Array.ofFn u) alpha n m rowMajor (Array.ofFn v) =
      .ok (Array.ofFn (v + alpha • (Mᵀ *ᵥ u))) := by
  refine ⟨fun c hc => ?_, fun c hc => ?_, ?_, ?_⟩
  · rw [Machine.denseMatvec_same w _ _ _ hs, MatrixOps.denseMatvec_eq h v c hc]
  · rw [Machine.denseTransposedMatvec_same w _ _ _ hs, MatrixOps.denseTransposedMatvec_eq h u c hc]
  · rw [Machine.denseMatvecPlus_same w _ _ _ _ hs, MatrixOps.denseMatvecPlus_eq h]
  · rw [Machine.denseTransposedMatvecPlus_same w _ _ _ _ hs, MatrixOps.denseTransposedMatvecPlus_eq h]

/-- Two rows and two columns with indices of 3 bits: all four positions can be named. -/
example : DenseRepr true #[(1 : ℤ), 2, 3, 4] !![1, 2; 3, 4] ∧ 2 * 2 ≤ 2 ^ (3 - 1) ∧
    Machine.denseMatvec 3 #[(1 : ℤ), 2, 3, 4] #[5, 6] 2 2 true #[0, 0] = .ok #[17, 39] ∧
    Machine.denseMatvec 2 #[(1 : ℤ), 2, 3, 4] #[5, 6] 2 2 true #[0, 0] = .error .invalid := by
  refine ⟨⟨rfl, ?_⟩, by norm_num, by decide +kernel, by decide +kernel⟩
  intro i j
  fin_cases i <;> fin_cases j <;> rfl

/-- C64 refuted: for every dense matrix with more elements each product overflows a signed index, whatever the
arrays hold. -/
theorem machine_dense_overflow (w : ℕ) (A b c : Array K) {alpha : K} (ha : alpha ≠ 0) (hn : 0 < n) (hm : 0 < m)
    (hs : 2 ^ (w - 1) < n * m) (rowMajor : Bool) (r : Array K) :
    Machine.denseMatvec w A b n m rowMajor c ≠ .ok r ∧
    Machine.denseTransposedMatvec w A b n m rowMajor c ≠ .ok r ∧
    Machine.denseMatvecPlus w A b alpha n m rowMajor c ≠ .ok r ∧
    Machine.denseTransposedMatvecPlus w A b alpha n m rowMajor c ≠ .ok r :=
  ⟨Machine.denseMatvec_overflow w A b c r hn hm hs rowMajor,
    Machine.denseTransposedMatvec_overflow w A b c r hn hm hs rowMajor,
    Machine.denseMatvecPlus_overflow w A b c r ha hn hm hs rowMajor,
    Machine.denseTransposedMatvecPlus_overflow w A b c r ha hn hm hs rowMajor⟩

/-- A square matrix of the default build: 46340 rows are possible, 46341 (17 GB in double precision) are not. -/
example : 46340 * 46340 ≤ 2 ^ (32 - 1) ∧ 2 ^ (32 - 1) < 46341 * 46341 ∧ 46341 * 46341 ≤ 2 ^ (64 - 1) := by norm_num

/-- C64 (part): a CSR matrix whose entries and columns can be counted with the type of the indices is multiplied
correctly after the conversion of its index arrays. -/
theorem machine_csr_partial {w : ℕ} (hw : 1 ≤ w) {data : Array K} {indices ptr : Array ℕ}
    {M : Matrix (Fin n) (Fin m) K} (h : CSRRepr data indices ptr M) (hd : data.size < 2 ^ (w - 1))
    (hm : m ≤ 2 ^ (w - 1)) (v : Fin m → K) (c : Array K) (hc : c.size = n) :
    Machine.csrMatvec w data indices ptr (Array.ofFn v) n c = .ok (Array.ofFn (M *ᵥ v)) := by
  rw [← MatrixOps.csrMatvec_eq h v c hc]
  unfold Machine.csrMatvec MatrixOps.csrMatvec
  refine Machine.forRange_congr _ fun i _ hi s => ?_
  obtain ⟨lo, hi', h1, h2, h3, h4, h5, -⟩ := h.2.2 ⟨i, hi⟩
  simp only at h1 h2
  rw [Machine.rd_cast hw h1 (by omega), Machine.rd_cast hw h2 (by omega), MatrixOps.rd_of_getElem? h1,
    MatrixOps.rd_of_getElem? h2]
  simp only [Except.ok_bind', Machine.gather_same hw data (Array.ofFn v) h3 h5 hm]

/-- C64 (part): the other products of a CSR matrix, `c + alpha M v`, `Mᵀ v` and `c + alpha Mᵀ v`, under the same
bounds. -/
theorem machine_csr_all_partial {w : ℕ} (hw : 1 ≤ w) {data : Array K} {indices ptr : Array ℕ}
    {M : Matrix (Fin n) (Fin m) K} (h : CSRRepr data indices ptr M) (hd : data.size < 2 ^ (w - 1))
    (hm : m ≤ 2 ^ (w - 1)) (v : Fin m → K) (u : Fin n → K) (alpha : K) (c : Array K) (hc : c.size = m) :
    Machine.csrMatvecPlus w data indices ptr (Array.ofFn v) alpha n (Array.ofFn u) =
      .ok (Array.ofFn (u + alpha • (M *ᵥ v))) ∧
    Machine.csrTransposedMatvec w data indices ptr (Array.ofFn u) n m c = .ok (Array.ofFn (Mᵀ *ᵥ u)) ∧
    Machine.csrTransposedMatvecPlus w data indices ptr (Array.ofFn u) alpha n (Array.ofFn v) =
      .ok (Array.ofFn (v + alpha • (Mᵀ *ᵥ u))) := by
  refine ⟨?_, ?_, ?_⟩
  · rw [← MatrixOps.csrMatvecPlus_eq h v alpha u]
    unfold Machine.csrMatvecPlus MatrixOps.csrMatvecPlus
    refine if_congr Iff.rfl rfl (Machine.forRange_congr _ fun i _ hi s => ?_)
    obtain ⟨lo, hi', h1, h2, h3, h4, h5, -⟩ := h.2.2 ⟨i, hi⟩
    simp only at h1 h2
    rw [Machine.rd_cast hw h1 (by omega), Machine.rd_cast hw h2 (by omega), MatrixOps.rd_of_getElem? h1,
      MatrixOps.rd_of_getElem? h2]
    simp only [Except.ok_bind', Machine.gather_same hw data (Array.ofFn v) h3 h5 hm]
  · rw [← MatrixOps.csrTransposedMatvec_eq h u c hc]
    unfold Machine.csrTransposedMatvec MatrixOps.csrTransposedMatvec
    refine congrArg _ (funext fun z => Machine.forRange_congr _ fun i _ hi s => ?_)
    obtain ⟨lo, hi', h1, h2, h3, h4, h5, -⟩ := h.2.2 ⟨i, hi⟩
    simp only at h1 h2
    rw [Machine.rd_cast hw h1 (by omega), Machine.rd_cast hw h2 (by omega), MatrixOps.rd_of_getElem? h1,
      MatrixOps.rd_of_getElem? h2]
    simp only [Except.ok_bind', Machine.scatter_same hw data (Array.ofFn u) _ _ _ h3 h5 hm]
  · rw [← MatrixOps.csrTransposedMatvecPlus_eq h u alpha v]
    unfold Machine.csrTransposedMatvecPlus MatrixOps.csrTransposedMatvecPlus
    refine if_congr Iff.rfl rfl (Machine.forRange_congr _ fun i _ hi s => ?_)
    obtain ⟨lo, hi', h1, h2, h3, h4, h5, -⟩ := h.2.2 ⟨i, hi⟩
    simp only at h1 h2
    rw [Machine.rd_cast hw h1 (by omega), Machine.rd_cast hw h2 (by omega), MatrixOps.rd_of_getElem? h1,
      MatrixOps.rd_of_getElem? h2]
    simp only [Except.ok_bind', Machine.scatter_same hw data (Array.ofFn u) _ _ _ h3 h5 hm]

/-- C64 (part): the four products of a CSC matrix whose entries and rows can be counted with the type of the
indices. -/
theorem machine_csc_partial {w : ℕ} (hw : 1 ≤ w) {data : Array K} {indices ptr : Array ℕ}
    {M : Matrix (Fin n) (Fin m) K} (h : CSCRepr data indices ptr M) (hd : data.size < 2 ^ (w - 1))
    (hn : n ≤ 2 ^ (w - 1)) (v : Fin m → K) (u : Fin n → K) (alpha : K) (c c' : Array K) (hc : c.size = n)
    (hc' : c'.size = m) :
    Machine.cscMatvec w data indices ptr (Array.ofFn v) n m c = .ok (Array.ofFn (M *ᵥ v)) ∧
    Machine.cscMatvecPlus w data indices ptr (Array.ofFn v) alpha m (Array.ofFn u) =
      .ok (Array.ofFn (u + alpha • (M *ᵥ v))) ∧
    Machine.cscTransposedMatvec w data indices ptr (Array.ofFn u) m c' = .ok (Array.ofFn (Mᵀ *ᵥ u)) ∧
    Machine.cscTransposedMatvecPlus w data indices ptr (Array.ofFn u) alpha m (Array.ofFn v) =
      .ok (Array.ofFn (v + alpha • (Mᵀ *ᵥ u))) := by
  have h' : CSRRepr data indices ptr Mᵀ := h
  obtain ⟨h1, h2, h3⟩ := machine_csr_all_partial hw h' hd hn u v alpha c hc
  have h4 := machine_csr_partial hw h' hd hn u c' hc'
  rw [Matrix.transpose_transpose] at h2 h3
  exact ⟨h2, h3, h4, h1⟩

/-- The matrix with columns `(1, 2)` and `(0, 3)`: with indices of 3 bits all products of both formats are right. -/
example : Machine.cscMatvec 3 #[(1 : ℤ), 2, 3] #[0, 1, 1] #[0, 2, 3] #[5, 6] 2 2 #[9, 9] = .ok #[5, 28] ∧
    Machine.cscMatvecPlus 3 #[(1 : ℤ), 2, 3] #[0, 1, 1] #[0, 2, 3] #[5, 6] 2 2 #[1, 1] = .ok #[11, 57] ∧
    Machine.cscTransposedMatvec 3 #[(1 : ℤ), 2, 3] #[0, 1, 1] #[0, 2, 3] #[5, 6] 2 #[9, 9] = .ok #[17, 18] ∧
    Machine.cscTransposedMatvecPlus 3 #[(1 : ℤ), 2, 3] #[0, 1, 1] #[0, 2, 3] #[5, 6] 2 2 #[1, 1] = .ok #[35, 37] ∧
    Machine.csrTransposedMatvec 3 #[(1 : ℤ), 2, 3] #[0, 1, 1] #[0, 2, 3] #[5, 6] 2 2 #[9, 9] = .ok #[5, 28] ∧
    CSRRepr #[(1 : ℤ), 2, 3] #[0, 1, 1] #[0, 2, 3] !![1, 2; 0, 3] := by
  refine ⟨by decide +kernel, by decide +kernel, by decide +kernel, by decide +kernel, by decide +kernel, ?_⟩
  refine ⟨rfl, rfl, fun i => ?_⟩
  fin_cases i
  · refine ⟨0, 2, rfl, rfl, by omega, by decide, ?_, fun j => ?_⟩
    · intro k _ hk
      have : k = 0 ∨ k = 1 := by omega
      rcases this with rfl | rfl
      · exact ⟨0, by omega, rfl⟩
      · exact ⟨1, by omega, rfl⟩
    · fin_cases j <;> decide +kernel
  · refine ⟨2, 3, rfl, rfl, by omega, by decide, ?_, fun j => ?_⟩
    · intro k _ hk
      have : k = 2 := by omega
      subst this
      exact ⟨1, by omega, rfl⟩
    · fin_cases j <;> decide +kernel

/-- C64 (part): below `2^(w-1)` the conversion of an index array changes no element. -/
theorem machine_cast_exact {w : ℕ} (hw : 1 ≤ w) (a : Array ℕ) (h : ∀ x ∈ a, x < 2 ^ (w - 1)) :
    Machine.castIndices w a = a.map (fun x : ℕ => (x : ℤ)) := by
  unfold Machine.castIndices
  apply Array.map_congr_left
  intro x hx
  exact Machine.narrow_nat hw (h x hx)

/-- C64 refuted: whatever the CSR matrix holds, a row whose entries pass position `2^(w-1)` is silently taken as
a row of zeros, and a later non-empty row is read outside the arrays. -/
theorem machine_csr_row_lost {w : ℕ} (hw : 1 ≤ w) (data b : Array K) (ix ptr : Array ℕ) {i lo hi : ℕ}
    (h1 : ptr[i]? = some lo) (h2 : ptr[i + 1]? = some hi) (hlt : lo < hi) (hhi : 2 ^ (w - 1) ≤ hi)
    (hhi' : hi < 2 ^ w) (hi' : i < n) (c r : Array K)
    (hr : Machine.csrMatvec w data ix ptr b n c = .ok r) : lo < 2 ^ (w - 1) ∧ r[i]? = some 0 := by
  have e2 : rd (Machine.castIndices w ptr) (i + 1) = .ok ((hi : ℤ) - 2 ^ w) := by
    apply rd_ok
    rw [Machine.castIndices_get, h2, Option.map_some, Machine.narrow_wrap hw hhi hhi']
  by_cases hl : lo < 2 ^ (w - 1)
  · refine ⟨hl, ?_⟩
    have e1 := Machine.rd_cast hw h1 hl
    have hneg : (hi : ℤ) - 2 ^ w ≤ (lo : ℤ) := by
      have : (hi : ℤ) < 2 ^ w := by exact_mod_cast hhi'
      omega
    unfold Machine.csrMatvec at hr
    have key : ∀ (cnt k : ℕ) (s t : Array K), loopN 1 (fun row c => do
        let sum ← Machine.gather data (Machine.castIndices w ix) b (← rd (Machine.castIndices w ptr) row)
          (← rd (Machine.castIndices w ptr) (row + 1))
        wr c row sum) cnt k s = .ok t → ((k ≤ i → i < k + cnt) ∨ False) →
        (i < k → s[i]? = some 0) → i < k + cnt → t[i]? = some 0 := by
      intro cnt
      induction cnt with
      | zero =>
        intro k s t h _ h0 hk
        simp only [loopN, Except.ok.injEq] at h
        subst h
        exact h0 (by omega)
      | succ cnt ih =>
        intro k s t h _ h0 hk
        simp only [loopN] at h
        obtain ⟨s1, g1, g2⟩ := bind_ok_iff.1 h
        refine ih (k + 1) s1 t g2 (Or.inl fun _ => by omega) (fun hik => ?_) (by omega)
        obtain ⟨p0, q0, g1⟩ := bind_ok_iff.1 g1
        obtain ⟨p1, q1, g1⟩ := bind_ok_iff.1 g1
        obtain ⟨sum, q2, g1⟩ := bind_ok_iff.1 g1
        by_cases hki : k = i
        · subst hki
          rw [e1] at q0
          rw [e2] at q1
          cases q0
          cases q1
          rw [Machine.gather, if_pos hneg] at q2
          cases q2
          unfold wr at g1
          split_ifs at g1 with hsz
          · cases g1
            simp [hsz]
        · unfold wr at g1
          split_ifs at g1 with hsz
          · cases g1
            rw [Array.getElem?_set_ne _ (by omega)]
            exact h0 (by omega)
    exact key _ 0 c r hr (Or.inl fun _ => by omega) (by omega) (by omega)
  · exfalso
    have e1 : rd (Machine.castIndices w ptr) i = .ok ((lo : ℤ) - 2 ^ w) := by
      apply rd_ok
      rw [Machine.castIndices_get, h1, Option.map_some, Machine.narrow_wrap hw (by omega) (by omega)]
    unfold Machine.csrMatvec at hr
    obtain ⟨s1, s2, g⟩ := Machine.forRange_ok_iter hr (Nat.zero_le i) hi'
    simp only [e1, e2, Except.ok_bind'] at g
    obtain ⟨sum, g, -⟩ := bind_ok_iff.1 g
    unfold Machine.gather at g
    have : (lo : ℤ) < 2 ^ w := by
      have : lo < 2 ^ w := by omega
      exact_mod_cast this
    rw [if_neg (by omega), if_pos (by omega)] at g
    cases g

end

/-- Two rows with two and one entries and indices of 3 bits: correct; with 2 bits the first row passes position 2 and is
lost. -/
example : Machine.csrMatvec 3 #[(1 : ℤ), 2, 3] #[0, 1, 1] #[0, 2, 3] #[5, 6] 2 #[9, 9] = .ok #[17, 18] ∧
    (Machine.csrMatvec 2 #[(1 : ℤ), 2, 3] #[0, 1, 1] #[0, 2, 3] #[5, 6] 1 #[9, 9]) = .ok #[0, 9] ∧
    Machine.csrMatvec 2 #[(1 : ℤ), 2, 3] #[0, 1, 1] #[0, 2, 3] #[5, 6] 2 #[9, 9] = .error .outOfBounds := by
  decide +kernel

/-- A CSR matrix with one row and one column, `N` entries 1 at the same place. -/
theorem repeated_entries (N : ℕ) : CSRRepr (Array.replicate N (1 : ℤ)) (Array.replicate N 0) #[0, N]
    (fun (_ _ : Fin 1) => (N : ℤ)) := by
  refine ⟨rfl, by simp, fun i => ⟨0, N, ?_, ?_, Nat.zero_le _, by simp, fun k _ hk => ⟨0, by omega, by simp [hk]⟩,
    fun j => ?_⟩⟩
  · have : i = 0 := Subsingleton.elim _ _
    subst this; rfl
  · have : i = 0 := Subsingleton.elim _ _
    subst this; rfl
  · have : j = 0 := Subsingleton.elim _ _
    subst this
    rw [Finset.sum_congr rfl (g := fun _ => (1 : ℤ))]
    · simp
    · intro k hk
      simp only [Finset.mem_Ico] at hk
      simp [Array.getD, hk.2]

/-- C64 refuted for sparse matrices of the default build: a well-formed CSR matrix with `2^31` entries is
multiplied as if it were zero. -/
theorem machine_csr_wrong : ∃ (data : Array ℤ) (indices ptr : Array ℕ) (M : Matrix (Fin 1) (Fin 1) ℤ) (v : Fin 1 → ℤ),
    CSRRepr data indices ptr M ∧ M *ᵥ v ≠ 0 ∧ ∀ c : Array ℤ, c.size = 1 →
      Machine.csrMatvec 32 data indices ptr (Array.ofFn v) 1 c = .ok (Array.ofFn (0 : Fin 1 → ℤ)) := by
  refine ⟨_, _, _, _, fun _ => 1, repeated_entries (2 ^ 31), ?_, fun c hc => ?_⟩
  · intro h
    have := congrFun h 0
    simp [Matrix.mulVec, dotProduct] at this
  · have hlo : rd (Machine.castIndices 32 #[0, 2 ^ 31]) 0 = .ok 0 :=
      Machine.rd_cast (by norm_num) (x := 0) rfl (by norm_num)
    have hhi : rd (Machine.castIndices 32 #[0, 2 ^ 31]) 1 = .ok (((2 ^ 31 : ℕ) : ℤ) - 2 ^ 32) := by
      apply rd_ok
      rw [Machine.castIndices_get]
      change Option.map _ (some (2 ^ 31)) = _
      rw [Option.map_some, Machine.narrow_wrap (by norm_num) (by norm_num) (by norm_num)]
    unfold Machine.csrMatvec
    apply forRange_write_ofFn c _ hc
    intro i c' _ _
    have : i = 0 := Subsingleton.elim _ _
    subst this
    simp only [Fin.val_zero, Nat.zero_add, hlo, hhi, Except.ok_bind']
    rw [Machine.gather, if_pos (by norm_num)]
    rfl

/-- C64 refuted for CSC matrices of the default build: a well-formed CSC matrix with `2^31` entries is multiplied as if
it were zero. -/
theorem machine_csc_wrong : ∃ (data : Array ℤ) (indices ptr : Array ℕ) (M : Matrix (Fin 1) (Fin 1) ℤ) (v : Fin 1 → ℤ),
    CSCRepr data indices ptr M ∧ M *ᵥ v ≠ 0 ∧ ∀ c : Array ℤ, c.size = 1 →
      Machine.cscMatvec 32 data indices ptr (Array.ofFn v) 1 1 c = .ok (Array.ofFn (0 : Fin 1 → ℤ)) := by
  refine ⟨_, _, _, _, fun _ => 1, repeated_entries (2 ^ 31), ?_, fun c hc => ?_⟩
  · intro h
    have := congrFun h 0
    simp [Matrix.mulVec, dotProduct] at this
  · have hlo : rd (Machine.castIndices 32 #[0, 2 ^ 31]) 0 = .ok 0 :=
      Machine.rd_cast (by norm_num) (x := 0) rfl (by norm_num)
    have hhi : rd (Machine.castIndices 32 #[0, 2 ^ 31]) 1 = .ok (((2 ^ 31 : ℕ) : ℤ) - 2 ^ 32) := by
      apply rd_ok
      rw [Machine.castIndices_get]
      change Option.map _ (some (2 ^ 31)) = _
      rw [Option.map_some, Machine.narrow_wrap (by norm_num) (by norm_num) (by norm_num)]
    have hz : MatrixOps.zeroFill 1 c = .ok (Array.ofFn (0 : Fin 1 → ℤ)) :=
      forRange_write_ofFn c (0 : Fin 1 → ℤ) hc fun i c' _ _ => rfl
    unfold Machine.cscMatvec
    simp only [hz, Except.ok_bind', forRange, loopN, Nat.sub_zero, Nat.zero_add, hlo, hhi]
    rw [Machine.scatter, if_pos (by norm_num)]
    rfl

/-! ## Work arrays -/

/-- C64: the array of the random vectors of all threads has the right size exactly when `n * threads < 2^31`, in every
build. -/
theorem machine_random_vectors {n threads : ℕ} (ht : 1 ≤ threads) :
    Machine.randomVectors n threads = .ok (n, n * threads) ↔ n * threads < 2 ^ 31 := by
  constructor
  · intro h
    unfold Machine.randomVectors at h
    by_contra hc
    obtain ⟨p, h1, h⟩ := bind_ok_iff.1 h
    obtain ⟨size, h2, h⟩ := bind_ok_iff.1 h
    simp only [Except.ok.injEq, Prod.mk.injEq] at h
    obtain ⟨h3, h4⟩ := h
    unfold Machine.mul at h1
    split_ifs at h1 with hf
    simp only [Except.ok.injEq] at h1
    subst h1
    unfold Machine.alloc at h2
    split_ifs at h2 with hn
    simp only [Except.ok.injEq] at h2
    unfold Machine.fits at hf
    simp only [Bool.and_eq_true, decide_eq_true_eq] at hf
    obtain ⟨-, hf⟩ := hf
    push Not at hn hc
    norm_num at hf hc
    have : ((Machine.narrow 32 n * threads).toNat : ℤ) < 2147483648 := by
      rw [Int.toNat_of_nonneg hn]; exact hf
    omega
  · intro h
    have hn : n < 2 ^ 31 := lt_of_le_of_lt (Nat.le_mul_of_pos_right n ht) h
    unfold Machine.randomVectors
    rw [Machine.narrow_nat (by norm_num) hn]
    dsimp only
    rw [Machine.mul_nat, if_pos h]
    simp only [Except.ok_bind', Machine.alloc_nat, Int.toNat_natCast]

/-- C64: then the vectors of the threads lie in the array and do not overlap. -/
theorem machine_random_vectors_disjoint {n threads : ℕ} (h : n * threads < 2 ^ 31) :
    (∀ t < threads, ∃ p : ℕ, Machine.randomVectorOf n t = .ok (p : ℤ) ∧ p + n ≤ n * threads) ∧
    ∀ t < threads, ∀ t' < threads, t ≠ t' → ∀ p p' : ℕ, Machine.randomVectorOf n t = .ok (p : ℤ) →
      Machine.randomVectorOf n t' = .ok (p' : ℤ) → p + n ≤ p' ∨ p' + n ≤ p := by
  have le : ∀ t < threads, n * t + n ≤ n * threads := fun t ht =>
    calc n * t + n = n * (t + 1) := by ring
      _ ≤ n * threads := Nat.mul_le_mul_left _ ht
  have val : ∀ t < threads, Machine.randomVectorOf n t = .ok ((n * t : ℕ) : ℤ) := by
    intro t ht
    have h1 := le t ht
    have hn : n < 2 ^ 31 := by
      have := Nat.zero_le (n * t)
      omega
    unfold Machine.randomVectorOf
    rw [Machine.narrow_nat (by norm_num) hn, Machine.mul_nat, if_pos (by omega)]
  refine ⟨fun t ht => ⟨_, val t ht, le t ht⟩, fun t ht t' ht' hne p p' e e' => ?_⟩
  rw [val t ht] at e
  rw [val t' ht'] at e'
  simp only [Except.ok.injEq, Nat.cast_inj] at e e'
  subst e e'
  rcases Nat.lt_or_gt_of_ne hne with h' | h'
  · left
    calc n * t + n = n * (t + 1) := by ring
      _ ≤ n * t' := Nat.mul_le_mul_left _ h'
  · right
    calc n * t' + n = n * (t' + 1) := by ring
      _ ≤ n * t := Nat.mul_le_mul_left _ h'

/-- C64 refuted: a matrix of 40 million rows on a machine with 64 threads, also in the 64-bit build. -/
theorem machine_random_vectors_overflow : Machine.randomVectors 40000000 64 = .error .invalid := by
  rw [Machine.randomVectors, Machine.narrow_nat (by norm_num) (by norm_num), Machine.mul_nat, if_neg (by norm_num)]
  rfl

private theorem buffer_iff (w n B : ℕ) :
    ((do Machine.alloc (← Machine.mul w n B)) : Except Fault ℕ) = .ok (n * B) ↔ n * B < 2 ^ (w - 1) := by
  rw [Machine.mul_nat]
  split_ifs with h
  · simp only [Except.ok_bind', Machine.alloc_nat, h]
  · simp only [h, iff_false]
    intro h'
    cases h'

private theorem row_ok {w n B : ℕ} (hB : 0 < B) (h : n * B < 2 ^ (w - 1)) (j : ℕ) :
    ∃ p : ℕ, Machine.mul w ((j % B : ℕ) : ℤ) n = .ok (p : ℤ) ∧ p = j % B * n ∧ p + n ≤ n * B := by
  have hj := Nat.mod_lt j hB
  have h1 : j % B * n + n ≤ n * B :=
    calc j % B * n + n = n * (j % B + 1) := by ring
      _ ≤ n * B := Nat.mul_le_mul_left _ hj
  refine ⟨j % B * n, ?_, rfl, h1⟩
  rw [Machine.mul_nat, if_pos]
  rcases Nat.eq_zero_or_pos n with h0 | h0
  · subst h0; simp
  · omega

/-- C64: the buffer of the Lanczos vectors is allocated with its size exactly when that size is below `2^(w-1)`, and
then every row used lies in it; with full reorthogonalization the size is `n` times the degree. -/
theorem machine_lanczos_buffer {w n m : ℕ} (hm : 1 ≤ m) (orth : ℤ) :
    ∃ B : ℕ, (orth < 0 → B = m) ∧ (orth = 0 → B = 2) ∧ B ≤ max m 2 ∧
      (Machine.lanczosBuffer w n m orth = .ok (n * B) ↔ n * B < 2 ^ (w - 1)) ∧
      (n * B < 2 ^ (w - 1) → ∀ j, ∃ p : ℕ, Machine.lanczosRow w n m orth j = .ok (p : ℤ) ∧ p = j % B * n ∧
        p + n ≤ n * B) := by
  refine ⟨Lanczos.lanczosBufferSize m orth, ?_, ?_, ?_, buffer_iff _ _ _, fun h j => row_ok ?_ h j⟩
  · intro h
    unfold Lanczos.lanczosBufferSize
    rw [if_neg (by omega), if_pos (Or.inl h)]
  · intro h
    unfold Lanczos.lanczosBufferSize
    rw [if_pos (Or.inl h)]
  · unfold Lanczos.lanczosBufferSize
    split_ifs <;> omega
  · unfold Lanczos.lanczosBufferSize
    split_ifs <;> omega

/-- C64: the same for both buffers of the Golub-Kahn vectors. -/
theorem machine_golub_kahn_buffer {w n m : ℕ} (hm : 1 ≤ m) (orth : ℤ) :
    ∃ B : ℕ, (orth < 0 → B = m) ∧ (orth = 0 → B = 2) ∧ B ≤ max m 2 ∧
      (Machine.golubKahnBuffer w n m orth = .ok (n * B) ↔ n * B < 2 ^ (w - 1)) ∧
      (n * B < 2 ^ (w - 1) → ∀ j, ∃ p : ℕ, Machine.golubKahnRow w n m orth j = .ok (p : ℤ) ∧ p = j % B * n ∧
        p + n ≤ n * B) := by
  refine ⟨Lanczos.golubKahnBufferSize m orth, ?_, ?_, ?_, buffer_iff _ _ _, fun h j => row_ok ?_ h j⟩
  · intro h
    unfold Lanczos.golubKahnBufferSize
    rw [if_neg (by omega), if_pos (Or.inl h)]
  · intro h
    unfold Lanczos.golubKahnBufferSize
    rw [if_pos h]
  · unfold Lanczos.golubKahnBufferSize
    split_ifs <;> omega
  · unfold Lanczos.golubKahnBufferSize
    split_ifs <;> omega

/-- C64 refuted: full reorthogonalization of degree 50 for 50 million rows in the default build. -/
theorem machine_lanczos_overflow : Machine.lanczosBuffer 32 50000000 50 (-1) = .error .invalid ∧
    Machine.lanczosBuffer 64 50000000 50 (-1) = .ok 2500000000 := by
  have h : Lanczos.lanczosBufferSize 50 (-1) = 50 := by decide
  unfold Machine.lanczosBuffer
  rw [h]
  have e : ((50000000 : ℕ) : ℤ) = 50000000 := by norm_num
  constructor
  · rw [Machine.mul_nat, if_neg (by norm_num)]; rfl
  · rw [Machine.mul_nat, if_pos (by norm_num)]
    simp only [Except.ok_bind', Machine.alloc_nat]

private theorem svd_bound (k : ℕ) : 3 * k * k + 4 * k < 2147483648 ↔ k ≤ 26754 := by
  constructor
  · intro h
    by_contra hc
    have hc' : 26755 ≤ k := by omega
    have h2 : 26755 * 26755 ≤ k * k := Nat.mul_le_mul hc' hc'
    have h3 : 3 * k * k = 3 * (k * k) := by ring
    omega
  · intro h
    have h2 : k * k ≤ 26754 * 26754 := Nat.mul_le_mul h h
    have h3 : 3 * k * k = 3 * (k * k) := by ring
    omega

private theorem mul_cases {x y : ℕ} {r : ℤ} (h : Machine.mul 32 x y = .ok r) : r = ((x * y : ℕ) : ℤ) := by
  unfold Machine.mul at h
  split_ifs at h
  rw [← Except.ok.inj h, Nat.cast_mul]

private theorem add_cases {x y : ℕ} {r : ℤ} (h : Machine.add 32 x y = .ok r) : x + y < 2147483648 := by
  have hT : 2 ^ (32 - 1) = 2147483648 := by norm_num
  unfold Machine.add at h
  split_ifs at h with hf
  rw [← hT]
  refine Machine.fits_nat.1 ?_
  rw [Nat.cast_add]
  exact hf

private theorem mul_small {x y : ℕ} (h : x * y < 2147483648) : Machine.mul 32 x y = .ok ((x * y : ℕ) : ℤ) := by
  have hT : 2 ^ (32 - 1) = 2147483648 := by norm_num
  rw [Machine.mul_nat, if_pos (by rw [hT]; exact h)]

private theorem add_small {x y : ℕ} (h : x + y < 2147483648) : Machine.add 32 x y = .ok ((x + y : ℕ) : ℤ) := by
  have hT : 2 ^ (32 - 1) = 2147483648 := by norm_num
  rw [Machine.add_nat, if_pos (by rw [hT]; exact h)]

/-- C64: the work array of the singular values has its size `3 k² + 4 k` exactly for degrees up to 26754. -/
theorem machine_svd_work (k : ℕ) : Machine.svdWork k = .ok (3 * k * k + 4 * k) ↔ k ≤ 26754 := by
  rw [← svd_bound k]
  have unf : Machine.svdWork k = (Machine.mul 32 ((3 : ℕ) : ℤ) k >>= fun x => Machine.mul 32 x k >>= fun y =>
      Machine.mul 32 ((4 : ℕ) : ℤ) k >>= fun z => Machine.add 32 y z >>= Machine.alloc) := rfl
  rw [unf]
  constructor
  · intro h
    obtain ⟨x, h1, h⟩ := bind_ok_iff.1 h
    obtain ⟨y, h2, h⟩ := bind_ok_iff.1 h
    obtain ⟨z, h3, h⟩ := bind_ok_iff.1 h
    obtain ⟨t, h4, h⟩ := bind_ok_iff.1 h
    rw [mul_cases h1] at h2
    rw [mul_cases h2, mul_cases h3] at h4
    exact add_cases h4
  · intro h
    have hk := (svd_bound k).1 h
    rw [mul_small (by omega), Except.ok_bind', mul_small (by omega), Except.ok_bind', mul_small (by omega),
      Except.ok_bind', add_small (by omega), Except.ok_bind', Machine.alloc_nat]

end Imate.Props
