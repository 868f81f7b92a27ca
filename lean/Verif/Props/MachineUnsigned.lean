import Verif.Props.Machine
import Verif.Model.MachineUnsigned

/-!
# C64: the index arithmetic of the unsigned build
-/

namespace Imate.Machine.Unsigned

open MatrixOps Matrix

variable {K : Type _} [CommRing K] [DecidableEq K]

/-- The array a dense product sees: position `k` shows the element of position `k mod 2^w`. -/
def seen (w : ℕ) (A : Array K) : Array K := Array.ofFn fun k : Fin A.size => A.getD (k.1 % 2 ^ w) 0

omit [DecidableEq K] in
theorem rd_seen (w : ℕ) (A : Array K) {k : ℕ} (h : k < A.size) : rd A (k % 2 ^ w) = rd (seen w A) k := by
  have h2 : k % 2 ^ w < A.size := lt_of_le_of_lt (Nat.mod_le _ _) h
  rw [rd_ok (Array.getElem?_eq_getElem h2)]
  symm
  apply rd_ok
  unfold seen
  rw [Array.getElem?_ofFn, dif_pos h]
  simp [Array.getD, h2]

omit [DecidableEq K] in
theorem rowMajorAt_seen (w : ℕ) (A : Array K) {m i j : ℕ} (h : i * m + j < A.size) :
    rowMajorAt w A m i j = rd (seen w A) (i * m + j) := by
  rw [← rd_seen w A h]
  unfold rowMajorAt wrap
  rw [Nat.mod_add_mod]

omit [DecidableEq K] in
theorem columnMajorAt_seen (w : ℕ) (A : Array K) {n i j : ℕ} (h : i + n * j < A.size) :
    columnMajorAt w A n i j = rd (seen w A) (i + n * j) := by
  rw [← rd_seen w A h]
  unfold columnMajorAt wrap
  rw [Nat.add_mod_mod]

theorem denseMatvec_seen (w : ℕ) (A b c : Array K) {n m : ℕ} (h : n * m = A.size) (rm : Bool) :
    denseMatvec w A b n m rm c = MatrixOps.denseMatvec (seen w A) b n m rm c := by
  unfold denseMatvec MatrixOps.denseMatvec
  cases rm
  · simp only [Bool.false_eq_true, if_false]
    refine forRange_congr _ fun i _ hi s => ?_
    rw [plainDot_congr fun j hj => columnMajorAt_seen w A (lt_of_lt_of_eq (col_index_lt hi hj) h)]
  · simp only [if_true]
    refine forRange_congr _ fun i _ hi s => ?_
    rw [chunkedDot_congr fun j hj => rowMajorAt_seen w A (lt_of_lt_of_eq (row_index_lt hi hj) h)]

theorem denseTransposedMatvec_seen (w : ℕ) (A b c : Array K) {n m : ℕ} (h : n * m = A.size) (rm : Bool) :
    denseTransposedMatvec w A b n m rm c = MatrixOps.denseTransposedMatvec (seen w A) b n m rm c := by
  unfold denseTransposedMatvec MatrixOps.denseTransposedMatvec
  cases rm
  · simp only [Bool.false_eq_true, if_false]
    refine forRange_congr _ fun j _ hj s => ?_
    rw [chunkedDot_congr fun i hi => columnMajorAt_seen w A (lt_of_lt_of_eq (col_index_lt hi hj) h)]
  · simp only [if_true]
    refine forRange_congr _ fun j _ hj s => ?_
    rw [plainDot_congr fun i hi => rowMajorAt_seen w A (lt_of_lt_of_eq (row_index_lt hi hj) h)]

theorem denseMatvecPlus_seen (w : ℕ) (A b c : Array K) (alpha : K) {n m : ℕ} (h : n * m = A.size) (rm : Bool) :
    denseMatvecPlus w A b alpha n m rm c = MatrixOps.denseMatvecPlus (seen w A) b alpha n m rm c := by
  unfold denseMatvecPlus MatrixOps.denseMatvecPlus
  split_ifs
  · rfl
  · refine forRange_congr _ fun i _ hi s => ?_
    rw [chunkedDot_congr fun j hj => rowMajorAt_seen w A (lt_of_lt_of_eq (row_index_lt hi hj) h)]
  · refine forRange_congr _ fun i _ hi s => ?_
    rw [plainDot_congr fun j hj => columnMajorAt_seen w A (lt_of_lt_of_eq (col_index_lt hi hj) h)]

theorem denseTransposedMatvecPlus_seen (w : ℕ) (A b c : Array K) (alpha : K) {n m : ℕ} (h : n * m = A.size)
    (rm : Bool) :
    denseTransposedMatvecPlus w A b alpha n m rm c =
      MatrixOps.denseTransposedMatvecPlus (seen w A) b alpha n m rm c := by
  unfold denseTransposedMatvecPlus MatrixOps.denseTransposedMatvecPlus
  split_ifs
  · rfl
  · refine forRange_congr _ fun j _ hj s => ?_
    rw [plainDot_congr fun i hi => rowMajorAt_seen w A (lt_of_lt_of_eq (row_index_lt hi hj) h)]
  · refine forRange_congr _ fun j _ hj s => ?_
    rw [chunkedDot_congr fun i hi => columnMajorAt_seen w A (lt_of_lt_of_eq (col_index_lt hi hj) h)]

end Imate.Machine.Unsigned

namespace Imate.Props

open Matrix Spec

section

variable {K : Type _} [CommRing K] [DecidableEq K] {n m : ℕ}

theorem seen_repr (w : ℕ) {A : Array K} {M : Matrix (Fin n) (Fin m) K} {rowMajor : Bool}
    (h : DenseRepr rowMajor A M) :
    DenseRepr rowMajor (Machine.Unsigned.seen w A) (Matrix.of fun (i : Fin n) (j : Fin m) =>
      A.getD ((if rowMajor then i.1 * m + j.1 else i.1 + n * j.1) % 2 ^ w) 0) := by
  refine ⟨by simpa [Machine.Unsigned.seen] using h.1, fun i j => ?_⟩
  have hk : (if rowMajor then i.1 * m + j.1 else i.1 + n * j.1) < A.size := by
    have := h.2 i j
    by_contra hc
    rw [Array.getElem?_eq_none (by omega)] at this
    cases this
  unfold Machine.Unsigned.seen
  rw [Array.getElem?_ofFn, dif_pos hk]
  rfl

/-- C64: in the unsigned build the four dense products never fault, and are those of the matrix whose element `(i, j)`
is stored at the position of `(i, j)` modulo `2^w`. -/
theorem machine_unsigned_dense (w : ℕ) {A : Array K} {M : Matrix (Fin n) (Fin m) K} {rowMajor : Bool}
    (h : DenseRepr rowMajor A M) (u : Fin n → K) (v : Fin m → K) (alpha : K) (P : Matrix (Fin n) (Fin m) K)
    (hP : ∀ i j, P i j = A.getD ((if rowMajor then i.1 * m + j.1 else i.1 + n * j.1) % 2 ^ w) 0) :
    (∀ c : Array K, c.size = n →
      Machine.Unsigned.denseMatvec w A (Array.ofFn v) n m rowMajor c = .ok (Array.ofFn (P *ᵥ v))) ∧
    (∀ c : Array K, c.size = m →
      Machine.Unsigned.denseTransposedMatvec w A (Array.ofFn u) n m rowMajor c = .ok (Array.ofFn (Pᵀ *ᵥ u))) ∧
    Machine.Unsigned.denseMatvecPlus w A (Array.ofFn v) alpha n m rowMajor (Array.ofFn u) =
      .ok (Array.ofFn (u + alpha • (P *ᵥ v))) ∧
    Machine.Unsigned.denseTransposedMatvecPlus w A (Array.ofFn u) alpha n m rowMajor (Array.ofFn v) =
      .ok (Array.ofFn (v + alpha • (Pᵀ *ᵥ u))) := by
  have hs := seen_repr w h
  have e : P = Matrix.of fun (i : Fin n) (j : Fin m) =>
      A.getD ((if rowMajor then i.1 * m + j.1 else i.1 + n * j.1) % 2 ^ w) 0 := by
    ext i j; exact hP i j
  rw [← e] at hs
  have hz : n * m = A.size := h.1.symm
  refine ⟨fun c hc => ?_, fun c hc => ?_, ?_, ?_⟩
  · rw [Machine.Unsigned.denseMatvec_seen w _ _ _ hz, MatrixOps.denseMatvec_eq hs v c hc]
  · rw [Machine.Unsigned.denseTransposedMatvec_seen w _ _ _ hz, MatrixOps.denseTransposedMatvec_eq hs u c hc]
  · rw [Machine.Unsigned.denseMatvecPlus_seen w _ _ _ _ hz, MatrixOps.denseMatvecPlus_eq hs]
  · rw [Machine.Unsigned.denseTransposedMatvecPlus_seen w _ _ _ _ hz, MatrixOps.denseTransposedMatvecPlus_eq hs]

/-- C64 (part): in the unsigned build the four dense products are right for every matrix with at most `2^w`
elements. -/
theorem machine_unsigned_dense_partial (w : ℕ) {A : Array K} {M : Matrix (Fin n) (Fin m) K} {rowMajor : Bool}
    (h : DenseRepr rowMajor A M) (hs : n * m ≤ 2 ^ w) (u : Fin n → K) (v : Fin m → K) (alpha : K) :
    (∀ c : Array K, c.size = n →
      Machine.Unsigned.denseMatvec w A (Array.ofFn v) n m rowMajor c = .ok (Array.ofFn (M *ᵥ v))) ∧
    (∀ c : Array K, c.size = m →
      Machine.Unsigned.denseTransposedMatvec w A (Array.ofFn u) n m rowMajor c = .ok (Array.ofFn (Mᵀ *ᵥ u))) ∧
    Machine.Unsigned.denseMatvecPlus w A (Array.ofFn v) alpha n m rowMajor (Array.ofFn u) =
      .ok (Array.ofFn (u + alpha • (M *ᵥ v))) ∧
    Machine.Unsigned.denseTransposedMatvecPlus w A (Array.ofFn u) alpha n m rowMajor (Array.ofFn v) =
      .ok (Array.ofFn (v + alpha • (Mᵀ *ᵥ u))) := by
  refine machine_unsigned_dense w h u v alpha M fun i j => ?_
  have h2 := h.2 i j
  have hk : (if rowMajor then i.1 * m + j.1 else i.1 + n * j.1) < A.size := by
    by_contra hc
    rw [Array.getElem?_eq_none (by omega)] at h2
    cases h2
  have hz : A.size = n * m := h.1
  rw [Nat.mod_eq_of_lt (by omega)]
  rw [Array.getElem?_eq_getElem hk, Option.some.injEq] at h2
  rw [← h2]
  simp [Array.getD, hk]

/-- C64 (part): in the unsigned build the eight sparse products are right for every matrix with fewer than `2^w`
entries and at most `2^w` rows and columns. -/
theorem machine_unsigned_sparse_partial {w : ℕ} {data : Array K} {indices ptr : Array ℕ}
    {M : Matrix (Fin n) (Fin m) K} (hd : data.size < 2 ^ w) (hi : ∀ x ∈ indices, x < 2 ^ w)
    (hp : ∀ x ∈ ptr, x ≤ data.size) (v : Fin m → K) (u : Fin n → K) (alpha : K) (c c' : Array K)
    (hc : c.size = n) (hc' : c'.size = m) :
    (CSRRepr data indices ptr M →
      Machine.Unsigned.csrMatvec w data indices ptr (Array.ofFn v) n c = .ok (Array.ofFn (M *ᵥ v)) ∧
      Machine.Unsigned.csrMatvecPlus w data indices ptr (Array.ofFn v) alpha n (Array.ofFn u) =
        .ok (Array.ofFn (u + alpha • (M *ᵥ v))) ∧
      Machine.Unsigned.csrTransposedMatvec w data indices ptr (Array.ofFn u) n m c' = .ok (Array.ofFn (Mᵀ *ᵥ u)) ∧
      Machine.Unsigned.csrTransposedMatvecPlus w data indices ptr (Array.ofFn u) alpha n (Array.ofFn v) =
        .ok (Array.ofFn (v + alpha • (Mᵀ *ᵥ u)))) ∧
    (CSCRepr data indices ptr M →
      Machine.Unsigned.cscMatvec w data indices ptr (Array.ofFn v) n m c = .ok (Array.ofFn (M *ᵥ v)) ∧
      Machine.Unsigned.cscMatvecPlus w data indices ptr (Array.ofFn v) alpha m (Array.ofFn u) =
        .ok (Array.ofFn (u + alpha • (M *ᵥ v))) ∧
      Machine.Unsigned.cscTransposedMatvec w data indices ptr (Array.ofFn u) m c' = .ok (Array.ofFn (Mᵀ *ᵥ u)) ∧
      Machine.Unsigned.cscTransposedMatvecPlus w data indices ptr (Array.ofFn u) alpha m (Array.ofFn v) =
        .ok (Array.ofFn (v + alpha • (Mᵀ *ᵥ u)))) := by
  have cast : ∀ a : Array ℕ, (∀ x ∈ a, x < 2 ^ w) → Machine.Unsigned.castIndices w a = a := by
    intro a ha
    unfold Machine.Unsigned.castIndices
    conv_rhs => rw [← Array.map_id a]
    apply Array.map_congr_left
    intro x hx
    exact Nat.mod_eq_of_lt (ha x hx)
  have e1 := cast indices hi
  have e2 := cast ptr fun x hx => lt_of_le_of_lt (hp x hx) hd
  refine ⟨fun h => ⟨?_, ?_, ?_, ?_⟩, fun h => ⟨?_, ?_, ?_, ?_⟩⟩
  · unfold Machine.Unsigned.csrMatvec; rw [e1, e2, MatrixOps.csrMatvec_eq h v c hc]
  · unfold Machine.Unsigned.csrMatvecPlus; rw [e1, e2, MatrixOps.csrMatvecPlus_eq h]
  · unfold Machine.Unsigned.csrTransposedMatvec; rw [e1, e2, MatrixOps.csrTransposedMatvec_eq h u c' hc']
  · unfold Machine.Unsigned.csrTransposedMatvecPlus; rw [e1, e2, MatrixOps.csrTransposedMatvecPlus_eq h]
  · unfold Machine.Unsigned.cscMatvec; rw [e1, e2, MatrixOps.cscMatvec_eq h v c hc]
  · unfold Machine.Unsigned.cscMatvecPlus; rw [e1, e2, MatrixOps.cscMatvecPlus_eq h]
  · unfold Machine.Unsigned.cscTransposedMatvec; rw [e1, e2, MatrixOps.cscTransposedMatvec_eq h u c' hc']
  · unfold Machine.Unsigned.cscTransposedMatvecPlus; rw [e1, e2, MatrixOps.cscTransposedMatvecPlus_eq h]

/-- Two rows and two columns with unsigned indices of 2 bits are right; with 1 bit the elements of the first row are used
for both rows, and no fault occurs. -/
example : Machine.Unsigned.denseMatvec 2 #[(1 : ℤ), 2, 3, 4] #[5, 6] 2 2 true #[0, 0] = .ok #[17, 39] ∧
    Machine.Unsigned.denseMatvec 1 #[(1 : ℤ), 2, 3, 4] #[5, 6] 2 2 true #[0, 0] = .ok #[17, 17] ∧
    Machine.Unsigned.csrMatvec 2 #[(1 : ℤ), 2, 3] #[0, 1, 1] #[0, 2, 3] #[5, 6] 2 #[9, 9] = .ok #[17, 18] ∧
    Machine.Unsigned.csrMatvec 1 #[(1 : ℤ), 2, 3] #[0, 1, 1] #[0, 2, 3] #[5, 6] 2 #[9, 9] = .ok #[0, 5] := by
  decide +kernel

/-- C64 refuted: for every shape with more than `2^w` elements the unsigned build returns, without any error, a
product that is wrong. -/
theorem machine_unsigned_dense_wrong (w : ℕ) (hn : 0 < n) (hm : 0 < m) (hs : 2 ^ w < n * m) (rowMajor : Bool) :
    ∃ (A : Array ℤ) (M : Matrix (Fin n) (Fin m) ℤ) (v : Fin m → ℤ), DenseRepr rowMajor A M ∧ M *ᵥ v ≠ 0 ∧
      ∀ c : Array ℤ, c.size = n →
        Machine.Unsigned.denseMatvec w A (Array.ofFn v) n m rowMajor c = .ok (Array.ofFn (0 : Fin n → ℤ)) := by
  have hpos : ∃ (i : Fin n) (j : Fin m), (if rowMajor then i.1 * m + j.1 else i.1 + n * j.1) = 2 ^ w := by
    cases rowMajor
    · refine ⟨⟨2 ^ w % n, Nat.mod_lt _ hn⟩, ⟨2 ^ w / n, Nat.div_lt_of_lt_mul hs⟩, ?_⟩
      simp only [Bool.false_eq_true, if_false]
      exact Nat.mod_add_div _ _
    · refine ⟨⟨2 ^ w / m, Nat.div_lt_of_lt_mul (by rwa [Nat.mul_comm])⟩, ⟨2 ^ w % m, Nat.mod_lt _ hm⟩, ?_⟩
      simp only [if_true]
      rw [Nat.mul_comm]
      exact Nat.div_add_mod _ _
  have hlt : ∀ (i : Fin n) (j : Fin m), (if rowMajor then i.1 * m + j.1 else i.1 + n * j.1) < n * m := by
    intro i j
    split_ifs
    · exact Machine.row_index_lt i.2 j.2
    · exact Machine.col_index_lt i.2 j.2
  have hA : DenseRepr rowMajor (Array.ofFn fun k : Fin (n * m) => if k.1 = 2 ^ w then (1 : ℤ) else 0)
      (Matrix.of fun (i : Fin n) (j : Fin m) =>
        if (if rowMajor then i.1 * m + j.1 else i.1 + n * j.1) = 2 ^ w then (1 : ℤ) else 0) := by
    refine ⟨by simp, fun i j => ?_⟩
    rw [Array.getElem?_ofFn, dif_pos (hlt i j)]
    rfl
  refine ⟨_, _, fun _ => 1, hA, ?_, fun c hc => ?_⟩
  · obtain ⟨i, j, hij⟩ := hpos
    intro h
    have := congrFun h i
    simp only [Matrix.mulVec, dotProduct, Matrix.of_apply, mul_one, Pi.zero_apply] at this
    have h1 := Finset.single_le_sum (f := fun j : Fin m =>
      if (if rowMajor then i.1 * m + j.1 else i.1 + n * j.1) = 2 ^ w then (1 : ℤ) else 0)
      (fun j _ => by split_ifs <;> norm_num) (Finset.mem_univ j)
    simp only [hij, if_true] at h1
    omega
  · rw [(machine_unsigned_dense w hA 0 (fun _ => 1) 0 0 fun i j => ?_).1 c hc, Matrix.zero_mulVec]
    have h2 : (if rowMajor then i.1 * m + j.1 else i.1 + n * j.1) % 2 ^ w < 2 ^ w := Nat.mod_lt _ (by positivity)
    generalize (if rowMajor then i.1 * m + j.1 else i.1 + n * j.1) % 2 ^ w = k at h2
    have h3 : k < n * m := by omega
    simp [Array.getD, h3, h2.ne]

/-- C64 refuted: a matrix of `2^w` entries in one row is taken as zero by the products of both formats. -/
theorem machine_unsigned_sparse_wrong (w : ℕ) : ∃ (data : Array ℤ) (indices ptr : Array ℕ)
    (M : Matrix (Fin 1) (Fin 1) ℤ) (v : Fin 1 → ℤ), CSRRepr data indices ptr M ∧ CSCRepr data indices ptr M ∧
    M *ᵥ v ≠ 0 ∧ ∀ c : Array ℤ, c.size = 1 →
      Machine.Unsigned.csrMatvec w data indices ptr (Array.ofFn v) 1 c = .ok (Array.ofFn (0 : Fin 1 → ℤ)) ∧
      Machine.Unsigned.cscMatvec w data indices ptr (Array.ofFn v) 1 1 c = .ok (Array.ofFn (0 : Fin 1 → ℤ)) := by
  have hz : CSRRepr (Array.replicate (2 ^ w) (1 : ℤ)) (Machine.Unsigned.castIndices w (Array.replicate (2 ^ w) 0))
      (Machine.Unsigned.castIndices w #[0, 2 ^ w]) (0 : Matrix (Fin 1) (Fin 1) ℤ) := by
    refine ⟨by simp [Machine.Unsigned.castIndices], by simp [Machine.Unsigned.castIndices], fun i => ⟨0, 0, ?_, ?_, le_rfl, Nat.zero_le _,
      fun k _ hk => by omega, fun j => by simp⟩⟩ <;>
    · have : i = 0 := Subsingleton.elim _ _
      subst this
      simp [Machine.Unsigned.castIndices, Machine.Unsigned.wrap]
  have hM := repeated_entries (2 ^ w)
  refine ⟨_, _, _, _, fun _ => 1, hM, hM, ?_, fun c hc => ⟨?_, ?_⟩⟩
  · intro h
    have := congrFun h 0
    simp [Matrix.mulVec, dotProduct] at this
  · unfold Machine.Unsigned.csrMatvec
    rw [MatrixOps.csrMatvec_eq hz _ c hc, Matrix.zero_mulVec]
  · unfold Machine.Unsigned.cscMatvec
    rw [MatrixOps.cscMatvec_eq (M := (0 : Matrix (Fin 1) (Fin 1) ℤ)) hz _ c hc, Matrix.zero_mulVec]

end

/-! ## Work arrays -/

private theorem rows_fit {w n B : ℕ} (hB : 0 < B) (h : n * B < 2 ^ w) :
    n * B % 2 ^ w = n * B ∧ ∀ j, j % B * n % 2 ^ w = j % B * n ∧ j % B * n + n ≤ n * B := by
  refine ⟨Nat.mod_eq_of_lt h, fun j => ?_⟩
  have h1 : j % B * n + n ≤ n * B :=
    calc j % B * n + n = n * (j % B + 1) := by ring
      _ ≤ n * B := Nat.mul_le_mul_left _ (Nat.mod_lt j hB)
  exact ⟨Nat.mod_eq_of_lt (by omega), h1⟩

private theorem row_beyond {w n B : ℕ} (hB : 0 < B) (hn : n < 2 ^ w) (h : 2 ^ w ≤ n * B) :
    ∃ j < B, n * B % 2 ^ w < j % B * n % 2 ^ w + n := by
  have hn0 : 0 < n := by
    rcases Nat.eq_zero_or_pos n with h0 | h0
    · subst h0
      have : 0 < 2 ^ w := by positivity
      omega
    · exact h0
  have hP : 0 < 2 ^ w := by positivity
  have h1 : (2 ^ w - 1) / n < B := (Nat.div_lt_iff_lt_mul hn0).2 (by rw [Nat.mul_comm]; omega)
  have h2 : (2 ^ w - 1) / n * n ≤ 2 ^ w - 1 := Nat.div_mul_le_self _ _
  have h3 : 2 ^ w - 1 < (2 ^ w - 1) / n * n + n := by
    have := Nat.lt_div_mul_add (a := 2 ^ w - 1) hn0
    omega
  refine ⟨(2 ^ w - 1) / n, h1, ?_⟩
  rw [Nat.mod_eq_of_lt h1, Nat.mod_eq_of_lt (by omega : (2 ^ w - 1) / n * n < 2 ^ w)]
  have h4 : n * B % 2 ^ w < 2 ^ w := Nat.mod_lt _ hP
  omega

/-- C64: in the unsigned build the buffers of the Lanczos and Golub-Kahn vectors, for any degree and any value of
`orthogonalize`, have room for the rows used (row `j` at `j % B * n`, no two of them overlapping) exactly when
`n * B < 2^w`.  Otherwise they are allocated too small without any error, and one of the first `B` rows ends beyond the
buffer. -/
theorem machine_unsigned_buffers {w n m : ℕ} (hm : 1 ≤ m) (hn : n < 2 ^ w) (orth : ℤ) :
    (∃ B : ℕ, (orth < 0 → B = m) ∧ (orth = 0 → B = 2) ∧ 1 ≤ B ∧ B ≤ max m 2 ∧
      (n * B < 2 ^ w → Machine.Unsigned.lanczosBuffer w n m orth = n * B ∧
        ∀ j, Machine.Unsigned.lanczosRow w n m orth j = j % B * n ∧ j % B * n + n ≤ n * B) ∧
      (2 ^ w ≤ n * B → Machine.Unsigned.lanczosBuffer w n m orth < n * B ∧
        ∃ j < B, Machine.Unsigned.lanczosBuffer w n m orth < Machine.Unsigned.lanczosRow w n m orth j + n)) ∧
    ∃ B : ℕ, (orth < 0 → B = m) ∧ (orth = 0 → B = 2) ∧ 1 ≤ B ∧ B ≤ max m 2 ∧
      (n * B < 2 ^ w → Machine.Unsigned.golubKahnBuffer w n m orth = n * B ∧
        ∀ j, Machine.Unsigned.golubKahnRow w n m orth j = j % B * n ∧ j % B * n + n ≤ n * B) ∧
      (2 ^ w ≤ n * B → Machine.Unsigned.golubKahnBuffer w n m orth < n * B ∧
        ∃ j < B, Machine.Unsigned.golubKahnBuffer w n m orth < Machine.Unsigned.golubKahnRow w n m orth j + n) := by
  have hP : 0 < 2 ^ w := by positivity
  have lt : ∀ B, 2 ^ w ≤ n * B → n * B % 2 ^ w < n * B := fun B h => lt_of_lt_of_le (Nat.mod_lt _ hP) h
  have a1 : 1 ≤ Lanczos.lanczosBufferSize m orth := by
    unfold Lanczos.lanczosBufferSize
    split_ifs <;> omega
  have a2 : 1 ≤ Lanczos.golubKahnBufferSize m orth := by
    unfold Lanczos.golubKahnBufferSize
    split_ifs <;> omega
  refine ⟨⟨Lanczos.lanczosBufferSize m orth, ?_, ?_, a1, ?_, rows_fit a1, fun h => ⟨lt _ h, row_beyond a1 hn h⟩⟩,
    Lanczos.golubKahnBufferSize m orth, ?_, ?_, a2, ?_, rows_fit a2, fun h => ⟨lt _ h, row_beyond a2 hn h⟩⟩
  · intro h
    unfold Lanczos.lanczosBufferSize
    rw [if_neg (by omega), if_pos (Or.inl h)]
  · intro h
    unfold Lanczos.lanczosBufferSize
    rw [if_pos (Or.inl h)]
  · unfold Lanczos.lanczosBufferSize
    split_ifs <;> omega
  · intro h
    unfold Lanczos.golubKahnBufferSize
    rw [if_neg (by omega), if_pos (Or.inl h)]
  · intro h
    unfold Lanczos.golubKahnBufferSize
    rw [if_pos h]
  · unfold Lanczos.golubKahnBufferSize
    split_ifs <;> omega

/-- C64 refuted: full reorthogonalization of degree 100 for 50 million rows with 32-bit unsigned indices: the buffer has
705 million elements instead of five billion; the row 85 begins behind it. -/
theorem machine_unsigned_buffer_overflow : Machine.Unsigned.lanczosBuffer 32 50000000 100 (-1) = 705032704 ∧
    Machine.Unsigned.lanczosRow 32 50000000 100 (-1) 85 = 4250000000 ∧
    Machine.Unsigned.lanczosBuffer 64 50000000 100 (-1) = 5000000000 := by
  decide +kernel

end Imate.Props
