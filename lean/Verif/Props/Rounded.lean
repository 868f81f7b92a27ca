import Mathlib.Tactic.NormNum
import Verif.Lemmas.Rounded

/-!
# C65: accuracy of the kernels in floating-point arithmetic

`flD` rounds to the type of the data, with `p` bits, `flL` to `long double`, with `q` bits.
-/

namespace Imate.Props

open Matrix Spec Rounded

/-- Unit roundoff of a type with `p` bits. -/
noncomputable def unitRoundoff (p : ℕ) : ℝ := (2 : ℝ) ^ (-(p : ℤ))

private theorem unit_nonneg (p : ℕ) : 0 ≤ unitRoundoff p := by unfold unitRoundoff; positivity

/-- Functions that round to nearest exist for every precision. -/
theorem nearest_exists {p : ℕ} (hp : 1 ≤ p) : ∃ fl, Nearest p fl := ⟨_, roundTo_nearest hp⟩

/-- C65: rounding to nearest makes a relative error of at most `2^(-p)`. -/
theorem nearest_relative_error {p : ℕ} (hp : 1 ≤ p) {fl : ℝ → ℝ} (h : Nearest p fl) (x : ℝ) :
    |fl x - x| ≤ unitRoundoff p * |x| := nearest_rel hp h x

section

variable {p q : ℕ} {flD flL : ℝ → ℝ} {n m : ℕ}

/-- C65: the error of a product with a dense matrix in either layout.  Only six roundings per element are made in the
precision of the data. -/
theorem dense_matvec_accurate (hp : 1 ≤ p) (hq : 1 ≤ q) (hD : Nearest p flD) (hL : Nearest q flL) {A : Array ℝ}
    {M : Matrix (Fin n) (Fin m) ℝ} {rowMajor : Bool} (h : DenseRepr rowMajor A M) (v : Fin m → ℝ) (c : Array ℝ)
    (hc : c.size = n) :
    ∃ r : Fin n → ℝ, Rounded.denseMatvec flD flL A (Array.ofFn v) n m rowMajor c = .ok (Array.ofFn r) ∧
      ∀ i, |r i - (M *ᵥ v) i| ≤ ((1 + unitRoundoff p) ^ 6 * (1 + unitRoundoff q) ^ m - 1) * ∑ j, |M i j| * |v j| := by
  have hu := unit_nonneg p
  have hU := unit_nonneg q
  unfold Rounded.denseMatvec
  cases rowMajor
  · simp only [Bool.false_eq_true, if_false]
    refine forRange_write_rel c hc (fun i x => |x - (M *ᵥ v) i| ≤
      ((1 + unitRoundoff p) ^ 6 * (1 + unitRoundoff q) ^ m - 1) * ∑ j, |M i j| * |v j|) fun i => ?_
    obtain ⟨s, h1, h2⟩ := plainDot_fin hu hU (nearest_rel hp hD) (nearest_rel hq hL)
      (a := fun j => rd A (i.1 + n * j)) (b := rd (Array.ofFn v)) (fun j => M i j) v
      (fun j => MatrixOps.dense_rd_col h i j) (fun j => rd_ofFn v j)
    refine ⟨flD s, (h2.cast hu (nearest_rel hp hD)).2, fun c' _ => ?_⟩
    rw [h1]
    rfl
  · simp only [if_true]
    refine forRange_write_rel c hc (fun i x => |x - (M *ᵥ v) i| ≤
      ((1 + unitRoundoff p) ^ 6 * (1 + unitRoundoff q) ^ m - 1) * ∑ j, |M i j| * |v j|) fun i => ?_
    obtain ⟨s, h1, h2⟩ := chunkedDot_fin hu hU (nearest_rel hp hD) (nearest_rel hq hL)
      (a := fun j => rd A (i.1 * m + j)) (b := rd (Array.ofFn v)) (fun j => M i j) v
      (fun j => MatrixOps.dense_rd_row h i j) (fun j => rd_ofFn v j)
    refine ⟨flD s, (h2.cast hu (nearest_rel hp hD)).2, fun c' _ => ?_⟩
    rw [h1]
    rfl

/-- C65: the same for the transposed product. -/
theorem dense_transposed_matvec_accurate (hp : 1 ≤ p) (hq : 1 ≤ q) (hD : Nearest p flD) (hL : Nearest q flL)
    {A : Array ℝ} {M : Matrix (Fin n) (Fin m) ℝ} {rowMajor : Bool} (h : DenseRepr rowMajor A M) (v : Fin n → ℝ)
    (c : Array ℝ) (hc : c.size = m) :
    ∃ r : Fin m → ℝ, Rounded.denseTransposedMatvec flD flL A (Array.ofFn v) n m rowMajor c = .ok (Array.ofFn r) ∧
      ∀ j, |r j - (Mᵀ *ᵥ v) j| ≤ ((1 + unitRoundoff p) ^ 6 * (1 + unitRoundoff q) ^ n - 1) * ∑ i, |M i j| * |v i| := by
  have hu := unit_nonneg p
  have hU := unit_nonneg q
  unfold Rounded.denseTransposedMatvec
  cases rowMajor
  · simp only [Bool.false_eq_true, if_false]
    refine forRange_write_rel c hc (fun j x => |x - (Mᵀ *ᵥ v) j| ≤
      ((1 + unitRoundoff p) ^ 6 * (1 + unitRoundoff q) ^ n - 1) * ∑ i, |M i j| * |v i|) fun j => ?_
    obtain ⟨s, h1, h2⟩ := chunkedDot_fin hu hU (nearest_rel hp hD) (nearest_rel hq hL)
      (a := fun i => rd A (i + n * j.1)) (b := rd (Array.ofFn v)) (fun i => M i j) v
      (fun i => MatrixOps.dense_rd_col h i j) (fun i => rd_ofFn v i)
    refine ⟨flD s, (h2.cast hu (nearest_rel hp hD)).2, fun c' _ => ?_⟩
    rw [h1]
    rfl
  · simp only [if_true]
    refine forRange_write_rel c hc (fun j x => |x - (Mᵀ *ᵥ v) j| ≤
      ((1 + unitRoundoff p) ^ 6 * (1 + unitRoundoff q) ^ n - 1) * ∑ i, |M i j| * |v i|) fun j => ?_
    obtain ⟨s, h1, h2⟩ := plainDot_fin hu hU (nearest_rel hp hD) (nearest_rel hq hL)
      (a := fun i => rd A (i * m + j.1)) (b := rd (Array.ofFn v)) (fun i => M i j) v
      (fun i => MatrixOps.dense_rd_row h i j) (fun i => rd_ofFn v i)
    refine ⟨flD s, (h2.cast hu (nearest_rel hp hD)).2, fun c' _ => ?_⟩
    rw [h1]
    rfl

/-- C65: a product with a CSR matrix; `P` is the matrix of the absolute values of the entries. -/
theorem csr_matvec_accurate (hp : 1 ≤ p) (hq : 1 ≤ q) (hD : Nearest p flD) (hL : Nearest q flL) {data : Array ℝ}
    {indices ptr : Array ℕ} {M P : Matrix (Fin n) (Fin m) ℝ} (h : CSRRepr data indices ptr M)
    (hP : CSRRepr (data.map abs) indices ptr P) (v : Fin m → ℝ) (c : Array ℝ) (hc : c.size = n) :
    ∃ r : Fin n → ℝ, Rounded.csrMatvec flD flL data indices ptr (Array.ofFn v) n c = .ok (Array.ofFn r) ∧
      ∀ i : Fin n, |r i - (M *ᵥ v) i| ≤ ((1 + unitRoundoff p) ^ 2 *
        (1 + unitRoundoff q) ^ (ptr.getD (i.1 + 1) 0 - ptr.getD i.1 0) - 1) * ∑ j, P i j * |v j| := by
  have hu := unit_nonneg p
  have hU := unit_nonneg q
  unfold Rounded.csrMatvec
  refine forRange_write_rel c hc (fun i x => |x - (M *ᵥ v) i| ≤ ((1 + unitRoundoff p) ^ 2 *
    (1 + unitRoundoff q) ^ (ptr.getD (i.1 + 1) 0 - ptr.getD i.1 0) - 1) * ∑ j, P i j * |v j|) fun i => ?_
  obtain ⟨lo, hi, g1, g2, g3, g4, g5, g6⟩ := h.2.2 i
  obtain ⟨lo', hi', k1, k2, k3, k4, k5, k6⟩ := hP.2.2 i
  rw [g1, Option.some.injEq] at k1
  rw [g2, Option.some.injEq] at k2
  subst k1 k2
  obtain ⟨s, h1, h2⟩ := gather_approx hu hU (nearest_rel hp hD) (nearest_rel hq hL) g3 g4 g5 g6 k6 v
  refine ⟨flD s, ?_, fun c' _ => ?_⟩
  · rw [Array.getD_eq_getD_getElem?, Array.getD_eq_getD_getElem?, g1, g2]
    exact (h2.cast hu (nearest_rel hp hD)).2
  · rw [rd_ok g1, rd_ok g2]
    simp only [Except.ok_bind', h1]

/-- C65: the same for the transposed product with a CSC matrix. -/
theorem csc_transposed_matvec_accurate (hp : 1 ≤ p) (hq : 1 ≤ q) (hD : Nearest p flD) (hL : Nearest q flL)
    {data : Array ℝ} {indices ptr : Array ℕ} {M P : Matrix (Fin n) (Fin m) ℝ} (h : CSCRepr data indices ptr M)
    (hP : CSCRepr (data.map abs) indices ptr P) (v : Fin n → ℝ) (c : Array ℝ) (hc : c.size = m) :
    ∃ r : Fin m → ℝ, Rounded.cscTransposedMatvec flD flL data indices ptr (Array.ofFn v) m c = .ok (Array.ofFn r) ∧
      ∀ j : Fin m, |r j - (Mᵀ *ᵥ v) j| ≤ ((1 + unitRoundoff p) ^ 2 *
        (1 + unitRoundoff q) ^ (ptr.getD (j.1 + 1) 0 - ptr.getD j.1 0) - 1) * ∑ i, P i j * |v i| :=
  csr_matvec_accurate hp hq hD hL h hP v c hc

/-- C65 (part): the kernels that add to the result itself round in the precision of the data once per entry of the
row. -/
theorem csc_matvec_accurate_partial (hp : 1 ≤ p) (hD : Nearest p flD) {data : Array ℝ} {indices ptr : Array ℕ}
    {M P : Matrix (Fin n) (Fin m) ℝ} (h : CSCRepr data indices ptr M) (hP : CSCRepr (data.map abs) indices ptr P)
    (v : Fin m → ℝ) (c : Array ℝ) (hc : c.size = n) :
    ∃ r : Fin n → ℝ, Rounded.cscMatvec flD data indices ptr (Array.ofFn v) n m c = .ok (Array.ofFn r) ∧
      ∀ i : Fin n, |r i - (M *ᵥ v) i| ≤ ((1 + unitRoundoff p) ^
        (((Finset.range indices.size).filter fun k => indices[k]? = some i.1).card + 1) - 1) * ∑ j, P i j * |v j| := by
  unfold Rounded.cscMatvec
  rw [forRange_write_ofFn (body := fun i c => wr c i 0) c (fun _ : Fin n => (0 : ℝ)) hc fun i c' _ _ => rfl]
  simp only [Except.ok_bind']
  obtain ⟨r, h1, h2⟩ := scatterAll_approx (unit_nonneg p) (nearest_rel hp hD) h hP v
  exact ⟨r, h1, fun i => (h2 i).2⟩

/-- C65 (part): the same for the transposed product with a CSR matrix. -/
theorem csr_transposed_matvec_accurate_partial (hp : 1 ≤ p) (hD : Nearest p flD) {data : Array ℝ}
    {indices ptr : Array ℕ} {M P : Matrix (Fin n) (Fin m) ℝ} (h : CSRRepr data indices ptr M)
    (hP : CSRRepr (data.map abs) indices ptr P) (v : Fin n → ℝ) (c : Array ℝ) (hc : c.size = m) :
    ∃ r : Fin m → ℝ, Rounded.csrTransposedMatvec flD data indices ptr (Array.ofFn v) n m c = .ok (Array.ofFn r) ∧
      ∀ j : Fin m, |r j - (Mᵀ *ᵥ v) j| ≤ ((1 + unitRoundoff p) ^
        (((Finset.range indices.size).filter fun k => indices[k]? = some j.1).card + 1) - 1) * ∑ i, P i j * |v i| :=
  csc_matvec_accurate_partial hp hD (M := Mᵀ) (P := Pᵀ) h hP v c hc

/-- C65: the inner product. -/
theorem inner_product_accurate (hp : 1 ≤ p) (hq : 1 ≤ q) (hD : Nearest p flD) (hL : Nearest q flL) (x y : Fin n → ℝ) :
    ∃ r, Rounded.innerProduct flD flL (Array.ofFn x) (Array.ofFn y) n = .ok r ∧
      |r - x ⬝ᵥ y| ≤ ((1 + unitRoundoff p) ^ 6 * (1 + unitRoundoff q) ^ n - 1) * ∑ i, |x i| * |y i| := by
  have hu := unit_nonneg p
  have hU := unit_nonneg q
  unfold Rounded.innerProduct
  obtain ⟨s, h1, h2⟩ := chunkedDot_fin hu hU (nearest_rel hp hD) (nearest_rel hq hL) x y (fun j => rd_ofFn x j)
    (fun j => rd_ofFn y j)
  exact ⟨flD s, by rw [h1]; rfl, (h2.cast hu (nearest_rel hp hD)).2⟩

/-- C65: the norm has a small relative error. -/
theorem norm_accurate (hp : 1 ≤ p) (hq : 1 ≤ q) (hD : Nearest p flD) (hL : Nearest q flL) (x : Fin n → ℝ)
    (hg : (1 + unitRoundoff p) ^ 6 * (1 + unitRoundoff q) ^ n ≤ 2) :
    ∃ r, Rounded.euclideanNorm flD flL (Array.ofFn x) n = .ok r ∧
      |r - Real.sqrt (x ⬝ᵥ x)| ≤ ((1 + unitRoundoff p) ^ 7 * (1 + unitRoundoff q) ^ n - 1) * Real.sqrt (x ⬝ᵥ x) := by
  have hu := unit_nonneg p
  have hU := unit_nonneg q
  unfold Rounded.euclideanNorm
  obtain ⟨s, h1, h2⟩ := chunkedDot_fin hu hU (nearest_rel hp hD) (nearest_rel hq hL) x x (fun j => rd_ofFn x j)
    (fun j => rd_ofFn x j)
  refine ⟨_, by rw [h1]; rfl, ?_⟩
  have h3 := (h2.cast hu (nearest_rel hp hD)).2
  have e1 : ∑ j, x j * x j = x ⬝ᵥ x := rfl
  have e2 : ∑ j, |x j| * |x j| = x ⬝ᵥ x := by
    simp only [abs_mul_abs_self]; rfl
  rw [e1, e2] at h3
  set N := x ⬝ᵥ x with hN
  have hN0 : 0 ≤ N := Finset.sum_nonneg fun i _ => mul_self_nonneg (x i)
  set G := (1 + unitRoundoff p) ^ (5 + 1) * (1 + unitRoundoff q) ^ n with hG
  have hG1 : 1 ≤ G := one_le_mul_of_one_le_of_one_le (one_le_pow₀ (by linarith)) (one_le_pow₀ (by linarith))
  have hG2 : G ≤ 2 := hg
  set y := flD s with hy
  have hy0 : 0 ≤ y := by
    have := (abs_le.1 h3).1
    nlinarith
  have h4 : |Real.sqrt y - Real.sqrt N| ≤ (G - 1) * Real.sqrt N := by
    rcases eq_or_lt_of_le hN0 with h0 | hpos
    · rw [← h0] at h3 ⊢
      simp only [sub_zero, mul_zero] at h3
      rw [abs_nonpos_iff.1 h3]
      simp
    · have hsN : 0 < Real.sqrt N := Real.sqrt_pos.2 hpos
      have hsy : 0 ≤ Real.sqrt y := Real.sqrt_nonneg y
      have e3 : (Real.sqrt y - Real.sqrt N) * (Real.sqrt y + Real.sqrt N) = y - N := by
        have := Real.mul_self_sqrt hy0
        have := Real.mul_self_sqrt hN0
        nlinarith
      have h5 : |Real.sqrt y - Real.sqrt N| * (Real.sqrt y + Real.sqrt N) ≤ (G - 1) * N := by
        rw [← abs_of_nonneg (by linarith : 0 ≤ Real.sqrt y + Real.sqrt N), ← abs_mul, e3]
        exact h3
      have h6 : |Real.sqrt y - Real.sqrt N| * Real.sqrt N ≤ (G - 1) * N := by
        have := mul_nonneg (abs_nonneg (Real.sqrt y - Real.sqrt N)) hsy
        nlinarith
      have h7 : (G - 1) * N = (G - 1) * Real.sqrt N * Real.sqrt N := by
        rw [mul_assoc, Real.mul_self_sqrt hN0]
      rw [h7] at h6
      exact le_of_mul_le_mul_right h6 hsN
  have hA : Approx G (Real.sqrt N) (Real.sqrt N) (Real.sqrt y) :=
    ⟨by rw [abs_of_nonneg (Real.sqrt_nonneg N)], h4⟩
  have := (hA.round hu (nearest_rel hp hD)).2
  rw [hG] at this
  rw [show (1 + unitRoundoff p) ^ 7 * (1 + unitRoundoff q) ^ n =
    (1 + unitRoundoff p) ^ (5 + 1) * (1 + unitRoundoff q) ^ n * (1 + unitRoundoff p) by ring]
  exact this

end

/-! ## Numbers -/

theorem pow_small {U : ℝ} (hU : 0 ≤ U) : ∀ N : ℕ, N * U ≤ 1 / 2 → (1 + U) ^ N ≤ 1 + 2 * (N * U) := by
  intro N
  induction N with
  | zero => intro _; simp
  | succ N ih =>
    intro h
    push_cast at h ⊢
    have h1 : N * U ≤ 1 / 2 := by nlinarith
    have h2 := ih h1
    have h3 : 0 ≤ (N : ℝ) * U := by positivity
    rw [pow_succ]
    nlinarith

/-- C65: in single precision, with an x87 `long double`, a dense product with up to `2^31` columns has an error below
`7 * 2^(-24)` relative to the product of the absolute values, whatever the number of columns. -/
theorem dense_matvec_single {n m : ℕ} (hm : m ≤ 2 ^ 31) {flD flL : ℝ → ℝ} (hD : Nearest 24 flD) (hL : Nearest 64 flL)
    {A : Array ℝ} {M : Matrix (Fin n) (Fin m) ℝ} {rowMajor : Bool} (h : DenseRepr rowMajor A M) (v : Fin m → ℝ)
    (c : Array ℝ) (hc : c.size = n) :
    ∃ r : Fin n → ℝ, Rounded.denseMatvec flD flL A (Array.ofFn v) n m rowMajor c = .ok (Array.ofFn r) ∧
      ∀ i, |r i - (M *ᵥ v) i| ≤ 7 / 2 ^ 24 * ∑ j, |M i j| * |v j| := by
  obtain ⟨r, h1, h2⟩ := dense_matvec_accurate (by norm_num) (by norm_num) hD hL h v c hc
  refine ⟨r, h1, fun i => (h2 i).trans ?_⟩
  apply mul_le_mul_of_nonneg_right _ (Finset.sum_nonneg fun j _ => by positivity)
  have u1 : unitRoundoff 24 = 1 / 16777216 := by unfold unitRoundoff; norm_num
  have u2 : unitRoundoff 64 = 1 / 18446744073709551616 := by unfold unitRoundoff; norm_num
  have hmr : (m : ℝ) ≤ 2147483648 := by exact_mod_cast hm
  have h3 := pow_small (unit_nonneg 64) m (by rw [u2]; linarith)
  rw [u1]
  rw [u2] at h3 ⊢
  have h4 : (1 + 1 / 18446744073709551616 : ℝ) ^ m ≤ 1 + 2 * (2147483648 * (1 / 18446744073709551616)) := by
    refine h3.trans ?_
    linarith
  have h5 : (1 + 1 / 16777216 : ℝ) ^ 6 * (1 + 1 / 18446744073709551616) ^ m ≤
      (1 + 1 / 16777216 : ℝ) ^ 6 * (1 + 2 * (2147483648 * (1 / 18446744073709551616))) :=
    mul_le_mul_of_nonneg_left h4 (by positivity)
  have h6 : (1 + 1 / 16777216 : ℝ) ^ 6 * (1 + 2 * (2147483648 * (1 / 18446744073709551616))) - 1 ≤ 7 / 2 ^ 24 := by
    norm_num
  linarith

/-! ## Stagnation -/

/-- The CSC arrays of a row of `N` ones. -/
theorem ones_csc (N : ℕ) : CSCRepr (Array.replicate N (1 : ℝ)) (Array.replicate N 0) (Array.ofFn fun i : Fin (N + 1) => i.1)
    (fun (_ : Fin 1) (_ : Fin N) => (1 : ℝ)) := by
  refine ⟨by simp, by simp, fun j => ⟨j.1, j.1 + 1, by simp, by simp, by omega, by simp, fun k h1 h2 =>
    ⟨0, by omega, by rw [Array.getElem?_replicate, if_pos (by omega)]⟩, fun i => ?_⟩⟩
  have : i = 0 := Subsingleton.elim _ _
  subst this
  simp [Array.getD]
  rfl

/-- The CSR arrays of the same matrix. -/
theorem ones_csr (N : ℕ) : CSRRepr (Array.replicate N (1 : ℝ)) (Array.ofFn fun i : Fin N => i.1) #[0, N]
    (fun (_ : Fin 1) (_ : Fin N) => (1 : ℝ)) := by
  refine ⟨rfl, by simp, fun i => ⟨0, N, ?_, ?_, Nat.zero_le _, by simp, fun k _ hk => ⟨k, hk, by simp [hk]⟩,
    fun j => ?_⟩⟩
  · have : i = 0 := Subsingleton.elim _ _
    subst this; rfl
  · have : i = 0 := Subsingleton.elim _ _
    subst this; rfl
  · rw [Finset.sum_eq_single j.1]
    · simp [Array.getD]
    · intro k hk hne
      simp only [Finset.mem_Ico] at hk
      simp [hk.2, hne]
    · intro hk
      exact absurd (Finset.mem_Ico.2 ⟨Nat.zero_le _, j.2⟩) hk

/-- C65 refuted for the kernels that add to the result: for every precision of the data and every rounding to nearest,
the product of a CSC row of `N` ones with a vector of ones never exceeds `2^(p+1)`, although it is `N`. -/
theorem csc_matvec_stagnates {p : ℕ} (hp : 1 ≤ p) {flD : ℝ → ℝ} (hD : Nearest p flD) (N : ℕ) (c : Array ℝ)
    (hc : c.size = 1) :
    (((fun (_ : Fin 1) (_ : Fin N) => (1 : ℝ)) : Matrix (Fin 1) (Fin N) ℝ) *ᵥ fun _ => 1) 0 = N ∧
    ∃ r : ℝ, Rounded.cscMatvec flD (Array.replicate N 1) (Array.replicate N 0) (Array.ofFn fun i : Fin (N + 1) => i.1)
      (Array.ofFn fun _ : Fin N => 1) 1 N c = .ok #[r] ∧ r ≤ 2 ^ (p + 1) := by
  constructor
  · simp [Matrix.mulVec, dotProduct]
  · unfold Rounded.cscMatvec
    rw [forRange_write_ofFn (body := fun i c => wr c i 0) c (fun _ : Fin 1 => (0 : ℝ)) hc fun i c' _ _ => rfl]
    simp only [Except.ok_bind']
    obtain ⟨c', h1, r, h2, h3⟩ := forRange_inv (body := fun column c => do
        scatter flD (Array.replicate N 1) (Array.replicate N 0) (Array.ofFn fun _ : Fin N => 1) column
          (← rd (Array.ofFn fun i : Fin (N + 1) => i.1) column)
          (← rd (Array.ofFn fun i : Fin (N + 1) => i.1) (column + 1)) c)
      (fun _ c' => ∃ r : ℝ, c' = #[r] ∧ r ≤ 2 ^ (p + 1)) (Nat.zero_le N) (Array.ofFn fun _ : Fin 1 => (0 : ℝ))
      ⟨0, rfl, by positivity⟩ (by
        rintro k _ hk s ⟨r, rfl, hr⟩
        have e1 : rd (Array.ofFn fun i : Fin (N + 1) => i.1) k = .ok k :=
          rd_ofFn (fun i : Fin (N + 1) => i.1) ⟨k, by omega⟩
        have e2 : rd (Array.ofFn fun i : Fin (N + 1) => i.1) (k + 1) = .ok (k + 1) :=
          rd_ofFn (fun i : Fin (N + 1) => i.1) ⟨k + 1, by omega⟩
        have e3 : rd (Array.replicate N (1 : ℝ)) k = .ok 1 := rd_ok (by simp [hk])
        have e4 : rd (Array.replicate N 0) k = .ok 0 := rd_ok (by simp [hk])
        have e5 : rd (Array.ofFn fun _ : Fin N => (1 : ℝ)) k = .ok 1 := rd_ofFn (fun _ : Fin N => (1 : ℝ)) ⟨k, hk⟩
        have e6 : rd #[r] 0 = .ok r := rfl
        refine ⟨#[flD (r + 1)], ?_, flD (r + 1), rfl, stagnate hp hD hr⟩
        simp only [e1, e2, Except.ok_bind', scatter, forRange, Nat.add_sub_cancel_left, loopN, e3, e4, e5, e6, times,
          mul_one, nearest_one hp hD]
        rfl)
    exact ⟨r, by rw [h1, h2], h3⟩

/-- The CSR arrays give `N` with a small relative error. -/
theorem csr_matvec_ones {flD flL : ℝ → ℝ} (hD : Nearest 24 flD) (hL : Nearest 64 flL) {N : ℕ} (hN : N ≤ 67108864)
    (c : Array ℝ) (hc : c.size = 1) :
    ∃ r : ℝ, Rounded.csrMatvec flD flL (Array.replicate N 1) (Array.ofFn fun i : Fin N => i.1) #[0, N]
      (Array.ofFn fun _ : Fin N => 1) 1 c = .ok #[r] ∧ |r - N| ≤ 1 / 4194304 * N := by
  have habs : (Array.replicate N (1 : ℝ)).map abs = Array.replicate N 1 := by
    rw [Array.map_replicate, abs_one]
  obtain ⟨r, h3, h4⟩ := csr_matvec_accurate (by norm_num) (by norm_num) hD hL (ones_csr N)
    (by rw [habs]; exact ones_csr N) (fun _ => 1) c hc
  refine ⟨r 0, ?_, ?_⟩
  · rw [h3]
    rfl
  · have h5 := h4 0
    have e1 : ((#[0, N] : Array ℕ).getD ((0 : Fin 1).1 + 1) 0 - (#[0, N] : Array ℕ).getD (0 : Fin 1).1 0) = N := rfl
    have e2 : (((fun (_ : Fin 1) (_ : Fin N) => (1 : ℝ)) : Matrix (Fin 1) (Fin N) ℝ) *ᵥ fun _ => 1) 0 = N := by
      simp [Matrix.mulVec, dotProduct]
    have e3 : ∑ j : Fin N, (1 : ℝ) * |(1 : ℝ)| = N := by simp
    rw [e1, e2, e3] at h5
    have u1 : unitRoundoff 24 = 1 / 16777216 := by unfold unitRoundoff; norm_num
    have u2 : unitRoundoff 64 = 1 / 18446744073709551616 := by unfold unitRoundoff; norm_num
    have hNr : (N : ℝ) ≤ 67108864 := by exact_mod_cast hN
    have h6 := pow_small (unit_nonneg 64) N (by rw [u2]; linarith)
    have h7 : (1 + unitRoundoff 64) ^ N ≤ 1 + 1 / 16777216 := by
      refine h6.trans ?_
      rw [u2]
      linarith
    refine h5.trans (mul_le_mul_of_nonneg_right ?_ (Nat.cast_nonneg N))
    rw [u1]
    generalize (1 + unitRoundoff 64) ^ N = X at h7
    have h8 : (1 + 1 / 16777216 : ℝ) ^ 2 * X ≤ (1 + 1 / 16777216) ^ 2 * (1 + 1 / 16777216) :=
      mul_le_mul_of_nonneg_left h7 (by positivity)
    have h9 : (1 + 1 / 16777216 : ℝ) ^ 2 * (1 + 1 / 16777216) - 1 ≤ 1 / 4194304 := by norm_num
    linarith

/-- C65, C03 refuted in single precision: for `N` up to `2^26`, the CSC and the CSR arrays of the same row of `N` ones
give products with the vector of ones of which the first is at most `2^25` and the second is almost `N`. -/
theorem csc_csr_differ_single {flD flL : ℝ → ℝ} (hD : Nearest 24 flD) (hL : Nearest 64 flL) {N : ℕ}
    (hN : N ≤ 67108864) :
    ∃ (M : Matrix (Fin 1) (Fin N) ℝ) (data : Array ℝ) (rowIdx colPtr colIdx rowPtr : Array ℕ) (r1 r2 : ℝ),
      CSCRepr data rowIdx colPtr M ∧ CSRRepr data colIdx rowPtr M ∧
      Rounded.cscMatvec flD data rowIdx colPtr (Array.ofFn fun _ : Fin N => 1) 1 N #[0] = .ok #[r1] ∧
      Rounded.csrMatvec flD flL data colIdx rowPtr (Array.ofFn fun _ : Fin N => 1) 1 #[0] = .ok #[r2] ∧
      r1 ≤ 33554432 ∧ (1 - 1 / 4194304) * (N : ℝ) ≤ r2 := by
  obtain ⟨-, r1, h1, h2⟩ := csc_matvec_stagnates (by norm_num) hD N #[0] rfl
  obtain ⟨r2, h3, h4⟩ := csr_matvec_ones hD hL hN #[0] rfl
  refine ⟨_, _, _, _, _, _, r1, r2, ones_csc N, ones_csr N, h1, h3, ?_, ?_⟩
  · norm_num at h2
    exact h2
  · have := (abs_le.1 h4).1
    linarith

/-- `N = 2^26` is allowed: the products are at most `2^25` and at least `2^26 - 16`. -/
example : (67108864 : ℕ) ≤ 67108864 ∧ (67108848 : ℝ) ≤ (1 - 1 / 4194304) * 67108864 ∧ (2 : ℝ) ^ 25 = 33554432 := by
  norm_num

end Imate.Props
