import Mathlib.LinearAlgebra.Matrix.Notation
import Verif.Lemmas.RoundedPlus
import Verif.Props.Rounded

/-!
# C65: accuracy of the kernels that add a multiple, and of products with `A + t B`
-/

namespace Imate.Props

open Matrix Spec Rounded

private theorem unit_nonneg' (p : ℕ) : 0 ≤ unitRoundoff p := by unfold unitRoundoff; positivity

section

variable {p q : ℕ} {flD flL : ℝ → ℝ} {n m : ℕ}

private theorem unchanged {k : ℕ} {w G : Fin k → ℝ} (s T : Fin k → ℝ) (hG : ∀ i, 1 ≤ G i) :
    ∃ r : Fin k → ℝ, (Except.ok (Array.ofFn w) : Except Fault (Array ℝ)) = .ok (Array.ofFn r) ∧
      ∀ i, |r i - (w i + 0 * s i)| ≤ (G i - 1) * (|w i| + |(0 : ℝ)| * T i) :=
  ⟨w, rfl, fun i => by
    rw [zero_mul, add_zero, sub_self, abs_zero, zero_mul, add_zero]
    exact mul_nonneg (by linarith [hG i]) (abs_nonneg _)⟩

private theorem dense_plus_rel (hp : 1 ≤ p) (hq : 1 ≤ q) (hD : Nearest p flD) (hL : Nearest q flL)
    {A : Array ℝ} {M : Matrix (Fin n) (Fin m) ℝ} {rowMajor : Bool} (h : DenseRepr rowMajor A M) (v : Fin m → ℝ)
    {alpha : ℝ} (ha : alpha ≠ 0) {S T w : Fin n → ℝ}
    (hw : ∀ i, Approx ((1 + unitRoundoff p) ^ (5 + 2) * (1 + unitRoundoff q) ^ m) (S i) (T i) (w i)) :
    ∃ r : Fin n → ℝ, Rounded.denseMatvecPlus flD flL A (Array.ofFn v) alpha n m rowMajor (Array.ofFn w) =
        .ok (Array.ofFn r) ∧
      ∀ i, Approx ((1 + unitRoundoff p) ^ 8 * (1 + unitRoundoff q) ^ m) (S i + alpha * (M *ᵥ v) i)
        (T i + |alpha| * ∑ j, |M i j| * |v j|) (r i) := by
  have hu := unit_nonneg' p
  have hU := unit_nonneg' q
  unfold Rounded.denseMatvecPlus
  simp only [ha, if_false]
  cases rowMajor
  · simp only [Bool.false_eq_true, if_false]
    refine forRange_update_rel w _ fun i => ?_
    obtain ⟨s, h1, h2⟩ := plainDot_fin hu hU (nearest_rel hp hD) (nearest_rel hq hL)
      (a := fun j => rd A (i.1 + n * j)) (b := rd (Array.ofFn v)) (fun j => M i j) v
      (fun j => MatrixOps.dense_rd_col h i j) (fun j => rd_ofFn v j)
    refine ⟨_, Approx.plus hu hU (nearest_rel hp hD) alpha (hw i) h2, fun c' _ hc => ?_⟩
    rw [h1, hc]
    rfl
  · simp only [if_true]
    refine forRange_update_rel w _ fun i => ?_
    obtain ⟨s, h1, h2⟩ := chunkedDot_fin hu hU (nearest_rel hp hD) (nearest_rel hq hL)
      (a := fun j => rd A (i.1 * m + j)) (b := rd (Array.ofFn v)) (fun j => M i j) v
      (fun j => MatrixOps.dense_rd_row h i j) (fun j => rd_ofFn v j)
    refine ⟨_, Approx.plus hu hU (nearest_rel hp hD) alpha (hw i) h2, fun c' _ hc => ?_⟩
    rw [h1, hc]
    rfl

/-- C65: `c = c + alpha * A * b` with a dense matrix in either layout. -/
theorem dense_matvec_plus_accurate (hp : 1 ≤ p) (hq : 1 ≤ q) (hD : Nearest p flD) (hL : Nearest q flL)
    {A : Array ℝ} {M : Matrix (Fin n) (Fin m) ℝ} {rowMajor : Bool} (h : DenseRepr rowMajor A M) (v : Fin m → ℝ)
    (alpha : ℝ) (w : Fin n → ℝ) :
    ∃ r : Fin n → ℝ, Rounded.denseMatvecPlus flD flL A (Array.ofFn v) alpha n m rowMajor (Array.ofFn w) =
        .ok (Array.ofFn r) ∧
      ∀ i, |r i - (w i + alpha * (M *ᵥ v) i)| ≤ ((1 + unitRoundoff p) ^ 8 * (1 + unitRoundoff q) ^ m - 1) *
        (|w i| + |alpha| * ∑ j, |M i j| * |v j|) := by
  have hG := one_le_G (unit_nonneg' p) (unit_nonneg' q)
  by_cases ha : alpha = 0
  · subst ha
    unfold Rounded.denseMatvecPlus
    simp only [if_true]
    exact unchanged _ _ fun _ => hG _ _
  · obtain ⟨r, h1, h2⟩ := dense_plus_rel hp hq hD hL h v ha (S := w) (T := fun i => |w i|) (w := w)
      fun i => approx_self (hG _ _)
    exact ⟨r, h1, fun i => (h2 i).2⟩

/-- C65: the same for the transposed product. -/
theorem dense_transposed_matvec_plus_accurate (hp : 1 ≤ p) (hq : 1 ≤ q) (hD : Nearest p flD) (hL : Nearest q flL)
    {A : Array ℝ} {M : Matrix (Fin n) (Fin m) ℝ} {rowMajor : Bool} (h : DenseRepr rowMajor A M) (v : Fin n → ℝ)
    (alpha : ℝ) (w : Fin m → ℝ) :
    ∃ r : Fin m → ℝ, Rounded.denseTransposedMatvecPlus flD flL A (Array.ofFn v) alpha n m rowMajor (Array.ofFn w) =
        .ok (Array.ofFn r) ∧
      ∀ j, |r j - (w j + alpha * (Mᵀ *ᵥ v) j)| ≤ ((1 + unitRoundoff p) ^ 8 * (1 + unitRoundoff q) ^ n - 1) *
        (|w j| + |alpha| * ∑ i, |M i j| * |v i|) := by
  have hu := unit_nonneg' p
  have hU := unit_nonneg' q
  have hG := one_le_G hu hU
  unfold Rounded.denseTransposedMatvecPlus
  by_cases ha : alpha = 0
  · subst ha
    simp only [if_true]
    exact unchanged _ _ fun _ => hG _ _
  simp only [ha, if_false]
  cases rowMajor
  · simp only [Bool.false_eq_true, if_false]
    refine forRange_update_rel w (fun j x => |x - (w j + alpha * (Mᵀ *ᵥ v) j)| ≤
      ((1 + unitRoundoff p) ^ 8 * (1 + unitRoundoff q) ^ n - 1) * (|w j| + |alpha| * ∑ i, |M i j| * |v i|)) fun j => ?_
    obtain ⟨s, h1, h2⟩ := chunkedDot_fin hu hU (nearest_rel hp hD) (nearest_rel hq hL)
      (a := fun i => rd A (i + n * j.1)) (b := rd (Array.ofFn v)) (fun i => M i j) v
      (fun i => MatrixOps.dense_rd_col h i j) (fun i => rd_ofFn v i)
    refine ⟨_, (Approx.plus hu hU (nearest_rel hp hD) alpha (approx_self (hG _ _)) h2).2, fun c' _ hc => ?_⟩
    rw [h1, hc]
    rfl
  · simp only [if_true]
    refine forRange_update_rel w (fun j x => |x - (w j + alpha * (Mᵀ *ᵥ v) j)| ≤
      ((1 + unitRoundoff p) ^ 8 * (1 + unitRoundoff q) ^ n - 1) * (|w j| + |alpha| * ∑ i, |M i j| * |v i|)) fun j => ?_
    obtain ⟨s, h1, h2⟩ := plainDot_fin hu hU (nearest_rel hp hD) (nearest_rel hq hL)
      (a := fun i => rd A (i * m + j.1)) (b := rd (Array.ofFn v)) (fun i => M i j) v
      (fun i => MatrixOps.dense_rd_row h i j) (fun i => rd_ofFn v i)
    refine ⟨_, (Approx.plus hu hU (nearest_rel hp hD) alpha (approx_self (hG _ _)) h2).2, fun c' _ hc => ?_⟩
    rw [h1, hc]
    rfl

/-- Number of entries stored for a compressed row. -/
private theorem stored {ptr : Array ℕ} {i lo hi : ℕ} (g1 : ptr[i]? = some lo) (g2 : ptr[i + 1]? = some hi) :
    ptr.getD (i + 1) 0 - ptr.getD i 0 = hi - lo := by
  rw [Array.getD_eq_getD_getElem?, Array.getD_eq_getD_getElem?, g1, g2]
  rfl

private theorem csr_plus_rel (hp : 1 ≤ p) (hq : 1 ≤ q) (hD : Nearest p flD) (hL : Nearest q flL) {data : Array ℝ}
    {indices ptr : Array ℕ} {M P : Matrix (Fin n) (Fin m) ℝ} (h : CSRRepr data indices ptr M)
    (hP : CSRRepr (data.map abs) indices ptr P) (v : Fin m → ℝ) {alpha : ℝ} (ha : alpha ≠ 0) {S T w : Fin n → ℝ}
    (e : Fin n → ℕ) (he : ∀ i : Fin n, ptr.getD (i.1 + 1) 0 - ptr.getD i.1 0 ≤ e i)
    (hw : ∀ i, Approx ((1 + unitRoundoff p) ^ (1 + 2) * (1 + unitRoundoff q) ^ e i) (S i) (T i) (w i)) :
    ∃ r : Fin n → ℝ, Rounded.csrMatvecPlus flD flL data indices ptr (Array.ofFn v) alpha n (Array.ofFn w) =
        .ok (Array.ofFn r) ∧
      ∀ i : Fin n, Approx ((1 + unitRoundoff p) ^ 4 * (1 + unitRoundoff q) ^ e i) (S i + alpha * (M *ᵥ v) i)
        (T i + |alpha| * ∑ j, P i j * |v j|) (r i) := by
  have hu := unit_nonneg' p
  have hU := unit_nonneg' q
  unfold Rounded.csrMatvecPlus
  simp only [ha, if_false]
  refine forRange_update_rel w _ fun i => ?_
  obtain ⟨lo, hi, g1, g2, g3, g4, g5, g6⟩ := h.2.2 i
  obtain ⟨lo', hi', k1, k2, k3, k4, k5, k6⟩ := hP.2.2 i
  rw [g1, Option.some.injEq] at k1
  rw [g2, Option.some.injEq] at k2
  subst k1 k2
  obtain ⟨s, h1, h2⟩ := gather_approx hu hU (nearest_rel hp hD) (nearest_rel hq hL) g3 g4 g5 g6 k6 v
  have h3 := h2.weaken (G' := (1 + unitRoundoff p) ^ 1 * (1 + unitRoundoff q) ^ e i)
    (mul_le_mul_of_nonneg_left (pow_le_pow_right₀ (by linarith) (by rw [← stored g1 g2]; exact he i)) (by positivity))
  refine ⟨_, Approx.plus hu hU (nearest_rel hp hD) alpha (hw i) h3, fun c' _ hc => ?_⟩
  rw [rd_ok g1, rd_ok g2]
  simp only [Except.ok_bind', h1, hc]

/-- C65: `c = c + alpha * A * b` with a CSR matrix; `P` is the matrix of the absolute values of the entries. -/
theorem csr_matvec_plus_accurate (hp : 1 ≤ p) (hq : 1 ≤ q) (hD : Nearest p flD) (hL : Nearest q flL) {data : Array ℝ}
    {indices ptr : Array ℕ} {M P : Matrix (Fin n) (Fin m) ℝ} (h : CSRRepr data indices ptr M)
    (hP : CSRRepr (data.map abs) indices ptr P) (v : Fin m → ℝ) (alpha : ℝ) (w : Fin n → ℝ) :
    ∃ r : Fin n → ℝ, Rounded.csrMatvecPlus flD flL data indices ptr (Array.ofFn v) alpha n (Array.ofFn w) =
        .ok (Array.ofFn r) ∧
      ∀ i : Fin n, |r i - (w i + alpha * (M *ᵥ v) i)| ≤ ((1 + unitRoundoff p) ^ 4 *
        (1 + unitRoundoff q) ^ (ptr.getD (i.1 + 1) 0 - ptr.getD i.1 0) - 1) *
        (|w i| + |alpha| * ∑ j, P i j * |v j|) := by
  have hG := one_le_G (unit_nonneg' p) (unit_nonneg' q)
  by_cases ha : alpha = 0
  · subst ha
    unfold Rounded.csrMatvecPlus
    simp only [if_true]
    exact unchanged _ _ fun _ => hG _ _
  · obtain ⟨r, h1, h2⟩ := csr_plus_rel hp hq hD hL h hP v ha (S := w) (T := fun i => |w i|) (w := w) _
      (fun i => le_rfl) fun i => approx_self (hG _ _)
    exact ⟨r, h1, fun i => (h2 i).2⟩

/-- C65: `c = c + alpha * Aᵀ * b` with a CSC matrix; here the sum is scaled before it is cast. -/
theorem csc_transposed_matvec_plus_accurate (hp : 1 ≤ p) (hq : 1 ≤ q) (hD : Nearest p flD) (hL : Nearest q flL)
    {data : Array ℝ} {indices ptr : Array ℕ} {M P : Matrix (Fin n) (Fin m) ℝ} (h : CSCRepr data indices ptr M)
    (hP : CSCRepr (data.map abs) indices ptr P) (v : Fin n → ℝ) (alpha : ℝ) (w : Fin m → ℝ) :
    ∃ r : Fin m → ℝ, Rounded.cscTransposedMatvecPlus flD flL data indices ptr (Array.ofFn v) alpha m (Array.ofFn w) =
        .ok (Array.ofFn r) ∧
      ∀ j : Fin m, |r j - (w j + alpha * (Mᵀ *ᵥ v) j)| ≤ ((1 + unitRoundoff p) ^ 3 *
        (1 + unitRoundoff q) ^ (ptr.getD (j.1 + 1) 0 - ptr.getD j.1 0 + 1) - 1) *
        (|w j| + |alpha| * ∑ i, P i j * |v i|) := by
  have hu := unit_nonneg' p
  have hU := unit_nonneg' q
  have hG := one_le_G hu hU
  unfold Rounded.cscTransposedMatvecPlus
  by_cases ha : alpha = 0
  · subst ha
    simp only [if_true]
    exact unchanged _ _ fun _ => hG _ _
  simp only [ha, if_false]
  refine forRange_update_rel w (fun j x => |x - (w j + alpha * (Mᵀ *ᵥ v) j)| ≤ ((1 + unitRoundoff p) ^ 3 *
    (1 + unitRoundoff q) ^ (ptr.getD (j.1 + 1) 0 - ptr.getD j.1 0 + 1) - 1) *
    (|w j| + |alpha| * ∑ i, P i j * |v i|)) fun j => ?_
  obtain ⟨lo, hi, g1, g2, g3, g4, g5, g6⟩ := h.2.2 j
  obtain ⟨lo', hi', k1, k2, k3, k4, k5, k6⟩ := hP.2.2 j
  rw [g1, Option.some.injEq] at k1
  rw [g2, Option.some.injEq] at k2
  subst k1 k2
  obtain ⟨s, h1, h2⟩ := gather_approx hu hU (nearest_rel hp hD) (nearest_rel hq hL) g3 g4 g5 g6 k6 v
  have h3 := (h2.smul alpha).round hU (nearest_rel hq hL)
  rw [mul_assoc, ← pow_succ] at h3
  have h4 := ((approx_self (x := w j) (hG 2 (hi - lo + 1))).add (h3.cast hu (nearest_rel hp hD))).cast hu
    (nearest_rel hp hD)
  rw [stored g1 g2]
  refine ⟨_, h4.2, fun c' _ hc => ?_⟩
  rw [rd_ok g1, rd_ok g2]
  simp only [Except.ok_bind', h1, hc]
  rfl

/-- C65 (part): the kernels that scatter round in the precision of the data once per entry of the row. -/
theorem csc_matvec_plus_accurate_partial (hp : 1 ≤ p) (hD : Nearest p flD) {data : Array ℝ} {indices ptr : Array ℕ}
    {M P : Matrix (Fin n) (Fin m) ℝ} (h : CSCRepr data indices ptr M) (hP : CSCRepr (data.map abs) indices ptr P)
    (v : Fin m → ℝ) (alpha : ℝ) (w : Fin n → ℝ) :
    ∃ r : Fin n → ℝ, Rounded.cscMatvecPlus flD data indices ptr (Array.ofFn v) alpha m (Array.ofFn w) =
        .ok (Array.ofFn r) ∧
      ∀ i : Fin n, |r i - (w i + alpha * (M *ᵥ v) i)| ≤ ((1 + unitRoundoff p) ^
        (((Finset.range indices.size).filter fun k => indices[k]? = some i.1).card + 2) - 1) *
        (|w i| + |alpha| * ∑ j, P i j * |v j|) := by
  have hu := unit_nonneg' p
  unfold Rounded.cscMatvecPlus
  by_cases ha : alpha = 0
  · subst ha
    simp only [if_true]
    exact unchanged _ _ fun _ => one_le_pow₀ (by linarith)
  simp only [ha, if_false]
  obtain ⟨r, h1, h2⟩ := scatterAllPlus_approx hu (nearest_rel hp hD) h hP v alpha (e := 2) le_rfl (S := w)
    (T := fun i => |w i|) (w := w) fun j => approx_self (one_le_pow₀ (by linarith))
  exact ⟨r, h1, fun i => (h2 i).2⟩

/-- C65 (part): the same for the transposed product with a CSR matrix. -/
theorem csr_transposed_matvec_plus_accurate_partial (hp : 1 ≤ p) (hD : Nearest p flD) {data : Array ℝ}
    {indices ptr : Array ℕ} {M P : Matrix (Fin n) (Fin m) ℝ} (h : CSRRepr data indices ptr M)
    (hP : CSRRepr (data.map abs) indices ptr P) (v : Fin n → ℝ) (alpha : ℝ) (w : Fin m → ℝ) :
    ∃ r : Fin m → ℝ, Rounded.csrTransposedMatvecPlus flD data indices ptr (Array.ofFn v) alpha n (Array.ofFn w) =
        .ok (Array.ofFn r) ∧
      ∀ j : Fin m, |r j - (w j + alpha * (Mᵀ *ᵥ v) j)| ≤ ((1 + unitRoundoff p) ^
        (((Finset.range indices.size).filter fun k => indices[k]? = some j.1).card + 2) - 1) *
        (|w j| + |alpha| * ∑ i, P i j * |v i|) :=
  csc_matvec_plus_accurate_partial hp hD (M := Mᵀ) (P := Pᵀ) h hP v alpha w

/-- C65: `b = b - scale * a`. -/
theorem subtract_scaled_accurate (hp : 1 ≤ p) (hD : Nearest p flD) (a b : Fin n → ℝ) (scale : ℝ) :
    ∃ r : Fin n → ℝ, Rounded.subtractScaledVector flD (Array.ofFn a) n scale (Array.ofFn b) = .ok (Array.ofFn r) ∧
      ∀ i, |r i - (b i - scale * a i)| ≤ ((1 + unitRoundoff p) ^ 2 - 1) * (|b i| + |scale * a i|) := by
  have hu := unit_nonneg' p
  have h1 : 1 ≤ 1 + unitRoundoff p := by linarith
  unfold Rounded.subtractScaledVector
  by_cases hs : scale = 0
  · subst hs
    simp only [if_true]
    refine ⟨b, rfl, fun i => ?_⟩
    rw [zero_mul, sub_zero, sub_self, abs_zero]
    exact mul_nonneg (by linarith [one_le_pow₀ (n := 2) h1]) (by positivity)
  simp only [hs, if_false]
  refine forRange_update_rel b (fun i x => |x - (b i - scale * a i)| ≤
    ((1 + unitRoundoff p) ^ 2 - 1) * (|b i| + |scale * a i|)) fun i => ?_
  have h2 := (approx_times hu (nearest_rel hp hD) scale (a i)).smul (-1)
  have h3 := ((approx_self (x := b i) h1).add h2).round hu (nearest_rel hp hD)
  rw [abs_neg, abs_one, one_mul, neg_one_mul, neg_one_mul, ← sub_eq_add_neg, ← sub_eq_add_neg, ← pow_two] at h3
  refine ⟨_, h3.2, fun c' _ hc => ?_⟩
  rw [hc, rd_ofFn a i]
  rfl

/-- C65: normalization: the norm and every element of the unit vector have small relative errors. -/
theorem normalize_accurate (hp : 1 ≤ p) (hq : 1 ≤ q) (hD : Nearest p flD) (hL : Nearest q flL) (x : Fin n → ℝ)
    (hx : x ≠ 0) (hg : (1 + unitRoundoff p) ^ 7 * (1 + unitRoundoff q) ^ n < 2) (c : Array ℝ) (hc : c.size = n) :
    ∃ (r : Fin n → ℝ) (norm : ℝ), Rounded.normalizeAndCopy flD flL (Array.ofFn x) n c = .ok (Array.ofFn r, norm) ∧
      |norm - Real.sqrt (x ⬝ᵥ x)| ≤ ((1 + unitRoundoff p) ^ 7 * (1 + unitRoundoff q) ^ n - 1) * Real.sqrt (x ⬝ᵥ x) ∧
      ∀ i, |r i - x i / Real.sqrt (x ⬝ᵥ x)| ≤
        ((1 + unitRoundoff p) / (2 - (1 + unitRoundoff p) ^ 7 * (1 + unitRoundoff q) ^ n) - 1) *
          (|x i| / Real.sqrt (x ⬝ᵥ x)) := by
  have hu := unit_nonneg' p
  have hU := unit_nonneg' q
  have hG := one_le_G hu hU 7 n
  have h67 : (1 + unitRoundoff p) ^ 6 * (1 + unitRoundoff q) ^ n ≤ 2 := by
    refine le_trans (mul_le_mul_of_nonneg_right (pow_le_pow_right₀ (by linarith) (by norm_num)) (by positivity)) hg.le
  obtain ⟨norm, h1, h2⟩ := norm_accurate hp hq hD hL x h67
  have hN : 0 < Real.sqrt (x ⬝ᵥ x) := by
    rw [Real.sqrt_pos]
    refine lt_of_le_of_ne (Finset.sum_nonneg fun i _ => mul_self_nonneg (x i)) fun h => hx ?_
    funext i
    have h' := (Finset.sum_eq_zero_iff_of_nonneg fun i _ => mul_self_nonneg (x i)).1 h.symm i (Finset.mem_univ i)
    exact mul_self_eq_zero.1 h'
  set N := Real.sqrt (x ⬝ᵥ x)
  set G := (1 + unitRoundoff p) ^ 7 * (1 + unitRoundoff q) ^ n
  have hlow : (2 - G) * N ≤ norm := by have := (abs_le.1 h2).1; linarith
  have hpos : 0 < norm := lt_of_lt_of_le (mul_pos (by linarith) hN) hlow
  unfold Rounded.normalizeAndCopy
  rw [h1]
  simp only [Except.ok_bind']
  obtain ⟨r, h3, h4⟩ := forRange_write_rel (body := fun i out => do wr out i (flD ((← rd (Array.ofFn x) i) / norm)))
    c hc (fun i y => |y - x i / N| ≤ ((1 + unitRoundoff p) / (2 - G) - 1) * (|x i| / N)) fun i => by
      refine ⟨flD (x i / norm), ?_, fun c' _ => by rw [rd_ofFn x i]; rfl⟩
      have hA : Approx (1 / (2 - G)) (x i / N) (|x i| / N) (x i / norm) := by
        refine ⟨by rw [abs_div, abs_of_pos hN], ?_⟩
        have e1 : x i / norm - x i / N = x i / N * ((N - norm) / norm) := by
          field_simp
        rw [e1, abs_mul, abs_div, abs_div, abs_of_pos hN, abs_of_pos hpos, mul_comm]
        refine mul_le_mul_of_nonneg_right ?_ (by positivity)
        rw [div_le_iff₀ hpos, abs_sub_comm]
        refine h2.trans ?_
        have e2 : 1 / (2 - G) - 1 = (G - 1) / (2 - G) := by
          have : 2 - G ≠ 0 := by linarith
          field_simp
          ring
        rw [e2, div_mul_eq_mul_div, le_div_iff₀ (by linarith)]
        nlinarith
      have := (hA.round hu (nearest_rel hp hD)).2
      rw [one_div_mul_eq_div] at this
      exact this
  rw [h3]
  exact ⟨r, norm, rfl, h2, h4⟩

/-- Identity part of `A + t I`. -/
private theorem shift_rel (hp : 1 ≤ p) (hD : Nearest p flD) {G : Fin n → ℝ} (hG : ∀ i, 1 + unitRoundoff p ≤ G i)
    (v : Fin n → ℝ) (t : ℝ) {S T w : Fin n → ℝ} (hw : ∀ i, Approx (G i) (S i) (T i) (w i)) :
    ∃ r : Fin n → ℝ, Rounded.subtractScaledVector flD (Array.ofFn v) n (-t) (Array.ofFn w) = .ok (Array.ofFn r) ∧
      ∀ i, Approx (G i * (1 + unitRoundoff p)) (S i + t * v i) (T i + |t| * |v i|) (r i) := by
  have hu := unit_nonneg' p
  unfold Rounded.subtractScaledVector
  by_cases ht : t = 0
  · subst ht
    simp only [neg_zero, if_true]
    refine ⟨w, rfl, fun i => ?_⟩
    have h := (hw i).weaken (G' := G i * (1 + unitRoundoff p))
      (le_mul_of_one_le_right (by linarith [hG i]) (by linarith))
    simpa using h
  simp only [neg_eq_zero, ht, if_false]
  refine forRange_update_rel w _ fun i => ?_
  have h2 := ((approx_times hu (nearest_rel hp hD) (-t) (v i)).smul (-1)).weaken (hG i)
  have h3 := ((hw i).add h2).round hu (nearest_rel hp hD)
  rw [abs_neg, abs_one, one_mul, neg_one_mul, neg_one_mul, neg_mul, neg_neg, abs_neg, abs_mul,
    ← sub_eq_add_neg] at h3
  refine ⟨_, h3, fun c' _ hc => ?_⟩
  rw [hc, rd_ofFn v i]
  rfl

/-- C65: a product with the dense operator `A + t B`. -/
theorem dense_affine_accurate (hp : 1 ≤ p) (hq : 1 ≤ q) (hD : Nearest p flD) (hL : Nearest q flL)
    {A B : Array ℝ} {M N : Matrix (Fin n) (Fin m) ℝ} {rowMajorA rowMajorB : Bool} (hA : DenseRepr rowMajorA A M)
    (hB : DenseRepr rowMajorB B N) (t : ℝ) (v : Fin m → ℝ) (c : Array ℝ) (hc : c.size = n) :
    ∃ r : Fin n → ℝ, Rounded.denseAffineDot flD flL A rowMajorA (some (B, rowMajorB)) t n m (Array.ofFn v) c =
        .ok (Array.ofFn r) ∧
      ∀ i, |r i - ((M + t • N) *ᵥ v) i| ≤ ((1 + unitRoundoff p) ^ 8 * (1 + unitRoundoff q) ^ m - 1) *
        ∑ j, (|M i j| + |t| * |N i j|) * |v j| := by
  have hu := unit_nonneg' p
  have hU := unit_nonneg' q
  obtain ⟨w, h1, h2⟩ := dense_matvec_accurate hp hq hD hL hA v c hc
  have hw : ∀ i, Approx ((1 + unitRoundoff p) ^ 6 * (1 + unitRoundoff q) ^ m) ((M *ᵥ v) i) (∑ j, |M i j| * |v j|)
      (w i) := fun i => ⟨by
        simp only [← abs_mul]
        exact Finset.abs_sum_le_sum_abs (fun j => M i j * v j) Finset.univ, h2 i⟩
  have eT : ∀ i, ∑ j, (|M i j| + |t| * |N i j|) * |v j| = ∑ j, |M i j| * |v j| + |t| * ∑ j, |N i j| * |v j| := by
    intro i
    rw [Finset.mul_sum, ← Finset.sum_add_distrib]
    exact Finset.sum_congr rfl fun j _ => by ring
  have eS : ∀ i, ((M + t • N) *ᵥ v) i = (M *ᵥ v) i + t * (N *ᵥ v) i := by
    intro i
    rw [add_mulVec, smul_mulVec]
    rfl
  unfold Rounded.denseAffineDot
  rw [h1]
  simp only [Except.ok_bind']
  by_cases ht : t = 0
  · subst ht
    refine ⟨w, by simp [Rounded.denseMatvecPlus]; rfl, fun i => ?_⟩
    rw [eS, eT, abs_zero, zero_mul, zero_mul, add_zero, add_zero]
    refine ((hw i).weaken ?_).2
    exact mul_le_mul_of_nonneg_right (pow_le_pow_right₀ (by linarith) (by norm_num)) (by positivity)
  · obtain ⟨r, h3, h4⟩ := dense_plus_rel hp hq hD hL hB v ht fun i => (hw i).weaken
      (mul_le_mul_of_nonneg_right (pow_le_pow_right₀ (by linarith) (by norm_num)) (by positivity))
    refine ⟨r, h3, fun i => ?_⟩
    rw [eS, eT]
    exact (h4 i).2

/-- C65: a product with the dense operator `A + t I`. -/
theorem dense_shifted_accurate (hp : 1 ≤ p) (hq : 1 ≤ q) (hD : Nearest p flD) (hL : Nearest q flL)
    {A : Array ℝ} {M : Matrix (Fin n) (Fin n) ℝ} {rowMajor : Bool} (hA : DenseRepr rowMajor A M) (t : ℝ)
    (v : Fin n → ℝ) (c : Array ℝ) (hc : c.size = n) :
    ∃ r : Fin n → ℝ, Rounded.denseAffineDot flD flL A rowMajor none t n n (Array.ofFn v) c = .ok (Array.ofFn r) ∧
      ∀ i, |r i - ((M + t • (1 : Matrix (Fin n) (Fin n) ℝ)) *ᵥ v) i| ≤
        ((1 + unitRoundoff p) ^ 7 * (1 + unitRoundoff q) ^ n - 1) * (∑ j, |M i j| * |v j| + |t| * |v i|) := by
  have hu := unit_nonneg' p
  have hU := unit_nonneg' q
  obtain ⟨w, h1, h2⟩ := dense_matvec_accurate hp hq hD hL hA v c hc
  have hw : ∀ i, Approx ((1 + unitRoundoff p) ^ 6 * (1 + unitRoundoff q) ^ n) ((M *ᵥ v) i) (∑ j, |M i j| * |v j|)
      (w i) := fun i => ⟨by
        simp only [← abs_mul]
        exact Finset.abs_sum_le_sum_abs (fun j => M i j * v j) Finset.univ, h2 i⟩
  unfold Rounded.denseAffineDot
  rw [h1]
  simp only [Except.ok_bind', min_self]
  obtain ⟨r, h3, h4⟩ := shift_rel hp hD (fun _ => (le_self_pow₀ (by linarith) (by norm_num)).trans
    (le_mul_of_one_le_right (by positivity) (one_le_pow₀ (by linarith)))) v t hw
  refine ⟨r, h3, fun i => ?_⟩
  have e : ((M + t • (1 : Matrix (Fin n) (Fin n) ℝ)) *ᵥ v) i = (M *ᵥ v) i + t * v i := by
    rw [add_mulVec, smul_mulVec, one_mulVec]
    rfl
  have h5 := (h4 i).2
  rw [e]
  rwa [show (1 + unitRoundoff p) ^ 6 * (1 + unitRoundoff q) ^ n * (1 + unitRoundoff p) =
    (1 + unitRoundoff p) ^ 7 * (1 + unitRoundoff q) ^ n by ring] at h5

theorem csr_abs_le {data : Array ℝ} {indices ptr : Array ℕ} {M P : Matrix (Fin n) (Fin m) ℝ}
    (h : CSRRepr data indices ptr M) (hP : CSRRepr (data.map abs) indices ptr P) (i : Fin n) (j : Fin m) :
    |M i j| ≤ P i j := by
  obtain ⟨lo, hi, g1, g2, g3, g4, g5, g6⟩ := h.2.2 i
  obtain ⟨lo', hi', k1, k2, k3, k4, k5, k6⟩ := hP.2.2 i
  rw [g1, Option.some.injEq] at k1
  rw [g2, Option.some.injEq] at k2
  subst k1 k2
  rw [g6 j, k6 j]
  refine (Finset.abs_sum_le_sum_abs _ _).trans (Finset.sum_le_sum fun k _ => ?_)
  split_ifs
  · simp only [Array.getD_eq_getD_getElem?, Array.getElem?_map]
    cases data[k]? <;> simp
  · simp

theorem csr_approx {data : Array ℝ} {indices ptr : Array ℕ} {M P : Matrix (Fin n) (Fin m) ℝ}
    (h : CSRRepr data indices ptr M) (hP : CSRRepr (data.map abs) indices ptr P) (v : Fin m → ℝ) (i : Fin n) :
    |(M *ᵥ v) i| ≤ ∑ j, P i j * |v j| := by
  refine (Finset.abs_sum_le_sum_abs (fun j => M i j * v j) Finset.univ).trans (Finset.sum_le_sum fun j _ => ?_)
  rw [abs_mul]
  exact mul_le_mul_of_nonneg_right (csr_abs_le h hP i j) (abs_nonneg _)

/-- C65: a product with the CSR operator `A + t B`; the power of the precision of `long double` is the larger number of
stored entries in the row. -/
theorem csr_affine_accurate (hp : 1 ≤ p) (hq : 1 ≤ q) (hD : Nearest p flD) (hL : Nearest q flL)
    {dataA dataB : Array ℝ} {indicesA ptrA indicesB ptrB : Array ℕ} {M P N Q : Matrix (Fin n) (Fin m) ℝ}
    (hA : CSRRepr dataA indicesA ptrA M) (hPA : CSRRepr (dataA.map abs) indicesA ptrA P)
    (hB : CSRRepr dataB indicesB ptrB N) (hPB : CSRRepr (dataB.map abs) indicesB ptrB Q)
    (t : ℝ) (v : Fin m → ℝ) (c : Array ℝ) (hc : c.size = n) :
    ∃ r : Fin n → ℝ, Rounded.csrAffineDot flD flL (dataA, indicesA, ptrA) (some (dataB, indicesB, ptrB)) t n m
        (Array.ofFn v) c = .ok (Array.ofFn r) ∧
      ∀ i : Fin n, |r i - ((M + t • N) *ᵥ v) i| ≤ ((1 + unitRoundoff p) ^ 4 *
        (1 + unitRoundoff q) ^ max (ptrA.getD (i.1 + 1) 0 - ptrA.getD i.1 0) (ptrB.getD (i.1 + 1) 0 - ptrB.getD i.1 0)
        - 1) * ∑ j, (P i j + |t| * Q i j) * |v j| := by
  have hu := unit_nonneg' p
  have hU := unit_nonneg' q
  obtain ⟨w, h1, h2⟩ := csr_matvec_accurate hp hq hD hL hA hPA v c hc
  have hw : ∀ i : Fin n, Approx ((1 + unitRoundoff p) ^ 2 * (1 + unitRoundoff q) ^
      max (ptrA.getD (i.1 + 1) 0 - ptrA.getD i.1 0) (ptrB.getD (i.1 + 1) 0 - ptrB.getD i.1 0))
      ((M *ᵥ v) i) (∑ j, P i j * |v j|) (w i) := fun i => Approx.weaken ⟨csr_approx hA hPA v i, h2 i⟩
        (mul_le_mul_of_nonneg_left (pow_le_pow_right₀ (by linarith) (le_max_left _ _)) (by positivity))
  have eT : ∀ i, ∑ j, (P i j + |t| * Q i j) * |v j| = ∑ j, P i j * |v j| + |t| * ∑ j, Q i j * |v j| := by
    intro i
    rw [Finset.mul_sum, ← Finset.sum_add_distrib]
    exact Finset.sum_congr rfl fun j _ => by ring
  have eS : ∀ i, ((M + t • N) *ᵥ v) i = (M *ᵥ v) i + t * (N *ᵥ v) i := by
    intro i
    rw [add_mulVec, smul_mulVec]
    rfl
  unfold Rounded.csrAffineDot
  rw [h1]
  simp only [Except.ok_bind']
  by_cases ht : t = 0
  · subst ht
    refine ⟨w, by simp [Rounded.csrMatvecPlus]; rfl, fun i => ?_⟩
    rw [eS, eT, abs_zero, zero_mul, zero_mul, add_zero, add_zero]
    refine ((hw i).weaken ?_).2
    exact mul_le_mul_of_nonneg_right (pow_le_pow_right₀ (by linarith) (by norm_num)) (by positivity)
  · obtain ⟨r, h3, h4⟩ := csr_plus_rel hp hq hD hL hB hPB v ht _ (fun i => le_max_right _ _) fun i => (hw i).weaken
      (mul_le_mul_of_nonneg_right (pow_le_pow_right₀ (by linarith) (by norm_num)) (by positivity))
    refine ⟨r, h3, fun i => ?_⟩
    rw [eS, eT]
    exact (h4 i).2

end

/-- A dense operator `A + 3 I` with `A = [[1, 2], [0, 1]]` meets the hypotheses in single precision. -/
example : ∃ (flD flL : ℝ → ℝ), Nearest 24 flD ∧ Nearest 64 flL ∧
    DenseRepr true (#[1, 2, 0, 1] : Array ℝ) (!![1, 2; 0, 1] : Matrix (Fin 2) (Fin 2) ℝ) := by
  obtain ⟨f, hf⟩ := nearest_exists (p := 24) (by norm_num)
  obtain ⟨g, hg⟩ := nearest_exists (p := 64) (by norm_num)
  refine ⟨f, g, hf, hg, rfl, fun i j => ?_⟩
  fin_cases i <;> fin_cases j <;> rfl

/-- The condition of `normalize_accurate` holds in single precision for vectors with a million elements. -/
example : (1 + unitRoundoff 24) ^ 7 * (1 + unitRoundoff 64) ^ 1000000 < 2 := by
  have h1 : (1 + unitRoundoff 24) ^ 7 ≤ 1.1 := by unfold unitRoundoff; norm_num
  have h2 := pow_small (unit_nonneg' 64) 1000000 (by unfold unitRoundoff; norm_num)
  have h3 : 1 + 2 * (((1000000 : ℕ) : ℝ) * unitRoundoff 64) ≤ 1.5 := by unfold unitRoundoff; norm_num
  have h0 : 0 ≤ (1 + unitRoundoff 64) ^ 1000000 := by unfold unitRoundoff; positivity
  generalize (1 + unitRoundoff 64) ^ 1000000 = X at h0 h2 ⊢
  calc (1 + unitRoundoff 24) ^ 7 * X ≤ 1.1 * X := mul_le_mul_of_nonneg_right h1 h0
    _ ≤ 1.1 * 1.5 := mul_le_mul_of_nonneg_left (h2.trans h3) (by norm_num)
    _ < 2 := by norm_num

end Imate.Props
