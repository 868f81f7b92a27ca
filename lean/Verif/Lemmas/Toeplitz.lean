import Verif.Model.Toeplitz
import Verif.Spec.Toeplitz
import Mathlib.LinearAlgebra.Matrix.NonsingularInverse
import Mathlib.LinearAlgebra.Matrix.Block
import Mathlib.LinearAlgebra.Matrix.ZPow
import Mathlib.Algebra.Field.GeomSum
import Mathlib.Tactic.FieldSimp
import Mathlib.Tactic.LinearCombination

/-! Lemmas about the Toeplitz matrices. -/

namespace Imate.Sample

open Matrix Imate.Spec Finset

theorem coo_toeplitz (a b : ℝ) (n : ℕ) :
    coo (toeplitzRow n) (toeplitzCol n) (toeplitzData a b n) n = toeplitzBidiagonal a b n := by
  have hz : (toeplitzRow n).zip ((toeplitzCol n).zip (toeplitzData a b n)) =
      (List.range n).map (fun k => (k, k, a)) ++ (List.range (n - 1)).map (fun k => (k, 1 + k, b)) := by
    unfold toeplitzRow toeplitzCol toeplitzData
    rw [List.zip_append (by simp), List.zip_append (by simp)]
    congr 1
    · apply List.ext_getElem <;> simp
    · apply List.ext_getElem <;> simp
  funext i j
  have e1 : ∀ m : ℕ, ((List.range m).map (fun k : ℕ => if k = i.1 ∧ k = j.1 then a else 0)).sum =
      if i = j ∧ i.1 < m then a else 0 := by
    intro m
    induction m with
    | zero => simp
    | succ m ih =>
      rw [List.range_succ, List.map_append, List.sum_append, ih]
      simp only [List.map_cons, List.map_nil, List.sum_cons, List.sum_nil, add_zero, Fin.ext_iff]
      split_ifs <;> first | (exfalso; omega) | simp
  have e2 : ∀ m : ℕ, ((List.range m).map (fun k : ℕ => if k = i.1 ∧ 1 + k = j.1 then b else 0)).sum =
      if i.1 + 1 = j.1 ∧ i.1 < m then b else 0 := by
    intro m
    induction m with
    | zero => simp
    | succ m ih =>
      rw [List.range_succ, List.map_append, List.sum_append, ih]
      simp only [List.map_cons, List.map_nil, List.sum_cons, List.sum_nil, add_zero]
      split_ifs <;> first | (exfalso; omega) | simp
  unfold coo
  rw [hz, List.map_append, List.sum_append, List.map_map, List.map_map]
  simp only [Function.comp_def]
  rw [e1, e2]
  unfold toeplitzBidiagonal
  have := i.2
  have := j.2
  simp only [Fin.ext_iff]
  split_ifs <;> first | (exfalso; omega) | simp

theorem bidiagonal_split (a b : ℝ) (n : ℕ) (i j : Fin n) :
    toeplitzBidiagonal a b n i j = (if i = j then a else 0) + (if i.1 + 1 = j.1 then b else 0) := by
  unfold toeplitzBidiagonal
  simp only [Fin.ext_iff]
  split_ifs <;> first | (exfalso; omega) | simp

theorem sum_pred {n : ℕ} (j : Fin n) (b : ℝ) (f : Fin n → ℝ) :
    ∑ k : Fin n, (if k.1 + 1 = j.1 then b else 0) * f k =
      if h : 0 < j.1 then b * f ⟨j.1 - 1, by omega⟩ else 0 := by
  split_ifs with h
  · rw [Finset.sum_eq_single ⟨j.1 - 1, by omega⟩]
    · rw [if_pos (by simp; omega)]
    · intro k _ hk
      rw [if_neg, zero_mul]
      intro h'
      exact hk (Fin.ext (by simp; omega))
    · simp
  · exact Finset.sum_eq_zero fun k _ => by rw [if_neg (by omega), zero_mul]

theorem sum_succ' {n : ℕ} (i : Fin n) (b : ℝ) (f : Fin n → ℝ) :
    ∑ k : Fin n, (if i.1 + 1 = k.1 then b else 0) * f k =
      if h : i.1 + 1 < n then b * f ⟨i.1 + 1, h⟩ else 0 := by
  split_ifs with h
  · rw [Finset.sum_eq_single ⟨i.1 + 1, h⟩]
    · rw [if_pos rfl]
    · intro k _ hk
      rw [if_neg, zero_mul]
      intro h'
      exact hk (Fin.ext (by simp; omega))
    · simp
  · exact Finset.sum_eq_zero fun k _ => by rw [if_neg (by omega), zero_mul]

theorem bidiagonal_gram (a b : ℝ) (n : ℕ) :
    (toeplitzBidiagonal a b n)ᵀ * toeplitzBidiagonal a b n = toeplitzTridiagonal a b n := by
  funext i j
  rw [Matrix.mul_apply]
  simp only [Matrix.transpose_apply]
  have : ∀ k : Fin n, toeplitzBidiagonal a b n k i * toeplitzBidiagonal a b n k j =
      (if k = i then a * toeplitzBidiagonal a b n k j else 0) +
        (if k.1 + 1 = i.1 then b else 0) * toeplitzBidiagonal a b n k j := by
    intro k
    rw [bidiagonal_split a b n k i]
    split_ifs <;> ring
  simp_rw [this]
  rw [Finset.sum_add_distrib, Finset.sum_ite_eq' Finset.univ i, sum_pred, if_pos (Finset.mem_univ _)]
  unfold toeplitzBidiagonal toeplitzTridiagonal
  have := i.2
  have := j.2
  simp only [Fin.ext_iff]
  split_ifs <;> first | (exfalso; omega) | ring

/-- The inverse of the bidiagonal matrix. -/
noncomputable def bidiagonalInv (a b : ℝ) (n : ℕ) : Matrix (Fin n) (Fin n) ℝ := fun i j =>
  if i.1 ≤ j.1 then (1 / a) * (-(b / a)) ^ (j.1 - i.1) else 0

theorem bidiagonal_mul_inv {a : ℝ} (ha : a ≠ 0) (b : ℝ) (n : ℕ) :
    toeplitzBidiagonal a b n * bidiagonalInv a b n = 1 := by
  funext i j
  rw [Matrix.mul_apply]
  have : ∀ k : Fin n, toeplitzBidiagonal a b n i k * bidiagonalInv a b n k j =
      (if i = k then a * bidiagonalInv a b n k j else 0) +
        (if i.1 + 1 = k.1 then b else 0) * bidiagonalInv a b n k j := by
    intro k
    rw [bidiagonal_split a b n i k]
    split_ifs <;> ring
  simp_rw [this]
  rw [Finset.sum_add_distrib, Finset.sum_ite_eq Finset.univ i, sum_succ', if_pos (Finset.mem_univ _)]
  have hj := j.2
  have hi := i.2
  unfold bidiagonalInv
  by_cases hij : i = j
  · subst hij
    rw [Matrix.one_apply_eq]
    simp [ha]
  · rw [Matrix.one_apply_ne hij]
    rw [Fin.ext_iff] at hij
    by_cases hlt : i.1 < j.1
    · rw [if_pos hlt.le, dif_pos (by omega), if_pos (by simp; omega)]
      obtain ⟨d, hd⟩ : ∃ d, j.1 - i.1 = d + 1 := ⟨j.1 - i.1 - 1, by omega⟩
      have hd' : j.1 - (i.1 + 1) = d := by omega
      simp only [hd, hd', pow_succ]
      field_simp
      ring
    · rw [if_neg (by omega)]
      split_ifs with h1 h2
      · exfalso; simp only at h2; omega
      · simp
      · simp

theorem trace_inv_gram {a : ℝ} (ha : a ≠ 0) (b : ℝ) (n : ℕ) :
    (((toeplitzBidiagonal a b n)ᵀ * toeplitzBidiagonal a b n)⁻¹).trace =
      (1 / a ^ 2) * ∑ j ∈ range n, ∑ m ∈ range (j + 1), ((b / a) ^ 2) ^ m := by
  have h1 : (toeplitzBidiagonal a b n)⁻¹ = bidiagonalInv a b n := Matrix.inv_eq_right_inv (bidiagonal_mul_inv ha b n)
  rw [Matrix.mul_inv_rev, ← Matrix.transpose_nonsing_inv, h1, Matrix.trace]
  simp only [Matrix.diag_apply, Matrix.mul_apply, Matrix.transpose_apply]
  rw [Finset.sum_comm, Finset.sum_range fun j => ∑ m ∈ range (j + 1), ((b / a) ^ 2) ^ m, Finset.mul_sum]
  refine Finset.sum_congr rfl fun j _ => ?_
  have h2 : ∀ i : Fin n, bidiagonalInv a b n i j * bidiagonalInv a b n i j =
      if i.1 ≤ j.1 then (1 / a ^ 2) * ((b / a) ^ 2) ^ (j.1 - i.1) else 0 := by
    intro i
    unfold bidiagonalInv
    split_ifs
    · rw [← pow_mul, mul_comm 2, pow_mul, ← sq, mul_pow, div_pow, one_pow, neg_pow (b / a), mul_pow, ← pow_mul,
        mul_comm _ 2, pow_mul, neg_one_sq, one_pow, one_mul]
    · simp
  simp_rw [h2]
  rw [Fin.sum_univ_eq_sum_range (fun i => if i ≤ j.1 then (1 / a ^ 2) * ((b / a) ^ 2) ^ (j.1 - i) else 0) n,
    Finset.mul_sum, ← Finset.sum_range_reflect (fun m => 1 / a ^ 2 * ((b / a) ^ 2) ^ m), ← Finset.sum_filter]
  refine Finset.sum_congr ?_ ?_
  · ext i
    have := j.2
    simp
    omega
  · intro i hi
    simp at hi
    congr 2

theorem geom_double {r : ℝ} (hr : r ≠ 1) (n : ℕ) :
    ∑ j ∈ range n, ∑ m ∈ range (j + 1), r ^ m = (n - r * ((r ^ n - 1) / (r - 1))) / (1 - r) := by
  have h1 : r - 1 ≠ 0 := sub_ne_zero.2 hr
  have h2 : 1 - r ≠ 0 := sub_ne_zero.2 hr.symm
  induction n with
  | zero => simp
  | succ n ih =>
    rw [Finset.sum_range_succ, ih, geom_sum_eq hr]
    push_cast
    field_simp
    ring

theorem geom_double_one (n : ℕ) :
    ∑ j ∈ range n, ∑ m ∈ range (j + 1), (1 : ℝ) ^ m = n * (n + 1) / 2 := by
  induction n with
  | zero => simp
  | succ n ih =>
    rw [Finset.sum_range_succ, ih]
    simp
    ring

theorem bidiagonal_det (a b : ℝ) (n : ℕ) : (toeplitzBidiagonal a b n).det = a ^ n := by
  rw [Matrix.det_of_isUpperTriangular]
  · simp [toeplitzBidiagonal]
  · intro i j hij
    simp only [id_eq] at hij
    unfold toeplitzBidiagonal
    rw [if_neg (by omega), if_neg (by omega)]

/-- Upper triangular with `c` on the diagonal. -/
def Upper (c : ℝ) {n : ℕ} (M : Matrix (Fin n) (Fin n) ℝ) : Prop :=
  (∀ i j : Fin n, j.1 < i.1 → M i j = 0) ∧ ∀ i, M i i = c

theorem Upper.mul {c d : ℝ} {n : ℕ} {M N : Matrix (Fin n) (Fin n) ℝ} (hM : Upper c M) (hN : Upper d N) :
    Upper (c * d) (M * N) := by
  refine ⟨fun i j hij => ?_, fun i => ?_⟩
  · rw [Matrix.mul_apply]
    refine Finset.sum_eq_zero fun k _ => ?_
    by_cases hk : k.1 < i.1
    · rw [hM.1 i k hk, zero_mul]
    · rw [hN.1 k j (by omega), mul_zero]
  · rw [Matrix.mul_apply, Finset.sum_eq_single i]
    · rw [hM.2, hN.2]
    · intro k _ hk
      rw [Ne, Fin.ext_iff] at hk
      by_cases hki : k.1 < i.1
      · rw [hM.1 i k hki, zero_mul]
      · rw [hN.1 k i (by omega), mul_zero]
    · simp

theorem Upper.pow {c : ℝ} {n : ℕ} {M : Matrix (Fin n) (Fin n) ℝ} (hM : Upper c M) (k : ℕ) :
    Upper (c ^ k) (M ^ k) := by
  induction k with
  | zero =>
    refine ⟨fun i j hij => ?_, fun i => by simp⟩
    rw [pow_zero, Matrix.one_apply_ne (by rw [Ne, Fin.ext_iff]; omega)]
  | succ k ih => rw [pow_succ, pow_succ]; exact ih.mul hM

theorem Upper.trace {c : ℝ} {n : ℕ} {M : Matrix (Fin n) (Fin n) ℝ} (hM : Upper c M) : M.trace = n * c := by
  simp [Matrix.trace, hM.2]

theorem upper_bidiagonal (a b : ℝ) (n : ℕ) : Upper a (toeplitzBidiagonal a b n) := by
  refine ⟨fun i j hij => ?_, fun i => by simp [toeplitzBidiagonal]⟩
  unfold toeplitzBidiagonal
  rw [if_neg (by rw [Fin.ext_iff]; omega), if_neg (by omega)]

theorem upper_bidiagonalInv (a b : ℝ) (n : ℕ) : Upper (1 / a) (bidiagonalInv a b n) := by
  refine ⟨fun i j hij => ?_, fun i => by simp [bidiagonalInv]⟩
  unfold bidiagonalInv
  rw [if_neg (by omega)]

theorem trace_zpow {a : ℝ} (ha : a ≠ 0) (b : ℝ) (n : ℕ) (p : ℤ) :
    ((toeplitzBidiagonal a b n) ^ p).trace = n * a ^ p := by
  obtain ⟨k, rfl | rfl⟩ := p.eq_nat_or_neg
  · rw [zpow_natCast, zpow_natCast, ((upper_bidiagonal a b n).pow k).trace]
  · rw [Matrix.zpow_neg_natCast, ← Matrix.inv_pow', Matrix.inv_eq_right_inv (bidiagonal_mul_inv ha b n),
      ((upper_bidiagonalInv a b n).pow k).trace, _root_.zpow_neg, zpow_natCast, one_div, inv_pow]

end Imate.Sample
