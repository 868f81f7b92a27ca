import Verif.Lemmas.RitzValues
import Verif.Lemmas.SlqConvergence

/-!
# Moments of the tridiagonal matrix of nearly orthonormal Lanczos vectors
-/

namespace Imate.Rounded

open Matrix Spec Props Imate.Lanczos Imate.Gauss

variable {n : ℕ}

theorem len_sum_le {ι : Type} (S : Finset ι) (f : ι → Fin n → ℝ) : len (∑ i ∈ S, f i) ≤ ∑ i ∈ S, len (f i) := by
  classical
  induction S using Finset.induction_on with
  | empty => simp [len, dotProduct]
  | insert i S hi ih =>
    rw [Finset.sum_insert hi, Finset.sum_insert hi]
    exact (len_add_le _ _).trans (by linarith)

theorem sum_abs_le_len {k : ℕ} (y : Fin k → ℝ) : ∑ i, |y i| ≤ Real.sqrt k * len y := by
  have h2 : (∑ i, |y i|) ^ 2 ≤ k * ∑ i, |y i| ^ 2 := by
    have := sq_sum_le_card_mul_sum_sq (s := (Finset.univ : Finset (Fin k))) (f := fun i => |y i|)
    simpa using this
  have h3 : ∑ i, |y i| ^ 2 = y ⬝ᵥ y := Finset.sum_congr rfl fun i _ => by rw [sq_abs, pow_two]
  rw [h3] at h2
  unfold len
  rw [← Real.sqrt_mul (Nat.cast_nonneg k)]
  exact Real.le_sqrt_of_sq_le h2

/-- Entrywise close matrices have close bilinear forms. -/
theorem bilinear_close {k : ℕ} {B C : Matrix (Fin k) (Fin k) ℝ} {δ : ℝ} (hδ : 0 ≤ δ) (h : ∀ i j, |B i j - C i j| ≤ δ)
    (x y : Fin k → ℝ) : |x ⬝ᵥ (B *ᵥ y) - x ⬝ᵥ (C *ᵥ y)| ≤ δ * k * (len x * len y) := by
  rw [← dotProduct_sub, ← sub_mulVec]
  have h1 : |x ⬝ᵥ ((B - C) *ᵥ y)| ≤ ∑ i, |x i| * (δ * ∑ j, |y j|) := by
    refine (Finset.abs_sum_le_sum_abs (fun i => x i * ((B - C) *ᵥ y) i) Finset.univ).trans (Finset.sum_le_sum fun i _ => ?_)
    rw [abs_mul]
    refine mul_le_mul_of_nonneg_left ?_ (abs_nonneg _)
    refine (Finset.abs_sum_le_sum_abs (fun j => (B - C) i j * y j) Finset.univ).trans ?_
    rw [Finset.mul_sum]
    refine Finset.sum_le_sum fun j _ => ?_
    rw [abs_mul]
    exact mul_le_mul_of_nonneg_right (h i j) (abs_nonneg _)
  rw [← Finset.sum_mul] at h1
  have hx := sum_abs_le_len x
  have hy := sum_abs_le_len y
  have h0 : 0 ≤ ∑ i, |x i| := Finset.sum_nonneg fun i _ => abs_nonneg _
  have h0' : 0 ≤ ∑ i, |y i| := Finset.sum_nonneg fun i _ => abs_nonneg _
  have h2 := mul_le_mul hx hy h0' (mul_nonneg (Real.sqrt_nonneg _) (len_nonneg x))
  have h3 : Real.sqrt k * len x * (Real.sqrt k * len y) = k * (len x * len y) := by
    have := Real.mul_self_sqrt (Nat.cast_nonneg (α := ℝ) k)
    calc _ = Real.sqrt k * Real.sqrt k * (len x * len y) := by ring
      _ = _ := by rw [this]
  rw [h3] at h2
  have h4 := mul_le_mul_of_nonneg_left h2 hδ
  calc _ ≤ _ := h1
    _ = δ * ((∑ i, |x i|) * ∑ j, |y j|) := by ring
    _ ≤ _ := h4
    _ = _ := by ring

theorem combine_bilinear {k : ℕ} (v : ℕ → Fin n → ℝ) (N : Matrix (Fin n) (Fin n) ℝ) (x y : Fin k → ℝ) :
    combine v x ⬝ᵥ (N *ᵥ combine v y) = x ⬝ᵥ ((fun i j => v i.1 ⬝ᵥ (N *ᵥ v j.1) : Matrix (Fin k) (Fin k) ℝ) *ᵥ y) := by
  unfold combine
  rw [sum_dotProduct]
  refine Finset.sum_congr rfl fun i _ => ?_
  rw [smul_dotProduct, smul_eq_mul]
  congr 1
  rw [mulVec_sum, dotProduct_sum]
  refine Finset.sum_congr rfl fun j _ => ?_
  rw [mulVec_smul, dotProduct_smul, smul_eq_mul]
  ring

theorem combine_first {k : ℕ} (hk : 0 < k) (v : ℕ → Fin n → ℝ) : combine v (firstCol k) = v 0 := by
  unfold combine
  rw [Finset.sum_eq_single ⟨0, hk⟩]
  · simp [firstCol]
  · intro j _ hj
    have : j.1 ≠ 0 := fun h => hj (Fin.ext h)
    simp [firstCol, this]
  · simp

/-- Columns of the tridiagonal matrix. -/
theorem combine_column {k : ℕ} (a b : ℕ → ℝ) (v : ℕ → Fin n → ℝ) (i : Fin k) (hi : i.1 + 1 < k) :
    combine v (fun j => tridiagonal k a b j i) =
      b i.1 • v (i.1 + 1) + a i.1 • v i.1 + (if i.1 = 0 then 0 else b (i.1 - 1)) • v (i.1 - 1) := by
  have hsplit : ∀ j : Fin k, tridiagonal k a b j i • v j.1 =
      (if j = ⟨i.1 + 1, hi⟩ then b i.1 • v (i.1 + 1) else 0) + (if j = i then a i.1 • v i.1 else 0) +
        (if j.1 + 1 = i.1 then b (i.1 - 1) • v (i.1 - 1) else 0) := by
    intro j
    unfold tridiagonal
    by_cases h1 : j = i
    · subst h1
      have : j ≠ ⟨j.1 + 1, hi⟩ := fun h => by have := congrArg Fin.val h; simp at this
      simp [this]
    · have h1' : j.1 ≠ i.1 := fun h => h1 (Fin.ext h)
      by_cases h2 : j.1 + 1 = i.1
      · have h3 : j ≠ ⟨i.1 + 1, hi⟩ := fun h => by have := congrArg Fin.val h; simp at this; omega
        have h4 : i.1 - 1 = j.1 := by omega
        rw [if_neg h1, if_pos h2, if_neg h3, if_neg h1, if_pos h2, h4, zero_add, zero_add]
      · by_cases h3 : i.1 + 1 = j.1
        · have h4 : j = ⟨i.1 + 1, hi⟩ := Fin.ext h3.symm
          rw [if_neg h1, if_neg h2, if_pos h3, if_pos h4, if_neg h1, if_neg h2, add_zero, add_zero, h3]
        · have h4 : j ≠ ⟨i.1 + 1, hi⟩ := fun h => h3 (by rw [h])
          rw [if_neg h1, if_neg h2, if_neg h3, if_neg h4, if_neg h1, if_neg h2, zero_smul, add_zero, add_zero]
  unfold combine
  simp only [hsplit, Finset.sum_add_distrib, Finset.sum_ite_eq', Finset.mem_univ, if_true]
  congr 1
  by_cases h0 : i.1 = 0
  · rw [if_pos h0, zero_smul]
    refine Finset.sum_eq_zero fun j _ => ?_
    rw [if_neg (by omega)]
  · rw [if_neg h0, Finset.sum_eq_single ⟨i.1 - 1, by omega⟩]
    · rw [if_pos (by simp; omega)]
    · intro j _ hj
      rw [if_neg]
      intro h
      exact hj (Fin.ext (by simp; omega))
    · simp

theorem combine_mulVec {k : ℕ} (v : ℕ → Fin n → ℝ) (T : Matrix (Fin k) (Fin k) ℝ) (y : Fin k → ℝ) :
    combine v (T *ᵥ y) = ∑ i, y i • combine v (fun j => T j i) := by
  unfold combine
  simp only [Finset.smul_sum]
  rw [Finset.sum_comm]
  refine Finset.sum_congr rfl fun j _ => ?_
  show (∑ i, T j i * y i) • v j.1 = _
  rw [Finset.sum_smul]
  refine Finset.sum_congr rfl fun i _ => ?_
  rw [smul_smul, mul_comm]

/-- The product with the matrix and the product with the tridiagonal matrix. -/
theorem product_near {M : Matrix (Fin n) (Fin n) ℝ} {size : ℕ} {a b : ℕ → ℝ} {v : ℕ → Fin n → ℝ} {eRec : ℝ}
    (hrec : ∀ k, k + 1 < size → len (fun i => b k * v (k + 1) i - rest M a b v k i) ≤ eRec) (y : Fin size → ℝ)
    (hy : ∀ i : Fin size, i.1 + 1 = size → y i = 0) :
    len (M *ᵥ combine v y - combine v (tridiagonal size a b *ᵥ y)) ≤ eRec * ∑ i, |y i| := by
  rw [combine_mulVec]
  have e1 : M *ᵥ combine v y - ∑ i, y i • combine v (fun j => tridiagonal size a b j i) =
      ∑ i, y i • (M *ᵥ v i.1 - combine v (fun j => tridiagonal size a b j i)) := by
    unfold combine
    rw [mulVec_sum, ← Finset.sum_sub_distrib]
    refine Finset.sum_congr rfl fun i _ => ?_
    rw [mulVec_smul, smul_sub]
  rw [e1, Finset.mul_sum]
  refine (len_sum_le _ _).trans (Finset.sum_le_sum fun i _ => ?_)
  rw [len_scale]
  by_cases hi : i.1 + 1 = size
  · rw [hy i hi, abs_zero, zero_mul, mul_zero]
  · have h1 : i.1 + 1 < size := by have := i.2; omega
    have h2 := hrec i.1 h1
    have e2 : M *ᵥ v i.1 - combine v (fun j => tridiagonal size a b j i) =
        -(fun l => b i.1 * v (i.1 + 1) l - rest M a b v i.1 l) := by
      rw [combine_column a b v i h1]
      have e3 : (fun l => b i.1 * v (i.1 + 1) l - rest M a b v i.1 l) = b i.1 • v (i.1 + 1) - rest M a b v i.1 := rfl
      rw [e3, rest_eq]
      abel
    rw [e2, len_neg]
    have := mul_le_mul_of_nonneg_left h2 (abs_nonneg (y i))
    linarith

/-- A symmetric matrix with eigenvalues of absolute value at most `R` lengthens vectors by at most `R`. -/
theorem spectral_len {k : ℕ} {T Q : Matrix (Fin k) (Fin k) ℝ} {lam : Fin k → ℝ} (h : Spectral T Q lam) {R : ℝ} (hR : 0 ≤ R)
    (hl : ∀ i, |lam i| ≤ R) (y : Fin k → ℝ) : len (T *ᵥ y) ≤ R * len y := by
  refine len_le_of_sq (mul_nonneg hR (len_nonneg y)) ?_
  have e1 : (T *ᵥ y) ⬝ᵥ (T *ᵥ y) = wsum (weights Q y) lam (fun x => x ^ 2) := by
    rw [mulVec_dot, h.symm.eq, mulVec_mulVec, ← pow_two, Lanczos.Spectral.pow h 2, ← matrixFunction_form]
    rfl
  rw [e1]
  have e2 : R * len y * (R * len y) = wsum (weights Q y) lam (fun _ => R ^ 2) := by
    rw [wsum_const, h.weights_sum, ← len_sq]
    ring
  rw [e2]
  refine wsum_mono (weights_nonneg y) fun i => ?_
  rw [← sq_abs]
  exact pow_le_pow_left₀ (abs_nonneg _) (hl i) 2

section

variable {M : Matrix (Fin n) (Fin n) ℝ} {z : Fin n → ℝ} {m size : ℕ} {ε A θ η : ℝ} {a b : ℕ → ℝ} {v : ℕ → Fin n → ℝ}
  {Q : Matrix (Fin size) (Fin size) ℝ} {lam : Fin size → ℝ} {R : ℝ}

theorem pow_len (hA : ∀ x : Fin n → ℝ, len (M *ᵥ x) ≤ A * len x) (hA0 : 0 ≤ A) (k : ℕ) (x : Fin n → ℝ) :
    len (M ^ k *ᵥ x) ≤ A ^ k * len x := by
  induction k with
  | zero => simp
  | succ k ih =>
    rw [pow_succ', ← mulVec_mulVec]
    refine (hA _).trans ?_
    have := mul_le_mul_of_nonneg_left ih hA0
    rw [pow_succ']
    linarith

theorem spectral_pow_len (hT : Spectral (tridiagonal size a b) Q lam) (hR : 0 ≤ R) (hl : ∀ i, |lam i| ≤ R) (k : ℕ)
    (hk : 0 < size) : len (tridiagonal size a b ^ k *ᵥ firstCol size) ≤ R ^ k := by
  have h := pow_len (M := tridiagonal size a b) (fun x => spectral_len hT hR hl x) hR k (firstCol size)
  have : len (firstCol size) = 1 := by
    unfold len
    rw [firstCol_dot hk, Real.sqrt_one]
  rwa [this, mul_one] at h

/-- Krylov vectors. -/
theorem krylov_near (hs : Small m ε A θ η) (hsize : size ≤ m) (h0 : 0 < size) (hA : ∀ x : Fin n → ℝ, len (M *ᵥ x) ≤ A * len x)
    (hAR : A ≤ R) {eRec : ℝ} (hRec : eRec ≤ 14 * (m * (A * η)))
    (hrec : ∀ k, k + 1 < size → len (fun i => b k * v (k + 1) i - rest M a b v k i) ≤ eRec)
    (hT : Spectral (tridiagonal size a b) Q lam) (hl : ∀ i, |lam i| ≤ R) (k : ℕ) (hk : k < size) :
    len (M ^ k *ᵥ v 0 - combine v (tridiagonal size a b ^ k *ᵥ firstCol size)) ≤ k * (14 * (m * m * η)) * R ^ k := by
  have hA0 := hs.A_pos.le
  have hη := hs.η_nonneg
  have hR : 0 ≤ R := hA0.trans hAR
  have hm := hs.hm
  induction k with
  | zero =>
    simp only [pow_zero, one_mulVec, combine_first h0, sub_self]
    simp [len, dotProduct]
  | succ k ih =>
    have ih := ih (by omega)
    set y := tridiagonal size a b ^ k *ᵥ firstCol size with hy
    have e1 : M ^ (k + 1) *ᵥ v 0 - combine v (tridiagonal size a b ^ (k + 1) *ᵥ firstCol size) =
        M *ᵥ (M ^ k *ᵥ v 0 - combine v y) + (M *ᵥ combine v y - combine v (tridiagonal size a b *ᵥ y)) := by
      rw [pow_succ', ← mulVec_mulVec, pow_succ', ← mulVec_mulVec, ← hy, mulVec_sub]
      abel
    rw [e1]
    refine (len_add_le _ _).trans ?_
    have h1 : len (M *ᵥ (M ^ k *ᵥ v 0 - combine v y)) ≤ R * (k * (14 * (m * m * η)) * R ^ k) :=
      (hA _).trans (mul_le_mul hAR ih (len_nonneg _) hR)
    have h2 := product_near hrec y fun i hi => hessenberg_pow (tridiagonal_hessenberg a b) k i (by omega)
    have h3 : ∑ i, |y i| ≤ m * R ^ k := by
      refine (sum_abs_le_len y).trans ?_
      have g1 : Real.sqrt size ≤ m := by
        rw [Real.sqrt_le_left (by linarith)]
        have g2 : (size : ℝ) ≤ m := by exact_mod_cast hsize
        nlinarith
      exact mul_le_mul g1 (spectral_pow_len hT hR hl k h0) (len_nonneg _) (by linarith)
    have h4 : eRec * ∑ i, |y i| ≤ 14 * (m * (R * η)) * (m * R ^ k) := by
      have g1 : eRec ≤ 14 * (m * (R * η)) := hRec.trans (by
        have := mul_le_mul_of_nonneg_left (mul_le_mul_of_nonneg_right hAR hη) (by linarith : (0 : ℝ) ≤ m)
        linarith)
      exact mul_le_mul g1 h3 (Finset.sum_nonneg fun i _ => abs_nonneg _) (by positivity)
    have e2 : ((k + 1 : ℕ) : ℝ) * (14 * (m * m * η)) * R ^ (k + 1) =
        R * (k * (14 * (m * m * η)) * R ^ k) + 14 * (m * (R * η)) * (m * R ^ k) := by
      push_cast
      ring
    rw [e2]
    exact add_le_add h1 (h2.trans h4)

theorem combine_len (hs : Small m ε A θ η) (hsize : size ≤ m) {eAlpha eRec eLast eRes : ℝ}
    (hU : UnitVectors M z size a (2 * ε) eAlpha v) (hO : OrthogonalLanczos M size a b η eRec eLast eRes v) (y : Fin size → ℝ) :
    len (combine v y) ≤ 33 / 32 * len y := by
  refine len_le_of_sq (mul_nonneg (by norm_num) (len_nonneg y)) ?_
  have h2 := quadratic_close (gram_near hs hU hO) y
  have e1 : combine v y ⬝ᵥ combine v y = combine v y ⬝ᵥ ((1 : Matrix (Fin n) (Fin n) ℝ) *ᵥ combine v y) := by rw [one_mulVec]
  rw [e1, combine_form]
  rw [one_mulVec] at h2
  have hy : 0 ≤ y ⬝ᵥ y := Finset.sum_nonneg fun i _ => mul_self_nonneg _
  have hk : (size : ℝ) ≤ m := by exact_mod_cast hsize
  have h3 := mul_le_mul_of_nonneg_right (mul_le_mul_of_nonneg_left hk hs.η_nonneg) hy
  have h4 := mul_le_mul_of_nonneg_right hs.mη hy
  have h5 := (abs_le.1 h2).2
  have e2 : 33 / 32 * len y * (33 / 32 * len y) = 33 / 32 * (33 / 32) * (y ⬝ᵥ y) := by rw [← len_sq y]; ring
  rw [e2]
  linarith

/-- Moments. -/
theorem moment_near (hs : Small m ε A θ η) (hM : M.transpose = M) (hsize : size ≤ m) (h0 : 0 < size)
    (hA : ∀ x : Fin n → ℝ, len (M *ᵥ x) ≤ A * len x) (hAR : A ≤ R) {eAlpha eRec eLast eRes : ℝ}
    (hAl : eAlpha ≤ 20 * (m * (A * η))) (hRec : eRec ≤ 14 * (m * (A * η)))
    (hU : UnitVectors M z size a (2 * ε) eAlpha v) (hO : OrthogonalLanczos M size a b η eRec eLast eRes v)
    (ha : ∀ k < size, |a k| ≤ 5 / 4 * A) (hb : ∀ k < size, |b k| ≤ 2 * A)
    (hT : Spectral (tridiagonal size a b) Q lam) (hl : ∀ i, |lam i| ≤ R) (k : ℕ) (hk : k < 2 * size) :
    |v 0 ⬝ᵥ (M ^ k *ᵥ v 0) - firstCol size ⬝ᵥ (tridiagonal size a b ^ k *ᵥ firstCol size)| ≤
      (15 * k + 20) * (m * m * η) * R ^ k := by
  have hA0 := hs.A_pos.le
  have hη := hs.η_nonneg
  have hR : 0 ≤ R := hA0.trans hAR
  have hm := hs.hm
  have hv0 : len (v 0) ≤ 1001 / 1000 := by linarith [(abs_le.1 (hU.unit 0 h0)).2, hs.ε_le]
  set T := tridiagonal size a b with hTd
  have hsM : ∀ q (x y : Fin n → ℝ), x ⬝ᵥ ((M ^ q) *ᵥ y) = ((M ^ q) *ᵥ x) ⬝ᵥ y := by
    intro q x y; rw [dotProduct_mulVec, ← mulVec_transpose, (Matrix.IsSymm.pow (show M.IsSymm from hM) q).eq]
  have hsT : ∀ q (x y : Fin size → ℝ), x ⬝ᵥ ((T ^ q) *ᵥ y) = ((T ^ q) *ᵥ x) ⬝ᵥ y := by
    intro q x y; rw [dotProduct_mulVec, ← mulVec_transpose, (hT.symm.pow q).eq]
  rcases Nat.eq_zero_or_pos k with hk0 | hk0
  · subst hk0
    simp only [pow_zero, one_mulVec, firstCol_dot h0]
    refine (self_near hs (hU.unit 0 h0)).trans ?_
    have g1 := ε_le_η hs
    have g2 : η ≤ m * m * η := le_mul_of_one_le_left hη (by nlinarith)
    simp only [Nat.cast_zero, mul_zero, zero_add, mul_one]
    linarith [hs.hε]
  · obtain ⟨i, j, hij, hi, hj⟩ : ∃ i j, k = i + (1 + j) ∧ i < size ∧ j < size :=
      ⟨k / 2, k - 1 - k / 2, by omega, by omega, by omega⟩
    have e1 : v 0 ⬝ᵥ (M ^ k *ᵥ v 0) = (M ^ i *ᵥ v 0) ⬝ᵥ (M *ᵥ (M ^ j *ᵥ v 0)) := by
      rw [hij, pow_add, ← mulVec_mulVec, hsM, pow_add, ← mulVec_mulVec, pow_one]
    have e2 : firstCol size ⬝ᵥ (T ^ k *ᵥ firstCol size) = (T ^ i *ᵥ firstCol size) ⬝ᵥ (T *ᵥ (T ^ j *ᵥ firstCol size)) := by
      rw [hij, pow_add, ← mulVec_mulVec, hsT, pow_add, ← mulVec_mulVec, pow_one]
    have hi' := krylov_near hs hsize h0 hA hAR hRec hO.recurrence hT hl i hi
    have hj' := krylov_near hs hsize h0 hA hAR hRec hO.recurrence hT hl j hj
    have hyi := spectral_pow_len hT hR hl i h0
    have hyj := spectral_pow_len hT hR hl j h0
    rw [← hTd] at hi' hj' hyi hyj
    rw [e1, e2]
    have hpj := pow_len hA hA0 j (v 0)
    set pi := M ^ i *ᵥ v 0
    set pj := M ^ j *ᵥ v 0
    set yi := T ^ i *ᵥ firstCol size
    set yj := T ^ j *ᵥ firstCol size
    have e3 : pi ⬝ᵥ (M *ᵥ pj) - yi ⬝ᵥ (T *ᵥ yj) = (pi - combine v yi) ⬝ᵥ (M *ᵥ pj) +
        combine v yi ⬝ᵥ (M *ᵥ (pj - combine v yj)) + (combine v yi ⬝ᵥ (M *ᵥ combine v yj) - yi ⬝ᵥ (T *ᵥ yj)) := by
      rw [mulVec_sub, dotProduct_sub, sub_dotProduct]
      ring
    have hRk : R ^ k = R ^ i * (R * R ^ j) := by rw [hij, pow_add, pow_add, pow_one]
    have hAj : A ^ j ≤ R ^ j := pow_le_pow_left₀ hA0 hAR j
    have hRj : 0 ≤ R ^ j := pow_nonneg hR j
    have hRi : 0 ≤ R ^ i := pow_nonneg hR i
    have hMpj : len (M *ᵥ pj) ≤ R * (R ^ j * (1001 / 1000)) :=
      (hA pj).trans (mul_le_mul hAR (hpj.trans (mul_le_mul hAj hv0 (len_nonneg _) hRj)) (len_nonneg _) hR)
    have t1 : |(pi - combine v yi) ⬝ᵥ (M *ᵥ pj)| ≤ i * (14 * (m * m * η)) * R ^ i * (R * (R ^ j * (1001 / 1000))) :=
      (abs_dot_le _ _).trans (mul_le_mul hi' hMpj (len_nonneg _) (by positivity))
    have t2 : |combine v yi ⬝ᵥ (M *ᵥ (pj - combine v yj))| ≤ 33 / 32 * R ^ i * (R * (j * (14 * (m * m * η)) * R ^ j)) := by
      refine (abs_dot_le _ _).trans (mul_le_mul ?_ ?_ (len_nonneg _) (by positivity))
      · exact (combine_len hs hsize hU hO yi).trans (mul_le_mul_of_nonneg_left hyi (by norm_num))
      · exact (hA _).trans (mul_le_mul hAR hj' (len_nonneg _) hR)
    have t3 : |combine v yi ⬝ᵥ (M *ᵥ combine v yj) - yi ⬝ᵥ (T *ᵥ yj)| ≤ 20 * (m * (R * η)) * m * (R ^ i * R ^ j) := by
      rw [combine_bilinear]
      refine (bilinear_close (by positivity) (projected_near hs hM hAl hRec hU hO ha hb) yi yj).trans ?_
      have hk : (size : ℝ) ≤ m := by exact_mod_cast hsize
      have g1 : 20 * (m * (A * η)) ≤ 20 * (m * (R * η)) := by
        have := mul_le_mul_of_nonneg_left (mul_le_mul_of_nonneg_right hAR hη) (by linarith : (0 : ℝ) ≤ m)
        linarith
      exact mul_le_mul (mul_le_mul g1 hk (by positivity) (by positivity)) (mul_le_mul hyi hyj (len_nonneg _) hRi)
        (mul_nonneg (len_nonneg _) (len_nonneg _)) (by positivity)
    rw [e3]
    refine (abs_add_le _ _).trans ?_
    refine (add_le_add (abs_add_le _ _) le_rfl).trans ?_
    have hkr : (k : ℝ) = i + (1 + j) := by rw [hij]; push_cast; ring
    have hX : 0 ≤ m * m * η * R ^ k := by positivity
    have f1 : (i : ℝ) * (14 * (m * m * η)) * R ^ i * (R * (R ^ j * (1001 / 1000))) =
        14 * (1001 / 1000) * (i * (m * m * η * R ^ k)) := by rw [hRk]; ring
    have f2 : 33 / 32 * R ^ i * (R * (j * (14 * (m * m * η)) * R ^ j)) = 14 * (33 / 32) * (j * (m * m * η * R ^ k)) := by
      rw [hRk]; ring
    have f3 : 20 * (m * (R * η)) * m * (R ^ i * R ^ j) = 20 * (m * m * η * R ^ k) := by rw [hRk]; ring
    have f4 : (15 * (k : ℝ) + 20) * (m * m * η) * R ^ k = 15 * (i * (m * m * η * R ^ k)) + 15 * (m * m * η * R ^ k) +
        15 * (j * (m * m * η * R ^ k)) + 20 * (m * m * η * R ^ k) := by rw [hkr]; ring
    rw [f1] at t1
    rw [f2] at t2
    rw [f3] at t3
    rw [f4]
    have hiX : 0 ≤ i * (m * m * η * R ^ k) := mul_nonneg (Nat.cast_nonneg _) hX
    have hjX : 0 ≤ j * (m * m * η * R ^ k) := mul_nonneg (Nat.cast_nonneg _) hX
    linarith

/-- The same for the start vector itself. -/
theorem moment_start (hs : Small m ε A θ η) (hM : M.transpose = M) (hsize : size ≤ m) (h0 : 0 < size) (hz : z ≠ 0)
    (hA : ∀ x : Fin n → ℝ, len (M *ᵥ x) ≤ A * len x) (hAR : A ≤ R) {eAlpha eRec eLast eRes : ℝ}
    (hAl : eAlpha ≤ 20 * (m * (A * η))) (hRec : eRec ≤ 14 * (m * (A * η)))
    (hU : UnitVectors M z size a (2 * ε) eAlpha v) (hO : OrthogonalLanczos M size a b η eRec eLast eRes v)
    (ha : ∀ k < size, |a k| ≤ 5 / 4 * A) (hb : ∀ k < size, |b k| ≤ 2 * A)
    (hT : Spectral (tridiagonal size a b) Q lam) (hl : ∀ i, |lam i| ≤ R) (k : ℕ) (hk : k < 2 * size) :
    |z ⬝ᵥ (M ^ k *ᵥ z) / (z ⬝ᵥ z) - firstCol size ⬝ᵥ (tridiagonal size a b ^ k *ᵥ firstCol size)| ≤
      21 * (m * m * η) * ((k + 1) * R ^ k) := by
  have hA0 := hs.A_pos.le
  have hη := hs.η_nonneg
  have hR : 0 ≤ R := hA0.trans hAR
  have hm := hs.hm
  have hlz := len_pos hz
  have h1 := moment_near hs hM hsize h0 hA hAR hAl hRec hU hO ha hb hT hl k hk
  obtain ⟨u, hu⟩ : ∃ u : Fin n → ℝ, u = (len z)⁻¹ • z := ⟨_, rfl⟩
  have hlu : len u = 1 := by
    rw [hu, len_scale, abs_of_pos (inv_pos.2 hlz), inv_mul_cancel₀ hlz.ne']
  have e1 : z ⬝ᵥ (M ^ k *ᵥ z) / (z ⬝ᵥ z) = u ⬝ᵥ (M ^ k *ᵥ u) := by
    rw [hu, mulVec_smul, smul_dotProduct, dotProduct_smul, ← len_sq z, smul_eq_mul, smul_eq_mul]
    field_simp
  have hd : len (v 0 - u) ≤ 2 * ε := by
    have := len_le_of_abs_le (x := v 0 - u) (y := u) (c := 2 * ε) (by linarith [hs.hε]) fun i => by
      have g := hU.start i
      have : u i = z i / len z := by rw [hu, Pi.smul_apply, smul_eq_mul, div_eq_inv_mul]
      rw [Pi.sub_apply, this]
      exact g
    rwa [hlu, mul_one] at this
  have hv0 : len (v 0) ≤ 1001 / 1000 := by linarith [(abs_le.1 (hU.unit 0 h0)).2, hs.ε_le]
  have hAk : A ^ k ≤ R ^ k := pow_le_pow_left₀ hA0 hAR k
  have hRk : 0 ≤ R ^ k := pow_nonneg hR k
  have h2ε : 0 ≤ 2 * ε := by linarith [hs.hε]
  have t1 : |(v 0 - u) ⬝ᵥ (M ^ k *ᵥ v 0)| ≤ 2 * ε * (R ^ k * (1001 / 1000)) :=
    (abs_dot_le _ _).trans (mul_le_mul hd ((pow_len hA hA0 k _).trans (mul_le_mul hAk hv0 (len_nonneg _) hRk))
      (len_nonneg _) h2ε)
  have t2 : |u ⬝ᵥ (M ^ k *ᵥ (v 0 - u))| ≤ 1 * (R ^ k * (2 * ε)) :=
    (abs_dot_le _ _).trans (mul_le_mul hlu.le ((pow_len hA hA0 k _).trans (mul_le_mul hAk hd (len_nonneg _) hRk))
      (len_nonneg _) (by norm_num))
  have e2 : u ⬝ᵥ (M ^ k *ᵥ u) = v 0 ⬝ᵥ (M ^ k *ᵥ v 0) - (v 0 - u) ⬝ᵥ (M ^ k *ᵥ v 0) - u ⬝ᵥ (M ^ k *ᵥ (v 0 - u)) := by
    rw [mulVec_sub, dotProduct_sub, sub_dotProduct]
    ring
  rw [e1, e2]
  have g1 := ε_le_η hs
  have g2 : η ≤ m * m * η := le_mul_of_one_le_left hη (by nlinarith)
  have g3 : 5 * ε * R ^ k ≤ m * m * η * R ^ k := mul_le_mul_of_nonneg_right (by linarith [hs.hε]) hRk
  have g4 : 0 ≤ ε * R ^ k := mul_nonneg hs.hε hRk
  have g5 : 0 ≤ k * (m * m * η * R ^ k) := by positivity
  have s1 := abs_le.1 h1
  have s2 := abs_le.1 t1
  have s3 := abs_le.1 t2
  have e3 : (15 * (k : ℝ) + 20) * (m * m * η) * R ^ k = 15 * (k * (m * m * η * R ^ k)) + 20 * (m * m * η * R ^ k) := by ring
  have e4 : 21 * (m * m * η) * (((k : ℝ) + 1) * R ^ k) = 21 * (k * (m * m * η * R ^ k)) + 21 * (m * m * η * R ^ k) := by ring
  rw [e3] at s1
  rw [e4, abs_le]
  constructor <;> linarith

end

end Imate.Rounded
