import Verif.Lemmas.OrthoLanczos
import Verif.Spec.OrthoLanczos
import Verif.Spec.Krylov

/-!
# The tridiagonal matrix of nearly orthonormal Lanczos vectors
-/

namespace Imate.Rounded

open Matrix Spec Props

variable {n : ℕ}

/-- Entrywise close matrices have close quadratic forms. -/
theorem quadratic_close {k : ℕ} {B C : Matrix (Fin k) (Fin k) ℝ} {δ : ℝ} (h : ∀ i j, |B i j - C i j| ≤ δ) (y : Fin k → ℝ) :
    |y ⬝ᵥ (B *ᵥ y) - y ⬝ᵥ (C *ᵥ y)| ≤ δ * k * (y ⬝ᵥ y) := by
  rcases Nat.eq_zero_or_pos k with rfl | hk
  · simp [dotProduct]
  have hδ : 0 ≤ δ := (abs_nonneg _).trans (h ⟨0, hk⟩ ⟨0, hk⟩)
  rw [← dotProduct_sub, ← sub_mulVec]
  have h1 : |y ⬝ᵥ ((B - C) *ᵥ y)| ≤ ∑ i, |y i| * (δ * ∑ j, |y j|) := by
    refine (Finset.abs_sum_le_sum_abs (fun i => y i * ((B - C) *ᵥ y) i) Finset.univ).trans (Finset.sum_le_sum fun i _ => ?_)
    rw [abs_mul]
    refine mul_le_mul_of_nonneg_left ?_ (abs_nonneg _)
    refine (Finset.abs_sum_le_sum_abs (fun j => (B - C) i j * y j) Finset.univ).trans ?_
    rw [Finset.mul_sum]
    refine Finset.sum_le_sum fun j _ => ?_
    rw [abs_mul]
    exact mul_le_mul_of_nonneg_right (h i j) (abs_nonneg _)
  rw [← Finset.sum_mul] at h1
  have h2 : (∑ i, |y i|) ^ 2 ≤ k * ∑ i, |y i| ^ 2 := by
    have := sq_sum_le_card_mul_sum_sq (s := (Finset.univ : Finset (Fin k))) (f := fun i => |y i|)
    simpa using this
  have h3 : ∑ i, |y i| ^ 2 = y ⬝ᵥ y := Finset.sum_congr rfl fun i _ => by rw [sq_abs, pow_two]
  rw [h3] at h2
  have h4 := mul_le_mul_of_nonneg_left h2 hδ
  calc _ ≤ _ := h1
    _ = δ * (∑ i, |y i|) ^ 2 := by ring
    _ ≤ _ := h4
    _ = _ := by ring

/-- The combination of the vectors with the coefficients `y`. -/
noncomputable def combine {k : ℕ} (v : ℕ → Fin n → ℝ) (y : Fin k → ℝ) : Fin n → ℝ := ∑ i, y i • v i.1

theorem combine_form {k : ℕ} (v : ℕ → Fin n → ℝ) (N : Matrix (Fin n) (Fin n) ℝ) (y : Fin k → ℝ) :
    combine v y ⬝ᵥ (N *ᵥ combine v y) = y ⬝ᵥ ((fun i j => v i.1 ⬝ᵥ (N *ᵥ v j.1) : Matrix (Fin k) (Fin k) ℝ) *ᵥ y) := by
  unfold combine
  rw [sum_dotProduct]
  refine Finset.sum_congr rfl fun i _ => ?_
  rw [smul_dotProduct, smul_eq_mul]
  congr 1
  rw [mulVec_sum, dotProduct_sum]
  refine Finset.sum_congr rfl fun j _ => ?_
  rw [mulVec_smul, dotProduct_smul, smul_eq_mul]
  ring

section

variable {M : Matrix (Fin n) (Fin n) ℝ} {z : Fin n → ℝ} {m size : ℕ} {ε A θ η : ℝ} {a b : ℕ → ℝ} {v : ℕ → Fin n → ℝ}

theorem self_near (hs : Small m ε A θ η) {x : Fin n → ℝ} (hx : |len x - 1| ≤ 2 * ε) : |x ⬝ᵥ x - 1| ≤ 5 * ε := by
  have h1 := abs_le.1 hx
  have hε := hs.ε_le
  have hε0 := hs.hε
  have h2 : ε * ε ≤ 1 / 4096 * ε := mul_le_mul_of_nonneg_right (by linarith) hε0
  rw [← len_sq]
  have hl : 0 ≤ len x := len_nonneg x
  have g1 : len x * len x ≤ (1 + 2 * ε) * (1 + 2 * ε) := mul_le_mul (by linarith) (by linarith) hl (by linarith)
  have g2 : (1 - 2 * ε) * (1 - 2 * ε) ≤ len x * len x := mul_le_mul (by linarith) (by linarith) (by linarith) hl
  have g3 := mul_self_nonneg ε
  rw [abs_le]
  constructor <;> linarith

theorem ε_le_η (hs : Small m ε A θ η) : 128 * ε ≤ η := by
  have h1 : θ * (128 * ε) ≤ θ * η := by
    rw [hs.hη]
    have g1 : ε * θ ≤ ε * A := mul_le_mul_of_nonneg_left hs.hA hs.hε
    have g2 := hs.εA
    linarith
  exact le_of_mul_le_mul_left h1 hs.hθ

/-- The products of the vectors with the matrix are the entries of the tridiagonal matrix. -/
theorem projected_near (hs : Small m ε A θ η) (hM : M.transpose = M) {eAlpha eRec : ℝ} (hAl : eAlpha ≤ 20 * (m * (A * η)))
    (hRec : eRec ≤ 14 * (m * (A * η))) {eLast eRes : ℝ}
    (hU : UnitVectors M z size a (2 * ε) eAlpha v) (hO : OrthogonalLanczos M size a b η eRec eLast eRes v)
    (ha : ∀ k < size, |a k| ≤ 5 / 4 * A) (hb : ∀ k < size, |b k| ≤ 2 * A) (i j : Fin size) :
    |v i.1 ⬝ᵥ (M *ᵥ v j.1) - tridiagonal size a b i j| ≤ 20 * (m * (A * η)) := by
  have hη := hs.η_nonneg
  have hA := hs.A_pos
  have hε := hs.ε_le
  have hε0 := hs.hε
  have hmA : A * η ≤ m * (A * η) := le_mul_of_one_le_left (mul_nonneg hA.le hη) hs.hm
  have key : ∀ i k : ℕ, i < k → k < size →
      |v k ⬝ᵥ (M *ᵥ v i) - if i + 1 = k then b i else 0| ≤ 20 * (m * (A * η)) := by
    intro i k hik hk
    have hrec := hO.recurrence i (by omega)
    obtain ⟨f, hf⟩ : ∃ f : Fin n → ℝ, f = fun l => b i * v (i + 1) l - rest M a b v i l := ⟨_, rfl⟩
    rw [← hf] at hrec
    have hlk : len (v k) ≤ 1001 / 1000 := by linarith [(abs_le.1 (hU.unit k hk)).2]
    have hvf : |v k ⬝ᵥ f| ≤ 1001 / 1000 * (14 * (m * (A * η))) :=
      (abs_dot_le _ _).trans (mul_le_mul hlk (hrec.trans hRec) (len_nonneg _) (by norm_num))
    have e1 : M *ᵥ v i = b i • v (i + 1) + a i • v i + (if i = 0 then 0 else b (i - 1)) • v (i - 1) - f := by
      rw [hf]
      have e2 : (fun l => b i * v (i + 1) l - rest M a b v i l) = b i • v (i + 1) - rest M a b v i := rfl
      rw [e2, rest_eq]
      abel
    have h1 : |a i * (v k ⬝ᵥ v i)| ≤ 5 / 4 * A * η := by
      rw [abs_mul]
      exact mul_le_mul (ha i (by omega)) (hO.orthogonal k hk i (by omega) (by omega)) (abs_nonneg _) (by positivity)
    have h2 : |(if i = 0 then 0 else b (i - 1)) * (v k ⬝ᵥ v (i - 1))| ≤ 2 * A * η := by
      rw [abs_mul]
      by_cases h0 : i = 0
      · rw [if_pos h0, abs_zero, zero_mul]; positivity
      · rw [if_neg h0]
        exact mul_le_mul (hb _ (by omega)) (hO.orthogonal k hk (i - 1) (by omega) (by omega)) (abs_nonneg _) (by positivity)
    have h3 : |b i * (v k ⬝ᵥ v (i + 1)) - if i + 1 = k then b i else 0| ≤ 2 * A * η := by
      by_cases h0 : i + 1 = k
      · rw [if_pos h0, h0, show b i * (v k ⬝ᵥ v k) - b i = b i * (v k ⬝ᵥ v k - 1) by ring, abs_mul]
        have := ε_le_η hs
        exact mul_le_mul (hb i (by omega)) ((self_near hs (hU.unit k hk)).trans (by linarith)) (abs_nonneg _) (by positivity)
      · rw [if_neg h0, sub_zero, abs_mul]
        exact mul_le_mul (hb i (by omega)) (hO.orthogonal k hk (i + 1) (by omega) (by omega)) (abs_nonneg _) (by positivity)
    have e3 : v k ⬝ᵥ (M *ᵥ v i) - (if i + 1 = k then b i else 0) =
        (b i * (v k ⬝ᵥ v (i + 1)) - if i + 1 = k then b i else 0) + a i * (v k ⬝ᵥ v i) +
          (if i = 0 then 0 else b (i - 1)) * (v k ⬝ᵥ v (i - 1)) - v k ⬝ᵥ f := by
      rw [e1, dotProduct_sub, dotProduct_add, dotProduct_add, dotProduct_smul, dotProduct_smul, dotProduct_smul]
      simp only [smul_eq_mul]
      ring
    rw [e3]
    have t1 := abs_le.1 h1
    have t2 := abs_le.1 h2
    have t3 := abs_le.1 h3
    have t4 := abs_le.1 hvf
    rw [abs_le]
    constructor <;> linarith
  unfold tridiagonal
  rcases lt_trichotomy i.1 j.1 with h | h | h
  · rw [if_neg (by intro e; rw [e] at h; omega)]
    have g := key i.1 j.1 h j.2
    rw [dot_sym hM, dotProduct_comm, if_neg (show ¬(j.1 + 1 = i.1) by omega)]
    exact g
  · have e : i = j := Fin.ext h
    subst e
    rw [if_pos rfl, abs_sub_comm]
    exact (hU.diagonal i.1 i.2).trans hAl
  · rw [if_neg (by intro e; rw [e] at h; omega), if_neg (by omega)]
    exact key j.1 i.1 h i.2

/-- The Gram matrix is near the identity. -/
theorem gram_near (hs : Small m ε A θ η) {eAlpha eRec eLast eRes : ℝ}
    (hU : UnitVectors M z size a (2 * ε) eAlpha v) (hO : OrthogonalLanczos M size a b η eRec eLast eRes v) (i j : Fin size) :
    |v i.1 ⬝ᵥ ((1 : Matrix (Fin n) (Fin n) ℝ) *ᵥ v j.1) - (1 : Matrix (Fin size) (Fin size) ℝ) i j| ≤ η := by
  rw [one_mulVec]
  by_cases h : i = j
  · subst h
    rw [one_apply_eq]
    have := ε_le_η hs
    have := hs.hε
    exact (self_near hs (hU.unit i.1 i.2)).trans (by linarith)
  · rw [one_apply_ne h, sub_zero]
    exact hO.orthogonal _ i.2 _ j.2 fun e => h (Fin.ext e)

/-- Bounds on the quadratic form of the matrix are bounds on that of the tridiagonal matrix. -/
theorem tridiagonal_form (hs : Small m ε A θ η) (hM : M.transpose = M) (hsize : size ≤ m) {eAlpha eRec : ℝ}
    (hAl : eAlpha ≤ 20 * (m * (A * η))) (hRec : eRec ≤ 14 * (m * (A * η))) {eLast eRes : ℝ}
    (hU : UnitVectors M z size a (2 * ε) eAlpha v) (hO : OrthogonalLanczos M size a b η eRec eLast eRes v)
    (ha : ∀ k < size, |a k| ≤ 5 / 4 * A) (hb : ∀ k < size, |b k| ≤ 2 * A) {c : ℝ} (hc : |c| ≤ A)
    (hform : ∀ x : Fin n → ℝ, c * (x ⬝ᵥ x) ≤ x ⬝ᵥ (M *ᵥ x)) (y : Fin size → ℝ) :
    (c - 21 * (m * m * (A * η))) * (y ⬝ᵥ y) ≤ y ⬝ᵥ (tridiagonal size a b *ᵥ y) := by
  have hη := hs.η_nonneg
  have hA := hs.A_pos
  have hk : (size : ℝ) ≤ m := by exact_mod_cast hsize
  have hy : 0 ≤ y ⬝ᵥ y := Finset.sum_nonneg fun i _ => mul_self_nonneg _
  have h1 := quadratic_close (projected_near hs hM hAl hRec hU hO ha hb) y
  have h2 := quadratic_close (gram_near hs hU hO) y
  have h3 := hform (combine v y)
  have e1 : combine v y ⬝ᵥ combine v y = combine v y ⬝ᵥ ((1 : Matrix (Fin n) (Fin n) ℝ) *ᵥ combine v y) := by rw [one_mulVec]
  rw [e1, combine_form, combine_form] at h3
  rw [one_mulVec] at h2
  generalize y ⬝ᵥ ((fun i j => v i.1 ⬝ᵥ (M *ᵥ v j.1) : Matrix (Fin size) (Fin size) ℝ) *ᵥ y) = G at h1 h3
  generalize y ⬝ᵥ ((fun i j => v i.1 ⬝ᵥ ((1 : Matrix (Fin n) (Fin n) ℝ) *ᵥ v j.1) : Matrix (Fin size) (Fin size) ℝ) *ᵥ y) = I
    at h2 h3
  generalize y ⬝ᵥ (tridiagonal size a b *ᵥ y) = Tq at h1 ⊢
  generalize y ⬝ᵥ y = Y at h1 h2 hy ⊢
  have k1 : 20 * (m * (A * η)) * size * Y ≤ 20 * (m * (A * η)) * m * Y :=
    mul_le_mul_of_nonneg_right (mul_le_mul_of_nonneg_left hk (by positivity)) hy
  have k2 : η * size * Y ≤ η * m * Y := mul_le_mul_of_nonneg_right (mul_le_mul_of_nonneg_left hk hη) hy
  have k3 : |c * (I - Y)| ≤ A * (η * m * Y) := by
    rw [abs_mul]
    exact mul_le_mul hc (h2.trans k2) (abs_nonneg _) hA.le
  have k4 : A * (η * m * Y) ≤ m * (A * (η * m * Y)) :=
    le_mul_of_one_le_left (by positivity) hs.hm
  have t1 := (abs_le.1 h1).2
  have t3 := (abs_le.1 k3).1
  linarith

/-- The same for upper bounds. -/
theorem tridiagonal_form_le (hs : Small m ε A θ η) (hM : M.transpose = M) (hsize : size ≤ m) {eAlpha eRec : ℝ}
    (hAl : eAlpha ≤ 20 * (m * (A * η))) (hRec : eRec ≤ 14 * (m * (A * η))) {eLast eRes : ℝ}
    (hU : UnitVectors M z size a (2 * ε) eAlpha v) (hO : OrthogonalLanczos M size a b η eRec eLast eRes v)
    (ha : ∀ k < size, |a k| ≤ 5 / 4 * A) (hb : ∀ k < size, |b k| ≤ 2 * A) {c : ℝ} (hc : |c| ≤ A)
    (hform : ∀ x : Fin n → ℝ, x ⬝ᵥ (M *ᵥ x) ≤ c * (x ⬝ᵥ x)) (y : Fin size → ℝ) :
    y ⬝ᵥ (tridiagonal size a b *ᵥ y) ≤ (c + 21 * (m * m * (A * η))) * (y ⬝ᵥ y) := by
  have hη := hs.η_nonneg
  have hA := hs.A_pos
  have hk : (size : ℝ) ≤ m := by exact_mod_cast hsize
  have hy : 0 ≤ y ⬝ᵥ y := Finset.sum_nonneg fun i _ => mul_self_nonneg _
  have h1 := quadratic_close (projected_near hs hM hAl hRec hU hO ha hb) y
  have h2 := quadratic_close (gram_near hs hU hO) y
  have h3 := hform (combine v y)
  have e1 : combine v y ⬝ᵥ combine v y = combine v y ⬝ᵥ ((1 : Matrix (Fin n) (Fin n) ℝ) *ᵥ combine v y) := by rw [one_mulVec]
  rw [e1, combine_form, combine_form] at h3
  rw [one_mulVec] at h2
  generalize y ⬝ᵥ ((fun i j => v i.1 ⬝ᵥ (M *ᵥ v j.1) : Matrix (Fin size) (Fin size) ℝ) *ᵥ y) = G at h1 h3
  generalize y ⬝ᵥ ((fun i j => v i.1 ⬝ᵥ ((1 : Matrix (Fin n) (Fin n) ℝ) *ᵥ v j.1) : Matrix (Fin size) (Fin size) ℝ) *ᵥ y) = I
    at h2 h3
  generalize y ⬝ᵥ (tridiagonal size a b *ᵥ y) = Tq at h1 ⊢
  generalize y ⬝ᵥ y = Y at h1 h2 hy ⊢
  have k1 : 20 * (m * (A * η)) * size * Y ≤ 20 * (m * (A * η)) * m * Y :=
    mul_le_mul_of_nonneg_right (mul_le_mul_of_nonneg_left hk (by positivity)) hy
  have k2 : η * size * Y ≤ η * m * Y := mul_le_mul_of_nonneg_right (mul_le_mul_of_nonneg_left hk hη) hy
  have k3 : |c * (I - Y)| ≤ A * (η * m * Y) := by
    rw [abs_mul]
    exact mul_le_mul hc (h2.trans k2) (abs_nonneg _) hA.le
  have k4 : A * (η * m * Y) ≤ m * (A * (η * m * Y)) :=
    le_mul_of_one_le_left (by positivity) hs.hm
  have t1 := (abs_le.1 h1).1
  have t3 := (abs_le.1 k3).2
  linarith

end

/-- Eigenvalues are values of the quadratic form. -/
theorem spectral_form {k : ℕ} {T Q : Matrix (Fin k) (Fin k) ℝ} {lam : Fin k → ℝ} (h : Spectral T Q lam) (i : Fin k) :
    ∃ y : Fin k → ℝ, y ⬝ᵥ y = 1 ∧ y ⬝ᵥ (T *ᵥ y) = lam i := by
  refine ⟨fun l => Q l i, ?_, ?_⟩
  · have := congrFun (congrFun h.left i) i
    rw [one_apply_eq] at this
    exact this
  · have e1 : (fun l => Q l i) = Q *ᵥ Pi.single i 1 := by
      funext l
      simp
    have e2 : T *ᵥ (Q *ᵥ Pi.single i 1) = lam i • (Q *ᵥ Pi.single i 1) := by
      rw [h.eq, mulVec_mulVec, Matrix.mul_assoc, h.left, Matrix.mul_one, ← mulVec_mulVec]
      have : diagonal lam *ᵥ Pi.single i (1 : ℝ) = lam i • Pi.single i (1 : ℝ) := by
        funext l
        rw [mulVec_diagonal]
        by_cases hl : l = i
        · subst hl; simp
        · simp [hl]
      rw [this, mulVec_smul]
    have := congrFun (congrFun h.left i) i
    rw [one_apply_eq] at this
    rw [e1, e2, dotProduct_smul, ← e1, smul_eq_mul]
    have e3 : (fun l => Q l i) ⬝ᵥ (fun l => Q l i) = 1 := this
    rw [e3, mul_one]

end Imate.Rounded
