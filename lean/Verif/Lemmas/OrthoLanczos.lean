import Verif.Lemmas.RoundedOrtho

/-!
# Auxiliary results on the Lanczos iteration with full reorthogonalization and rounding
-/

namespace Imate.Rounded

open Matrix Spec Props

variable {n : ℕ}

/-! ### Numbers -/

/-- The sizes of the errors: `m` steps, relative error `ε`, norm `A`, smallest `beta` `θ`. -/
structure Small (m ε A θ η : ℝ) : Prop where
  hm : 1 ≤ m
  hε : 0 ≤ ε
  hθ : 0 < θ
  hA : θ ≤ A
  hη : θ * η = 128 * (m * ε * A)
  sq : 4096 * (m * m * ε * (A * A)) ≤ θ * θ
  skip : 6000 * (m * ε * (A * A)) ≤ θ

section

variable {m ε A θ η : ℝ}

theorem Small.A_pos (h : Small m ε A θ η) : 0 < A := lt_of_lt_of_le h.hθ h.hA

theorem Small.η_nonneg (h : Small m ε A θ η) : 0 ≤ η := by
  have h1 : 0 ≤ θ * η := by
    rw [h.hη]
    have := h.hε
    have := h.A_pos
    have := h.hm
    positivity
  exact nonneg_of_mul_nonneg_right h1 h.hθ

/-- `128 m ε A ≤ A η`. -/
theorem Small.mεA (h : Small m ε A θ η) : 128 * (m * ε * A) ≤ A * η := by
  rw [← h.hη]
  exact mul_le_mul_of_nonneg_right h.hA h.η_nonneg

theorem Small.mEη (h : Small m ε A θ η) : 32 * (m * (A * η)) ≤ θ := by
  have h1 : θ * (32 * (m * (A * η))) ≤ θ * θ := by
    have : θ * (32 * (m * (A * η))) = 32 * (m * A) * (θ * η) := by ring
    rw [this, h.hη]
    have := h.sq
    linarith
  exact le_of_mul_le_mul_left h1 h.hθ

theorem Small.mη (h : Small m ε A θ η) : 32 * (m * η) ≤ 1 := by
  have h1 : A * (32 * (m * η)) ≤ A * 1 := by
    have := h.mEη
    have := h.hA
    linarith
  exact le_of_mul_le_mul_left h1 h.A_pos

theorem Small.mmε (h : Small m ε A θ η) : 4096 * (m * m * ε) ≤ 1 := by
  have hA := h.A_pos
  have h1 : A * A * (4096 * (m * m * ε)) ≤ A * A * 1 := by
    have := h.sq
    have h2 := mul_self_le_mul_self h.hθ.le h.hA
    linarith
  exact le_of_mul_le_mul_left h1 (mul_pos hA hA)

theorem Small.mε (h : Small m ε A θ η) : 4096 * (m * ε) ≤ 1 := by
  have h1 := h.mmε
  have h2 : m * ε ≤ m * (m * ε) :=
    le_mul_of_one_le_left (mul_nonneg (by linarith [h.hm]) h.hε) h.hm
  linarith

theorem Small.ε_le (h : Small m ε A θ η) : 4096 * ε ≤ 1 := by
  have h1 := h.mε
  have h2 : ε ≤ m * ε := le_mul_of_one_le_left h.hε h.hm
  linarith

theorem Small.E_le (h : Small m ε A θ η) : 46 * (A * η) ≤ 1 := by
  have h1 : θ * (46 * (A * η)) ≤ θ * 1 := by
    have : θ * (46 * (A * η)) = 46 * A * (θ * η) := by ring
    rw [this, h.hη]
    have := h.skip
    have h3 : 0 ≤ m * ε * (A * A) := by
      have := h.hm; have := h.hε; have := h.A_pos; positivity
    linarith
  exact le_of_mul_le_mul_left h1 h.hθ

theorem Small.εA (h : Small m ε A θ η) : ε * A ≤ m * ε * A := by
  refine mul_le_mul_of_nonneg_right ?_ h.A_pos.le
  exact le_mul_of_one_le_left h.hε h.hm

theorem Small.mεA_nonneg (h : Small m ε A θ η) : 0 ≤ m * ε * A := by
  have := h.hm; have := h.hε; have := h.A_pos; positivity

theorem Small.mεA_le (h : Small m ε A θ η) : 4096 * (m * ε * A) ≤ A := by
  have := mul_le_mul_of_nonneg_right h.mε h.A_pos.le
  linarith

end

/-- Bound on the components before reorthogonalization. -/
noncomputable def kappa (m ε A η : ℝ) : ℝ := 10 * (A * η) + 64 * (m * ε * A)

/-- Bound on the multiples that reorthogonalization subtracts. -/
noncomputable def cBound (m ε A η : ℝ) : ℝ := 5 / 4 * kappa m ε A η + 45 * (m * ε * A)

theorem Small.c_le {m ε A θ η : ℝ} (h : Small m ε A θ η) : 0 ≤ cBound m ε A η ∧ cBound m ε A η ≤ 27 / 2 * (A * η) := by
  unfold cBound kappa
  have := h.mεA
  have := h.mεA_nonneg
  have := mul_nonneg h.A_pos.le h.η_nonneg
  constructor <;> linarith

/-! ### What holds while all `beta` are at least `θ` -/

/-- `x` is the remainder of step `k`, minus a combination of the first `k + 1` vectors, up to an error of length `F`. -/
def Decomposed (M : Matrix (Fin n) (Fin n) ℝ) (a b : ℕ → ℝ) (v : ℕ → Fin n → ℝ) (C F : ℝ) (k : ℕ) (x : Fin n → ℝ) : Prop :=
  ∃ c : ℕ → ℝ, (∀ t, |c t| ≤ C) ∧ len (x - (rest M a b v k - ∑ t ∈ Finset.range (k + 1), c t • v t)) ≤ F

theorem Decomposed.congr {M : Matrix (Fin n) (Fin n) ℝ} {a a' b b' : ℕ → ℝ} {v v' : ℕ → Fin n → ℝ} {C F : ℝ} {k : ℕ}
    {x : Fin n → ℝ} (h : Decomposed M a b v C F k x) (ha : a k = a' k) (hb : ∀ i < k, b i = b' i)
    (hv : ∀ i ≤ k, v i = v' i) : Decomposed M a' b' v' C F k x := by
  obtain ⟨c, h1, h2⟩ := h
  refine ⟨c, h1, ?_⟩
  rw [← rest_congr ha hb hv]
  have : ∑ t ∈ Finset.range (k + 1), c t • v' t = ∑ t ∈ Finset.range (k + 1), c t • v t :=
    Finset.sum_congr rfl fun t ht => by rw [hv t (by have := Finset.mem_range.1 ht; omega)]
  rwa [this]

theorem Decomposed.near {M : Matrix (Fin n) (Fin n) ℝ} {a b : ℕ → ℝ} {v : ℕ → Fin n → ℝ} {C F F' : ℝ} {k : ℕ}
    {x x' : Fin n → ℝ} (h : Decomposed M a b v C F k x) (hx : len (x' - x) ≤ F') : Decomposed M a b v C (F + F') k x' := by
  obtain ⟨c, h1, h2⟩ := h
  refine ⟨c, h1, ?_⟩
  have e : x' - (rest M a b v k - ∑ t ∈ Finset.range (k + 1), c t • v t) =
      (x - (rest M a b v k - ∑ t ∈ Finset.range (k + 1), c t • v t)) + (x' - x) := by abel
  rw [e]
  exact (len_add_le _ _).trans (add_le_add h2 hx)

theorem Decomposed.mono {M : Matrix (Fin n) (Fin n) ℝ} {a b : ℕ → ℝ} {v : ℕ → Fin n → ℝ} {C F F' : ℝ} {k : ℕ}
    {x : Fin n → ℝ} (h : Decomposed M a b v C F k x) (hF : F ≤ F') : Decomposed M a b v C F' k x := by
  obtain ⟨c, h1, h2⟩ := h
  exact ⟨c, h1, h2.trans hF⟩

/-- What holds before iteration `j`. -/
structure Facts (M : Matrix (Fin n) (Fin n) ℝ) (m ε A η : ℝ) (j : ℕ) (v : ℕ → Fin n → ℝ) (r : Fin n → ℝ) (a b : ℕ → ℝ) :
    Prop where
  orth : ∀ i < j, ∀ k < j, i ≠ k → |v i ⬝ᵥ v k| ≤ η
  res : ∀ i < j, |v i ⬝ᵥ r| ≤ 108 * (m * ε * A)
  alpha : ∀ k < j, |a k| ≤ 5 / 4 * A
  beta : ∀ k < j, |b k| ≤ 2 * A
  recd : ∀ k, k + 1 < j → Decomposed M a b v (cBound m ε A η) (26 * (m * ε * A)) k (b k • v (k + 1))
  last : 0 < j → Decomposed M a b v (cBound m ε A η) (20 * (m * ε * A)) (j - 1) r
  short : 0 < j → len r ≤ 3 / 2 * A

/-! ### The new vector -/

/-- The new vector is orthogonal to the previous ones. -/
theorem new_orth {m ε A θ η : ℝ} (h : Small m ε A θ η) {x r w : Fin n → ℝ} {β : ℝ} (hx : |len x - 1| ≤ 2 * ε)
    (hβ : θ ≤ β) (hr : |x ⬝ᵥ r| ≤ 108 * (m * ε * A)) (hn : |β - len r| ≤ ε * len r)
    (hw : len (β • w - r) ≤ 1 / 2 * ε * len r) : |x ⬝ᵥ w| ≤ η := by
  have hβ0 : 0 < β := lt_of_lt_of_le h.hθ hβ
  have hε := h.ε_le
  have hε0 := h.hε
  have hl := (abs_le.1 hx).2
  have hrβ : len r ≤ 2 * β := by
    have := (abs_le.1 hn).1
    have h1 : ε * len r ≤ 1 / 4096 * len r := mul_le_mul_of_nonneg_right (by linarith) (len_nonneg r)
    linarith [len_nonneg r]
  have e1 : β * (x ⬝ᵥ w) = x ⬝ᵥ r + x ⬝ᵥ (β • w - r) := by
    rw [dotProduct_sub, dotProduct_smul, smul_eq_mul]; ring
  have h2 := abs_dot_le x (β • w - r)
  have h3 : len x * len (β • w - r) ≤ 2 * (1 / 2 * ε * len r) :=
    mul_le_mul (by linarith) hw (len_nonneg _) (by norm_num)
  have h4 : ε * len r ≤ ε * (2 * β) := mul_le_mul_of_nonneg_left hrβ hε0
  have h5 : β * |x ⬝ᵥ w| ≤ 108 * (m * ε * A) + ε * (2 * β) := by
    have : |β * (x ⬝ᵥ w)| = β * |x ⬝ᵥ w| := by rw [abs_mul, abs_of_pos hβ0]
    rw [← this, e1]
    refine (abs_add_le _ _).trans ?_
    linarith
  -- m ε A ≤ β η / 128 and ε ≤ η / 128
  have h6 : 128 * (m * ε * A) ≤ β * η := by
    rw [← h.hη]
    exact mul_le_mul_of_nonneg_right hβ h.η_nonneg
  have h7 : 128 * ε ≤ η := by
    have h8 : A * (128 * ε) ≤ A * η := by
      have := h.mεA
      have := h.εA
      linarith
    exact le_of_mul_le_mul_left h8 h.A_pos
  have h9 : β * (128 * ε) ≤ β * η := mul_le_mul_of_nonneg_left h7 hβ0.le
  have h10 : β * |x ⬝ᵥ w| ≤ β * η := by
    have := mul_nonneg hβ0.le h.η_nonneg
    linarith
  exact le_of_mul_le_mul_left h10 hβ0

/-! ### The components before reorthogonalization -/

section

variable {M P : Matrix (Fin n) (Fin n) ℝ} {A : ℝ}

theorem len_abs (x : Fin n → ℝ) : len (fun i => |x i|) = len x := by
  unfold len
  congr 1
  exact Finset.sum_congr rfl fun i _ => abs_mul_abs_self _

theorem mulVec_abs_le (hP : ∀ i j, |M i j| ≤ P i j) (x : Fin n → ℝ) (i : Fin n) :
    |(M *ᵥ x) i| ≤ (P *ᵥ fun j => |x j|) i := by
  refine (Finset.abs_sum_le_sum_abs (fun l => M i l * x l) Finset.univ).trans (Finset.sum_le_sum fun l _ => ?_)
  rw [abs_mul]
  exact mul_le_mul_of_nonneg_right (hP i l) (abs_nonneg _)

theorem len_mulVec_le (hP : ∀ i j, |M i j| ≤ P i j) (hA : ∀ x : Fin n → ℝ, len (P *ᵥ fun j => |x j|) ≤ A * len x)
    (x : Fin n → ℝ) : len (M *ᵥ x) ≤ A * len x := by
  refine le_trans ?_ (hA x)
  have := len_le_of_abs_le (x := M *ᵥ x) (y := P *ᵥ fun j => |x j|) (c := 1) (by norm_num) fun i => by
    rw [one_mul]
    exact (mulVec_abs_le hP x i).trans (le_abs_self _)
  linarith

theorem dot_sym (hM : M.transpose = M) (x y : Fin n → ℝ) : x ⬝ᵥ (M *ᵥ y) = (M *ᵥ x) ⬝ᵥ y := by
  rw [dotProduct_mulVec, ← mulVec_transpose, hM]

theorem rest_eq (a b : ℕ → ℝ) (v : ℕ → Fin n → ℝ) (k : ℕ) :
    rest M a b v k = M *ᵥ v k - a k • v k - (if k = 0 then 0 else b (k - 1)) • v (k - 1) := by
  funext i
  unfold rest
  simp only [Pi.sub_apply, Pi.smul_apply, smul_eq_mul]
  split <;> simp

theorem dot_comb_le {v : ℕ → Fin n → ℝ} {c : ℕ → ℝ} {C η : ℝ} {y : Fin n → ℝ} (k : ℕ) (hc : ∀ t, |c t| ≤ C) (hη : 0 ≤ η)
    (hy : ∀ t < k, |v t ⬝ᵥ y| ≤ η) : |(∑ t ∈ Finset.range k, c t • v t) ⬝ᵥ y| ≤ k * (C * η) := by
  rw [sum_dotProduct]
  refine (Finset.abs_sum_le_sum_abs _ _).trans ?_
  have : ∑ t ∈ Finset.range k, |c t • v t ⬝ᵥ y| ≤ ∑ _t ∈ Finset.range k, C * η := Finset.sum_le_sum fun t ht => by
    rw [smul_dotProduct, smul_eq_mul, abs_mul]
    exact mul_le_mul (hc t) (hy t (Finset.mem_range.1 ht)) (abs_nonneg _) ((abs_nonneg _).trans (hc t))
  simpa using this

/-- `|β x · y|`. -/
theorem term_le {β B d D : ℝ} (hβ : |β| ≤ B) (hd : |d| ≤ D) : |β * d| ≤ B * D := by
  rw [abs_mul]
  exact mul_le_mul hβ hd (abs_nonneg _) ((abs_nonneg _).trans hβ)

theorem sq_len {ε : ℝ} (hε0 : 0 ≤ ε) (hε : 4096 * ε ≤ 1) {x : Fin n → ℝ} (h : |len x - 1| ≤ 2 * ε) :
    |x ⬝ᵥ x - 1| ≤ 5 * ε := by
  rw [← len_sq]
  obtain ⟨h1, h2⟩ := abs_le.1 h
  have h3 : ε * ε ≤ ε * (1 / 4096) := mul_le_mul_of_nonneg_left (by linarith) hε0
  have h4 : |len x - 1| * |len x - 1| ≤ 2 * ε * (2 * ε) := mul_self_le_mul_self (abs_nonneg _) h
  rw [abs_mul_abs_self] at h4
  have h5 : 0 ≤ (len x - 1) * (len x - 1) := mul_self_nonneg _
  rw [abs_le]
  constructor <;> linarith

/-- Component along the current vector. -/
theorem comp_self {m ε θ η : ℝ} (h : Small m ε A θ η) {a b : ℕ → ℝ} {v : ℕ → Fin n → ℝ} {j : ℕ} {r f : Fin n → ℝ}
    (hr : r = rest M a b v j + f) (hf : len f ≤ 7 * (ε * A)) (hunit : |len (v j) - 1| ≤ 2 * ε)
    (ha : |a j| ≤ 5 / 4 * A) (hd : |a j - v j ⬝ᵥ (M *ᵥ v j)| ≤ 5 / 2 * (ε * A)) (hb : j ≠ 0 → |b (j - 1)| ≤ 2 * A)
    (ho : j ≠ 0 → |v j ⬝ᵥ v (j - 1)| ≤ η) : |v j ⬝ᵥ r| ≤ kappa m ε A η := by
  have hη := h.η_nonneg
  have hA := h.A_pos
  have h1 := term_le ha (sq_len h.hε h.ε_le hunit)
  have h2 : |(if j = 0 then 0 else b (j - 1)) * (v j ⬝ᵥ v (j - 1))| ≤ 2 * A * η := by
    split
    · rw [zero_mul, abs_zero]; positivity
    · rename_i h0; exact term_le (hb h0) (ho h0)
  have h3 : |v j ⬝ᵥ f| ≤ 2 * (7 * (ε * A)) := (abs_dot_le _ _).trans
    (mul_le_mul (by linarith [(abs_le.1 hunit).2, h.ε_le]) hf (len_nonneg _) (by norm_num))
  have e : v j ⬝ᵥ r = -(a j - v j ⬝ᵥ (M *ᵥ v j)) - a j * (v j ⬝ᵥ v j - 1) -
      (if j = 0 then 0 else b (j - 1)) * (v j ⬝ᵥ v (j - 1)) + v j ⬝ᵥ f := by
    rw [hr, rest_eq, dotProduct_add, dotProduct_sub, dotProduct_sub, dotProduct_smul, dotProduct_smul, smul_eq_mul, smul_eq_mul]
    ring
  rw [e]
  unfold kappa
  have h4 := h.εA
  have h5 := h.mεA_nonneg
  obtain ⟨g1, g1'⟩ := abs_le.1 h1
  obtain ⟨g2, g2'⟩ := abs_le.1 h2
  obtain ⟨g3, g3'⟩ := abs_le.1 h3
  obtain ⟨g4, g4'⟩ := abs_le.1 hd
  have h6 := mul_nonneg hA.le hη
  rw [abs_le]
  constructor <;> linarith

/-- The component of `M v_j` along an earlier vector, from the recurrence of that vector. -/
theorem comp_early {m ε θ η : ℝ} (h : Small m ε A θ η) {a b : ℕ → ℝ} {v : ℕ → Fin n → ℝ} {i j : ℕ} (hij : i < j)
    (hjm : (j : ℝ) ≤ m) (hM : M.transpose = M)
    (hdec : Decomposed M a b v (cBound m ε A η) (26 * (m * ε * A)) i (b i • v (i + 1)))
    (hunit : |len (v j) - 1| ≤ 2 * ε) (ha : |a i| ≤ 5 / 4 * A) (hb : i ≠ 0 → |b (i - 1)| ≤ 2 * A)
    (ho : ∀ t < j, |v t ⬝ᵥ v j| ≤ η) :
    |v i ⬝ᵥ (M *ᵥ v j) - b i * (v (i + 1) ⬝ᵥ v j)| ≤ 37 / 10 * (A * η) + 27 * (m * ε * A) := by
  obtain ⟨c, hc, hF⟩ := hdec
  have hη := h.η_nonneg
  have hA := h.A_pos
  set S := ∑ t ∈ Finset.range (i + 1), c t • v t with hS
  set g := b i • v (i + 1) - (rest M a b v i - S) with hg
  have h1 : |S ⬝ᵥ v j| ≤ ((i + 1 : ℕ) : ℝ) * (cBound m ε A η * η) :=
    dot_comb_le (i + 1) hc hη fun t ht => ho t (by omega)
  have h1' : |S ⬝ᵥ v j| ≤ 43 / 100 * (A * η) := by
    refine h1.trans ?_
    have h2 : ((i + 1 : ℕ) : ℝ) ≤ m := le_trans (by exact_mod_cast hij) hjm
    have h3 := h.c_le
    have h4 : ((i + 1 : ℕ) : ℝ) * (cBound m ε A η * η) ≤ m * (27 / 2 * (A * η) * η) :=
      mul_le_mul h2 (mul_le_mul_of_nonneg_right h3.2 hη) (mul_nonneg h3.1 hη) (by linarith [h.hm])
    have h5 : (A * η) * (32 * (m * η)) ≤ (A * η) * 1 := mul_le_mul_of_nonneg_left h.mη (mul_nonneg hA.le hη)
    have h6 := mul_nonneg hA.le hη
    linarith
  have h2 := term_le ha (ho i hij)
  have h3 : |(if i = 0 then 0 else b (i - 1)) * (v (i - 1) ⬝ᵥ v j)| ≤ 2 * A * η := by
    split
    · rw [zero_mul, abs_zero]; positivity
    · rename_i h0; exact term_le (hb h0) (ho (i - 1) (by omega))
  have h4 : |g ⬝ᵥ v j| ≤ 26 * (m * ε * A) * (1 + 2 * ε) := (abs_dot_le _ _).trans
    (mul_le_mul hF (by linarith [(abs_le.1 hunit).2]) (len_nonneg _) (by linarith [h.mεA_nonneg]))
  have h4' : |g ⬝ᵥ v j| ≤ 27 * (m * ε * A) := by
    refine h4.trans ?_
    have := mul_le_mul_of_nonneg_left h.ε_le h.mεA_nonneg
    have := h.mεA_nonneg
    linarith
  have e : v i ⬝ᵥ (M *ᵥ v j) - b i * (v (i + 1) ⬝ᵥ v j) = a i * (v i ⬝ᵥ v j) +
      (if i = 0 then 0 else b (i - 1)) * (v (i - 1) ⬝ᵥ v j) + S ⬝ᵥ v j - g ⬝ᵥ v j := by
    rw [dot_sym hM, hg, rest_eq]
    simp only [sub_dotProduct, smul_dotProduct, smul_eq_mul]
    ring
  rw [e]
  obtain ⟨g1, g1'⟩ := abs_le.1 h1'
  obtain ⟨g2, g2'⟩ := abs_le.1 h2
  obtain ⟨g3, g3'⟩ := abs_le.1 h3
  obtain ⟨g4, g4'⟩ := abs_le.1 h4'
  rw [abs_le]
  constructor <;> linarith

/-- Component along an earlier vector. -/
theorem comp_other {m ε θ η : ℝ} (h : Small m ε A θ η) {a b : ℕ → ℝ} {v : ℕ → Fin n → ℝ} {i j : ℕ} (hij : i < j)
    (hjm : (j : ℝ) ≤ m) (hM : M.transpose = M) {r f : Fin n → ℝ}
    (hr : r = rest M a b v j + f) (hf : len f ≤ 7 * (ε * A))
    (hdec : ∀ k < j, Decomposed M a b v (cBound m ε A η) (26 * (m * ε * A)) k (b k • v (k + 1)))
    (hunit : ∀ k ≤ j, |len (v k) - 1| ≤ 2 * ε) (ha : ∀ k ≤ j, |a k| ≤ 5 / 4 * A) (hb : ∀ k < j, |b k| ≤ 2 * A)
    (ho : ∀ k ≤ j, ∀ l ≤ j, k ≠ l → |v k ⬝ᵥ v l| ≤ η) : |v i ⬝ᵥ r| ≤ kappa m ε A η := by
  have hη := h.η_nonneg
  have hA := h.A_pos
  have h0 := comp_early h hij hjm hM (hdec i hij) (hunit j le_rfl) (ha i hij.le) (fun h0 => hb (i - 1) (by omega))
    fun t ht => ho t ht.le j le_rfl (by omega)
  have h1 := term_le (ha j le_rfl) (ho i hij.le j le_rfl (by omega))
  have h3 : |v i ⬝ᵥ f| ≤ 2 * (7 * (ε * A)) := (abs_dot_le _ _).trans
    (mul_le_mul (by linarith [(abs_le.1 (hunit i hij.le)).2, h.ε_le]) hf (len_nonneg _) (by norm_num))
  have e : v i ⬝ᵥ r = (v i ⬝ᵥ (M *ᵥ v j) - b i * (v (i + 1) ⬝ᵥ v j)) - a j * (v i ⬝ᵥ v j) +
      (b i * (v (i + 1) ⬝ᵥ v j) - b (j - 1) * (v i ⬝ᵥ v (j - 1))) + v i ⬝ᵥ f := by
    rw [hr, rest_eq, dotProduct_add, dotProduct_sub, dotProduct_sub, dotProduct_smul, dotProduct_smul, smul_eq_mul, smul_eq_mul,
      if_neg (by omega)]
    ring
  have h2 : |b i * (v (i + 1) ⬝ᵥ v j) - b (j - 1) * (v i ⬝ᵥ v (j - 1))| ≤ 4 * (A * η) + 20 * (ε * A) := by
    by_cases hlast : i + 1 = j
    · have e2 : j - 1 = i := by omega
      rw [e2, hlast, ← mul_sub]
      have g1 := sq_len h.hε h.ε_le (hunit j le_rfl)
      have g2 := sq_len h.hε h.ε_le (hunit i hij.le)
      have g3 : |v j ⬝ᵥ v j - v i ⬝ᵥ v i| ≤ 10 * ε := by
        obtain ⟨k1, k1'⟩ := abs_le.1 g1
        obtain ⟨k2, k2'⟩ := abs_le.1 g2
        rw [abs_le]
        constructor <;> linarith
      have g4 := term_le (hb i hij) g3
      have := mul_nonneg hA.le hη
      linarith
    · have g1 := term_le (hb i hij) (ho (i + 1) (by omega) j le_rfl hlast)
      have g2 := term_le (hb (j - 1) (by omega)) (ho i hij.le (j - 1) (by omega) (by omega))
      refine (abs_sub _ _).trans ?_
      have := mul_nonneg h.hε hA.le
      linarith
  rw [e]
  unfold kappa
  have h4 := h.εA
  have h5 := h.mεA_nonneg
  have h6 := mul_nonneg hA.le hη
  obtain ⟨g0, g0'⟩ := abs_le.1 h0
  obtain ⟨g1, g1'⟩ := abs_le.1 h1
  obtain ⟨g2, g2'⟩ := abs_le.1 h2
  obtain ⟨g3, g3'⟩ := abs_le.1 h3
  rw [abs_le]
  constructor <;> linarith

/-! ### The length of the remainder after reorthogonalization -/

theorem remainder_short {m ε θ η : ℝ} (h : Small m ε A θ η) {a b : ℕ → ℝ} {v : ℕ → Fin n → ℝ} {j : ℕ}
    (hjm : ((j + 1 : ℕ) : ℝ) ≤ m) (hMA : len (M *ᵥ v j) ≤ A * len (v j)) (hunit : |len (v j) - 1| ≤ 2 * ε) {r : Fin n → ℝ}
    (hdec : Decomposed M a b v (cBound m ε A η) (20 * (m * ε * A)) j r) (ha : |a j| ≤ 5 / 4 * A)
    (hb : j ≠ 0 → |b (j - 1)| ≤ 2 * A) (hres : ∀ i ≤ j, |v i ⬝ᵥ r| ≤ 108 * (m * ε * A)) : len r ≤ 3 / 2 * A := by
  obtain ⟨c, hc, hF⟩ := hdec
  have hη := h.η_nonneg
  have hA := h.A_pos
  set S := ∑ t ∈ Finset.range (j + 1), c t • v t with hS
  set g := r - (rest M a b v j - S) with hg
  set T := 108 * (m * ε * A) with hT
  have hT0 : 0 ≤ T := by have := h.mεA_nonneg; positivity
  have hTA : T ≤ 27 / 1000 * A := by have := h.mεA_le; linarith
  have h1 : |S ⬝ᵥ r| ≤ ((j + 1 : ℕ) : ℝ) * (cBound m ε A η * T) :=
    dot_comb_le (j + 1) hc hT0 fun t ht => hres t (by omega)
  have h1' : |S ⬝ᵥ r| ≤ 43 / 100 * A * T := by
    refine h1.trans ?_
    have h3 := h.c_le
    have h4 : ((j + 1 : ℕ) : ℝ) * (cBound m ε A η * T) ≤ m * (27 / 2 * (A * η) * T) :=
      mul_le_mul hjm (mul_le_mul_of_nonneg_right h3.2 hT0) (mul_nonneg h3.1 hT0) (by linarith [h.hm])
    have h5 : 32 * (m * η) * (A * T) ≤ 1 * (A * T) := mul_le_mul_of_nonneg_right h.mη (mul_nonneg hA.le hT0)
    have h6 := mul_nonneg hA.le hT0
    linarith
  have h2 := term_le ha (hres j le_rfl)
  have h3 : |(if j = 0 then 0 else b (j - 1)) * (v (j - 1) ⬝ᵥ r)| ≤ 2 * A * T := by
    split
    · rw [zero_mul, abs_zero]; positivity
    · rename_i h0; exact term_le (hb h0) (hres (j - 1) (by omega))
  have h4 : |g ⬝ᵥ r| ≤ 20 * (m * ε * A) * len r := (abs_dot_le _ _).trans
    (mul_le_mul_of_nonneg_right hF (len_nonneg r))
  have h5 : |(M *ᵥ v j) ⬝ᵥ r| ≤ A * (1 + 2 * ε) * len r := (abs_dot_le _ _).trans
    (mul_le_mul_of_nonneg_right (hMA.trans (mul_le_mul_of_nonneg_left (by linarith [(abs_le.1 hunit).2]) hA.le)) (len_nonneg r))
  have e : r ⬝ᵥ r = (M *ᵥ v j) ⬝ᵥ r - a j * (v j ⬝ᵥ r) - (if j = 0 then 0 else b (j - 1)) * (v (j - 1) ⬝ᵥ r) - S ⬝ᵥ r +
      g ⬝ᵥ r := by
    rw [hg, rest_eq]
    simp only [sub_dotProduct, smul_dotProduct, smul_eq_mul]
    ring
  rw [← len_sq] at e
  set x := len r with hx
  have hx0 : 0 ≤ x := len_nonneg r
  have h6 : 20 * (m * ε * A) * x ≤ 1 / 100 * A * x := mul_le_mul_of_nonneg_right (by linarith [h.mεA_le]) hx0
  have h7 : A * (1 + 2 * ε) * x ≤ A * (101 / 100) * x :=
    mul_le_mul_of_nonneg_right (mul_le_mul_of_nonneg_left (by linarith [h.ε_le]) hA.le) hx0
  have h8 : x * x ≤ 102 / 100 * (A * x) + 37 / 10 * (A * T) := by
    have := (abs_le.1 h1').1
    have := (abs_le.1 h2).1
    have := (abs_le.1 h3).1
    have := (abs_le.1 h4).2
    have := (abs_le.1 h5).2
    have := mul_nonneg hA.le hT0
    linarith
  have h9 : A * T ≤ A * (27 / 1000 * A) := mul_le_mul_of_nonneg_left hTA hA.le
  by_contra hlt
  push Not at hlt
  have h10 : x * (3 / 2 * A) ≤ x * x := mul_le_mul_of_nonneg_left hlt.le hx0
  have h11 : A * (3 / 2 * A) < A * x := mul_lt_mul_of_pos_left hlt hA
  linarith [mul_pos hA hA]

end

/-! ### One iteration -/

section

variable {M P : Matrix (Fin n) (Fin n) ℝ} {A ε θ η : ℝ} {m j : ℕ} {v : ℕ → Fin n → ℝ} {r vj : Fin n → ℝ} {a b : ℕ → ℝ}
  {al : ℝ}

/-- The vectors after normalization, and the coefficients. -/
theorem facts_vectors (hs : Small m ε A θ η) (hP : ∀ i j, |M i j| ≤ P i j)
    (hA : ∀ x : Fin n → ℝ, len (P *ᵥ fun j => |x j|) ≤ A * len x) (h : Facts M m ε A η j v r a b)
    (hunit : ∀ k < j, |len (v k) - 1| ≤ 2 * ε) (hunitj : |len vj - 1| ≤ 2 * ε) (hθ : 0 < j → θ ≤ b (j - 1))
    (hn : 0 < j → |b (j - 1) - len r| ≤ ε * len r) (hvj : 0 < j → len (b (j - 1) • vj - r) ≤ 1 / 2 * ε * len r)
    (hal : |al - vj ⬝ᵥ (M *ᵥ vj)| ≤ 5 / 2 * (ε * A)) :
    (∀ k ≤ j, |len (Function.update v j vj k) - 1| ≤ 2 * ε) ∧
    (∀ i ≤ j, ∀ k ≤ j, i ≠ k → |Function.update v j vj i ⬝ᵥ Function.update v j vj k| ≤ η) ∧
    (∀ k < j, Decomposed M (Function.update a j al) b (Function.update v j vj) (cBound m ε A η) (26 * (m * ε * A)) k
      (b k • Function.update v j vj (k + 1))) ∧
    ∀ k ≤ j, |Function.update a j al k| ≤ 5 / 4 * A := by
  have hApos := hs.A_pos
  have hvlt : ∀ k < j, Function.update v j vj k = v k := fun k hk => Function.update_of_ne (by omega) _ _
  have halt : ∀ k < j, Function.update a j al k = a k := fun k hk => Function.update_of_ne (by omega) _ _
  have hnew : ∀ i < j, |v i ⬝ᵥ vj| ≤ η := fun i hi => new_orth hs (hunit i hi) (hθ (by omega)) (h.res i hi) (hn (by omega))
    (hvj (by omega))
  refine ⟨fun k hk => ?_, fun i hi k hk hne => ?_, fun k hk => ?_, fun k hk => ?_⟩
  · rcases hk.lt_or_eq with h1 | rfl
    · rw [hvlt k h1]; exact hunit k h1
    · rw [Function.update_self]; exact hunitj
  · rcases hi.lt_or_eq with h1 | rfl
    · rcases hk.lt_or_eq with h2 | rfl
      · rw [hvlt i h1, hvlt k h2]; exact h.orth i h1 k h2 hne
      · rw [hvlt i h1, Function.update_self]; exact hnew i h1
    · rcases hk.lt_or_eq with h2 | rfl
      · rw [hvlt k h2, Function.update_self, dotProduct_comm]; exact hnew k h2
      · exact absurd rfl hne
  · by_cases hk1 : k + 1 = j
    · have e : k = j - 1 := by omega
      rw [hk1, Function.update_self]
      have h1 := (h.last (by omega)).near (x' := b (j - 1) • vj) (F' := m * ε * A) (by
        refine (hvj (by omega)).trans ?_
        have g1 := mul_le_mul_of_nonneg_left (h.short (by omega)) hs.hε
        have g2 := hs.εA
        have g3 := mul_nonneg hs.hε hApos.le
        linarith)
      rw [← e] at h1
      refine (h1.mono (by linarith [hs.mεA_nonneg])).congr (halt k (by omega)).symm (fun _ _ => rfl) fun i hi => ?_
      exact (hvlt i (by omega)).symm
    · rw [hvlt (k + 1) (by omega)]
      exact (h.recd k (by omega)).congr (halt k hk).symm (fun _ _ => rfl) fun i hi => (hvlt i (by omega)).symm
  · rcases hk.lt_or_eq with h1 | rfl
    · rw [halt k h1]; exact h.alpha k h1
    · rw [Function.update_self]
      have h1 := abs_dot_le vj (M *ᵥ vj)
      have h2 := len_mulVec_le hP hA vj
      have hl : len vj ≤ 1 + 2 * ε := by linarith [(abs_le.1 hunitj).2]
      have hε := hs.ε_le
      have hl' : len vj ≤ 101 / 100 := by linarith
      have h3 : len vj * len (M *ᵥ vj) ≤ 101 / 100 * (A * (101 / 100)) :=
        mul_le_mul hl' (h2.trans (mul_le_mul_of_nonneg_left hl' hApos.le)) (len_nonneg _) (by norm_num)
      have h4 := abs_sub_abs_le_abs_sub al (vj ⬝ᵥ (M *ᵥ vj))
      have h5 := mul_le_mul_of_nonneg_right hε hApos.le
      linarith

/-- The vector before reorthogonalization. -/
theorem facts_remainder (hs : Small m ε A θ η) (hjm : j + 1 ≤ m) (hM : M.transpose = M)
    (hP : ∀ i j, |M i j| ≤ P i j)
    (hA : ∀ x : Fin n → ℝ, len (P *ᵥ fun j => |x j|) ≤ A * len x) (hunit : ∀ k ≤ j, |len (v k) - 1| ≤ 2 * ε)
    (ho : ∀ i ≤ j, ∀ k ≤ j, i ≠ k → |v i ⬝ᵥ v k| ≤ η)
    (hdec : ∀ k < j, Decomposed M a b v (cBound m ε A η) (26 * (m * ε * A)) k (b k • v (k + 1)))
    (ha : ∀ k ≤ j, |a k| ≤ 5 / 4 * A) (hb : ∀ k < j, |b k| ≤ 2 * A)
    (hal : |a j - v j ⬝ᵥ (M *ᵥ v j)| ≤ 5 / 2 * (ε * A)) {r2 : Fin n → ℝ}
    (hr2 : ∀ i, |r2 i - rest M a b v j i| ≤ 8 / 5 * ε * restAbs P a b v j i) :
    len (r2 - rest M a b v j) ≤ 7 * (ε * A) ∧ len r2 ≤ 5 * A ∧ ∀ i ≤ j, |v i ⬝ᵥ r2| ≤ kappa m ε A η := by
  have hApos := hs.A_pos
  have hε := hs.ε_le
  have hε0 := hs.hε
  have hl : ∀ k ≤ j, len (v k) ≤ 1001 / 1000 := fun k hk => by linarith [(abs_le.1 (hunit k hk)).2]
  have hbj : |if j = 0 then 0 else b (j - 1)| ≤ 2 * A := by
    split
    · rw [abs_zero]; positivity
    · exact hb (j - 1) (by omega)
  have h1 : len (restAbs P a b v j) ≤ 43 / 10 * A := by
    have e : restAbs P a b v j = (P *ᵥ fun l => |v j l|) + ((fun i => |(a j • v j) i|) +
        fun i => |((if j = 0 then 0 else b (j - 1)) • v (j - 1)) i|) := by
      funext i
      unfold restAbs
      simp only [Pi.add_apply, Pi.smul_apply, smul_eq_mul]
      split <;> simp [add_assoc]
    rw [e]
    refine (len_add_le _ _).trans ?_
    have g1 := len_add_le (fun i => |(a j • v j) i|) fun i => |((if j = 0 then 0 else b (j - 1)) • v (j - 1)) i|
    rw [len_abs, len_abs, len_scale, len_scale] at g1
    have g2 := (hA (v j)).trans (mul_le_mul_of_nonneg_left (hl j le_rfl) hApos.le)
    have g3 := mul_le_mul (ha j le_rfl) (hl j le_rfl) (len_nonneg _) (by positivity)
    have g4 := mul_le_mul hbj (hl (j - 1) (by omega)) (len_nonneg _) (by positivity)
    linarith
  have hRA : ∀ i, 0 ≤ restAbs P a b v j i := fun i => by
    unfold restAbs
    have : 0 ≤ (P *ᵥ fun l => |v j l|) i := (abs_nonneg _).trans (mulVec_abs_le hP (v j) i)
    split <;> positivity
  have h2 : len (r2 - rest M a b v j) ≤ 7 * (ε * A) := by
    have g1 := len_le_of_abs_le (x := r2 - rest M a b v j) (y := restAbs P a b v j) (c := 8 / 5 * ε) (by positivity)
      fun i => by rw [abs_of_nonneg (hRA i)]; exact hr2 i
    have g2 := mul_le_mul_of_nonneg_left h1 (by positivity : 0 ≤ 8 / 5 * ε)
    have := mul_nonneg hε0 hApos.le
    linarith
  have e1 : r2 = rest M a b v j + (r2 - rest M a b v j) := by abel
  refine ⟨h2, ?_, fun i hi => ?_⟩
  · have g0 : len (rest M a b v j) ≤ 43 / 10 * A := by
      rw [rest_eq]
      refine (len_sub_le _ _).trans ?_
      have g1 := len_sub_le (M *ᵥ v j) (a j • v j)
      rw [len_scale] at g1 ⊢
      have g2 := (len_mulVec_le hP hA (v j)).trans (mul_le_mul_of_nonneg_left (hl j le_rfl) hApos.le)
      have g3 := mul_le_mul (ha j le_rfl) (hl j le_rfl) (len_nonneg _) (by positivity)
      have g4 := mul_le_mul hbj (hl (j - 1) (by omega)) (len_nonneg _) (by positivity)
      linarith
    have g5 := len_add_le (rest M a b v j) (r2 - rest M a b v j)
    rw [← e1] at g5
    have := mul_le_mul_of_nonneg_right hε hApos.le
    linarith
  · have hj1 : ((j : ℕ) : ℝ) ≤ m := by exact_mod_cast (by omega : j ≤ m)
    rcases hi.lt_or_eq with h3 | rfl
    · exact comp_other hs h3 hj1 hM e1 h2 hdec hunit ha hb ho
    · exact comp_self hs e1 h2 (hunit i le_rfl) (ha i le_rfl) hal (fun h0 => hb (i - 1) (by omega))
        fun h0 => ho i le_rfl (i - 1) (by omega) (by omega)

/-- The vector after reorthogonalization. -/
theorem facts_reorthogonalized (hs : Small m ε A θ η) (hjm : j + 1 ≤ m) (hP : ∀ i j, |M i j| ≤ P i j)
    (hA : ∀ x : Fin n → ℝ, len (P *ᵥ fun j => |x j|) ≤ A * len x) (hunit : ∀ k ≤ j, |len (v k) - 1| ≤ 2 * ε)
    (ho : ∀ i ≤ j, ∀ k ≤ j, i ≠ k → |v i ⬝ᵥ v k| ≤ η)
    (hdec : ∀ k < j, Decomposed M a b v (cBound m ε A η) (26 * (m * ε * A)) k (b k • v (k + 1)))
    (ha : ∀ k ≤ j, |a k| ≤ 5 / 4 * A) (hb : ∀ k < j, |b k| ≤ 2 * A) {r2 r3 : Fin n → ℝ}
    (hr2 : len (r2 - rest M a b v j) ≤ 7 * (ε * A))
    (hgs : GSInv ε η (kappa m ε A η) (5 * A) (5 / 4 * kappa m ε A η + 9 * (((j + 1 : ℕ) : ℝ) * (ε * (5 * A)))) (j + 1)
      (fun t => v (j - t)) r2 (j + 1) r3) {bn : ℝ} (hbn : |bn - len r3| ≤ ε * len r3) :
    Facts M m ε A η (j + 1) v r3 a (Function.update b j bn) := by
  have hApos := hs.A_pos
  have hη := hs.η_nonneg
  have hε := hs.ε_le
  have hε0 := hs.hε
  have hblt : ∀ k < j, b k = Function.update b j bn k := fun k hk => (Function.update_of_ne (by omega) _ _).symm
  have hj1 : ((j + 1 : ℕ) : ℝ) ≤ m := by exact_mod_cast hjm
  have hj0 : (0 : ℝ) ≤ ((j + 1 : ℕ) : ℝ) := Nat.cast_nonneg _
  have hεA := mul_nonneg hε0 hApos.le
  have hjX : ((j + 1 : ℕ) : ℝ) * (ε * A) ≤ m * ε * A := by
    have := mul_le_mul_of_nonneg_right hj1 hεA
    linarith
  have hC : 5 / 4 * kappa m ε A η + 9 * (((j + 1 : ℕ) : ℝ) * (ε * (5 * A))) ≤ cBound m ε A η := by
    unfold cBound
    linarith
  have hC0 : 0 ≤ 5 / 4 * kappa m ε A η + 9 * (((j + 1 : ℕ) : ℝ) * (ε * (5 * A))) := by
    have h1 : 0 ≤ kappa m ε A η := by
      unfold kappa
      have := mul_nonneg hApos.le hη
      have := hs.mεA_nonneg
      positivity
    positivity
  have hres : ∀ i ≤ j, |v i ⬝ᵥ r3| ≤ 108 * (m * ε * A) := by
    intro i hi
    have h1 := hgs.earlier (j - i) (by omega)
    simp only [show j - (j - i) = i by omega] at h1
    refine h1.trans ?_
    set C := 5 / 4 * kappa m ε A η + 9 * (((j + 1 : ℕ) : ℝ) * (ε * (5 * A))) with hCd
    have h2 : ((j + 1 : ℕ) : ℝ) * (C * η) ≤ m * (cBound m ε A η * η) :=
      mul_le_mul hj1 (mul_le_mul_of_nonneg_right hC hη) (mul_nonneg hC0 hη) (by linarith [hs.hm])
    have h3 : m * (cBound m ε A η * η) = 25 / 2 * (m * (A * η) * η) + 125 * (m * η * (m * ε * A)) := by
      unfold cBound kappa; ring
    have h4 : 32 * (m * (A * η)) * η ≤ θ * η := mul_le_mul_of_nonneg_right hs.mEη hη
    rw [hs.hη] at h4
    have h5 : 32 * (m * η) * (m * ε * A) ≤ 1 * (m * ε * A) := mul_le_mul_of_nonneg_right hs.mη hs.mεA_nonneg
    have h6 := hs.εA
    have h7 := hs.mεA_nonneg
    linarith
  have hdec3 : Decomposed M a b v (cBound m ε A η) (20 * (m * ε * A)) j r3 := by
    obtain ⟨c, h1, h2⟩ := hgs.change
    refine ⟨fun t => c (j - t), fun t => (h1 _).trans hC, ?_⟩
    have e1 : ∑ t ∈ Finset.range (j + 1), c (j - t) • v t = ∑ t ∈ Finset.range (j + 1), c t • v (j - t) := by
      rw [← Finset.sum_range_reflect (fun t => c t • v (j - t))]
      refine Finset.sum_congr rfl fun t ht => ?_
      have := Finset.mem_range.1 ht
      rw [show j + 1 - 1 - t = j - t by omega, show j - (j - t) = t by omega]
    rw [e1]
    have e2 : r3 - (rest M a b v j - ∑ t ∈ Finset.range (j + 1), c t • v (j - t)) =
        (r3 - (r2 - ∑ t ∈ Finset.range (j + 1), c t • v (j - t))) + (r2 - rest M a b v j) := by abel
    rw [e2]
    refine (len_add_le _ _).trans ?_
    have := hs.εA
    linarith
  have hshort : len r3 ≤ 3 / 2 * A := remainder_short hs hj1 (len_mulVec_le hP hA (v j)) (hunit j le_rfl) hdec3 (ha j le_rfl)
    (fun h0 => hb (j - 1) (by omega)) hres
  refine ⟨fun i hi k hk hne => ho i (by omega) k (by omega) hne, fun i hi => hres i (by omega), fun k hk => ha k (by omega),
    fun k hk => ?_, fun k hk => ?_, fun _ => ?_, fun _ => hshort⟩
  · by_cases hkj : k = j
    · subst hkj
      rw [Function.update_self]
      have h1 := abs_sub_abs_le_abs_sub bn (len r3)
      rw [abs_of_nonneg (len_nonneg r3)] at h1
      have h2 := mul_le_mul (show ε ≤ 1 / 4096 by linarith) hshort (len_nonneg _) (by norm_num)
      linarith
    · rw [← hblt k (by omega)]; exact hb k (by omega)
  · rw [← hblt k (by omega)]
    exact (hdec k (by omega)).congr rfl (fun i hi => hblt i (by omega)) fun _ _ => rfl
  · exact hdec3.congr rfl (fun i hi => hblt i (by omega)) fun _ _ => rfl

end

end Imate.Rounded
