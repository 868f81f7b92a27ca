import Verif.Spec.Krylov
import Verif.Lemmas.GolubKahn
import Mathlib.Algebra.Polynomial.AlgebraMap
import Mathlib.LinearAlgebra.Matrix.Polynomial
import Mathlib.LinearAlgebra.Lagrange

/-! Matrix form of the recurrences and exactness of Gauss quadrature. -/

namespace Imate.Lanczos

open Matrix Spec Polynomial

variable {n k : Nat}

/-- Columns of a basis. -/
def cols (k : Nat) (v : Nat → Fin n → ℝ) : Matrix (Fin n) (Fin k) ℝ := fun x i => v i x

theorem cols_orthonormal {v : Nat → Fin n → ℝ}
    (h : ∀ i < k, ∀ j < k, v i ⬝ᵥ v j = if i = j then 1 else 0) :
    (cols k v)ᵀ * cols k v = 1 := by
  ext i j
  rw [Matrix.mul_apply, Matrix.one_apply]
  have := h i.1 i.2 j.1 j.2
  simp only [Fin.ext_iff]
  rw [← this]
  rfl

theorem sum_fin_eq (f : Fin k → ℝ) (c : Nat) (hc : c < k) (t : Fin k → ℝ) :
    ∑ i, f i * (if i.1 = c then t i else 0) = f ⟨c, hc⟩ * t ⟨c, hc⟩ := by
  rw [Finset.sum_eq_single ⟨c, hc⟩]
  · simp
  · intro b _ hb
    rw [if_neg (fun h => hb (Fin.ext h)), mul_zero]
  · simp

theorem cols_mulVec_first (v : Nat → Fin n → ℝ) (hk : 0 < k) : cols k v *ᵥ firstCol k = v 0 := by
  funext x
  show ∑ i : Fin k, cols k v x i * (if i.1 = 0 then 1 else 0) = v 0 x
  rw [sum_fin_eq (fun i => cols k v x i) 0 hk (fun _ => 1)]
  simp [cols]

/-- The Lanczos factorisation in matrix form. -/
theorem lanczos_factor {A : Matrix (Fin n) (Fin n) ℝ} {z : Fin n → ℝ} (hA : A.IsSymm)
    (hk : 0 < k) (hb : ∀ i < k, bb A z i ≠ 0) :
    KrylovFactorisation A z (cols k (vv A z))
      (tridiagonal k (aa A z) (fun i => bb A z (i + 1))) (rr A z k) := by
  obtain ⟨hon, hr⟩ := orthonormal_ref hA (k - 1) (fun i hi => hb i (by omega))
  rw [Nat.sub_add_cancel hk] at hr
  have hVV : (cols k (vv A z))ᵀ * cols k (vv A z) = 1 :=
    cols_orthonormal (fun i hi j hj => hon i (by omega) j (by omega))
  have hres : (cols k (vv A z))ᵀ *ᵥ rr A z k = 0 := by
    funext i
    show ∑ x, vv A z i x * rr A z k x = 0
    have := hr i.1 (by omega)
    rw [dotProduct_comm] at this
    exact this
  have hfac : A * cols k (vv A z) = cols k (vv A z) *
      tridiagonal k (aa A z) (fun i => bb A z (i + 1)) + vecMulVec (rr A z k) (lastRow k) := by
    ext x j
    have hAv : (A * cols k (vv A z)) x j = (A *ᵥ vv A z j) x := rfl
    rw [hAv, Matrix.add_apply, Matrix.mul_apply, vecMulVec_apply]
    have hsplit : ∀ i : Fin k, cols k (vv A z) x i *
        tridiagonal k (aa A z) (fun i => bb A z (i + 1)) i j =
        cols k (vv A z) x i * (if i.1 = j.1 then aa A z i else 0) +
        cols k (vv A z) x i * (if i.1 = j.1 + 1 then bb A z (j + 1) else 0) +
        (if i.1 + 1 = j.1 then cols k (vv A z) x i * bb A z (i + 1) else 0) := by
      intro i
      unfold tridiagonal
      by_cases h1 : i = j
      · subst h1; simp
      · have h1' : i.1 ≠ j.1 := fun h => h1 (Fin.ext h)
        by_cases h2 : i.1 + 1 = j.1
        · rw [if_neg h1, if_pos h2, if_neg h1', if_neg (by omega), if_pos h2]; ring
        · by_cases h3 : j.1 + 1 = i.1
          · rw [if_neg h1, if_neg h2, if_pos h3, if_neg h1', if_pos h3.symm, if_neg h2]; ring
          · rw [if_neg h1, if_neg h2, if_neg h3, if_neg h1', if_neg (by omega), if_neg h2]; ring
    simp only [hsplit, Finset.sum_add_distrib]
    rw [sum_fin_eq (fun i => cols k (vv A z) x i) j.1 j.2 (fun i => aa A z i)]
    -- next vector or residual
    have hnext : ∑ i : Fin k, cols k (vv A z) x i * (if i.1 = j.1 + 1 then bb A z (j + 1) else 0) +
        rr A z k x * lastRow k j = rr A z (j.1 + 1) x := by
      unfold lastRow
      by_cases h : j.1 + 1 = k
      · rw [Finset.sum_eq_zero, if_pos h, h]
        · ring
        · intro i _; rw [if_neg (by omega), mul_zero]
      · rw [sum_fin_eq (fun i => cols k (vv A z) x i) (j.1 + 1) (by omega)
          (fun _ => bb A z (j + 1)), if_neg h, rr_eq_smul (hb (j.1 + 1) (by omega))]
        simp [cols, mul_comm]
    have hprev : ∑ i : Fin k, (if i.1 + 1 = j.1 then cols k (vv A z) x i * bb A z (i + 1) else 0) =
        if h : 0 < j.1 then bb A z j * vv A z (j.1 - 1) x else 0 := by
      by_cases h : 0 < j.1
      · rw [dif_pos h, Finset.sum_eq_single ⟨j.1 - 1, by omega⟩]
        · rw [if_pos (by simp; omega)]
          simp only [cols, Nat.sub_add_cancel h]
          ring
        · intro b _ hne
          rw [if_neg]
          intro hc
          apply hne
          apply Fin.ext
          simp only; omega
        · simp
      · rw [dif_neg h]
        apply Finset.sum_eq_zero
        intro i _
        rw [if_neg (by omega)]
    rw [hprev]
    have hrec : (A *ᵥ vv A z j.1) x = rr A z (j.1 + 1) x + aa A z j.1 * vv A z j.1 x +
        (if h : 0 < j.1 then bb A z j * vv A z (j.1 - 1) x else 0) := by
      rcases Nat.eq_zero_or_pos j.1 with h0 | hp
      · rw [dif_neg (by omega), h0, mulVec_vv_zero]
        simp
      · rw [dif_pos hp]
        obtain ⟨l, hl⟩ : ∃ l, j.1 = l + 1 := ⟨j.1 - 1, by omega⟩
        rw [hl, mulVec_vv_succ]
        simp
    rw [hrec]
    simp only [cols] at hnext ⊢
    linarith
  refine ⟨hVV, ?_, hfac, hres, ?_⟩
  · rw [cols_mulVec_first _ hk]
    show rr A z 0 = bb A z 0 • vv A z 0
    exact rr_eq_smul (hb 0 hk)
  · rw [Matrix.mul_assoc, hfac, Matrix.mul_add, ← Matrix.mul_assoc, hVV, Matrix.one_mul]
    rw [show (cols k (vv A z))ᵀ * vecMulVec (rr A z k) (lastRow k) =
      vecMulVec ((cols k (vv A z))ᵀ *ᵥ rr A z k) (lastRow k) from ?_]
    · rw [hres]
      ext i j
      simp
    · ext i j
      simp [vecMulVec_apply, Matrix.mul_apply, mulVec, dotProduct, Finset.sum_mul, mul_assoc]

/-! ### Powers -/

/-- Upper Hessenberg: nothing below the first sub-diagonal. -/
def Hessenberg (T : Matrix (Fin k) (Fin k) ℝ) : Prop := ∀ i j : Fin k, j.1 + 1 < i.1 → T i j = 0

theorem tridiagonal_hessenberg (a b : Nat → ℝ) : Hessenberg (tridiagonal k a b) := by
  intro i j h
  unfold tridiagonal
  rw [if_neg (fun h' => by subst h'; omega), if_neg (by omega), if_neg (by omega)]

theorem hessenberg_pow {T : Matrix (Fin k) (Fin k) ℝ} (hT : Hessenberg T) (p : Nat) (i : Fin k)
    (hi : p < i.1) : ((T ^ p) *ᵥ firstCol k) i = 0 := by
  induction p generalizing i with
  | zero =>
    simp [firstCol]
    omega
  | succ p ih =>
    rw [pow_succ', ← mulVec_mulVec]
    show ∑ j, T i j * ((T ^ p) *ᵥ firstCol k) j = 0
    apply Finset.sum_eq_zero
    intro j _
    by_cases h : p < j.1
    · rw [ih j h, mul_zero]
    · rw [hT i j (by omega), zero_mul]

variable {M : Matrix (Fin n) (Fin n) ℝ} {z : Fin n → ℝ} {V : Matrix (Fin n) (Fin k) ℝ}
  {T : Matrix (Fin k) (Fin k) ℝ} {w : Fin n → ℝ}

theorem lastRow_dot (x : Fin k → ℝ) (h : ∀ i : Fin k, i.1 + 1 = k → x i = 0) :
    lastRow k ⬝ᵥ x = 0 := by
  apply Finset.sum_eq_zero
  intro i _
  unfold lastRow
  by_cases hi : i.1 + 1 = k
  · rw [h i hi, mul_zero]
  · rw [if_neg hi, zero_mul]

theorem krylov_pow (h : KrylovFactorisation M z V T w) (hT : Hessenberg T) (p : Nat)
    (hp : p < k ∨ (w = 0)) :
    (M ^ p) *ᵥ (V *ᵥ firstCol k) = V *ᵥ ((T ^ p) *ᵥ firstCol k) := by
  induction p with
  | zero => simp
  | succ p ih =>
    have ih := ih (by rcases hp with hp | hp
                      · exact Or.inl (by omega)
                      · exact Or.inr hp)
    rw [pow_succ', ← mulVec_mulVec, ih, mulVec_mulVec, h.factor, add_mulVec, ← mulVec_mulVec,
      mulVec_mulVec (firstCol k) T, ← pow_succ']
    have : vecMulVec w (lastRow k) *ᵥ (T ^ p *ᵥ firstCol k) = 0 := by
      funext x
      show ∑ j, (w x * lastRow k j) * (T ^ p *ᵥ firstCol k) j = 0
      rcases hp with hp | hp
      · have h0 : lastRow k ⬝ᵥ (T ^ p *ᵥ firstCol k) = 0 := by
          apply lastRow_dot
          intro i hi
          exact hessenberg_pow hT p i (by omega)
        simp only [mul_assoc, ← Finset.mul_sum]
        rw [show ∑ j, lastRow k j * (T ^ p *ᵥ firstCol k) j = 0 from h0, mul_zero]
      · subst hp; simp
    rw [this, add_zero]

/-- Moments agree up to `2k - 1`. -/
theorem moments (h : KrylovFactorisation M z V T w) (hM : M.IsSymm) (hT : Hessenberg T) (p : Nat)
    (hp : p < 2 * k ∨ w = 0) :
    (V *ᵥ firstCol k) ⬝ᵥ ((M ^ p) *ᵥ (V *ᵥ firstCol k)) =
      firstCol k ⬝ᵥ ((T ^ p) *ᵥ firstCol k) := by
  have hTs : T.IsSymm := by
    rw [Matrix.IsSymm, h.projected]
    simp [Matrix.transpose_mul, hM.eq, Matrix.mul_assoc]
  have hVdot : ∀ x y : Fin k → ℝ, (V *ᵥ x) ⬝ᵥ (V *ᵥ y) = x ⬝ᵥ y := by
    intro x y
    rw [dotProduct_mulVec, ← mulVec_transpose, mulVec_mulVec, h.orthonormal, one_mulVec]
  have hpowM : ∀ q, (M ^ q).IsSymm := fun q => hM.pow q
  have hpowT : ∀ q, (T ^ q).IsSymm := fun q => hTs.pow q
  have hsM : ∀ q (x y : Fin n → ℝ), x ⬝ᵥ ((M ^ q) *ᵥ y) = ((M ^ q) *ᵥ x) ⬝ᵥ y := by
    intro q x y; rw [dotProduct_mulVec, ← mulVec_transpose, (hpowM q).eq]
  have hsT : ∀ q (x y : Fin k → ℝ), x ⬝ᵥ ((T ^ q) *ᵥ y) = ((T ^ q) *ᵥ x) ⬝ᵥ y := by
    intro q x y; rw [dotProduct_mulVec, ← mulVec_transpose, (hpowT q).eq]
  rcases Nat.eq_zero_or_pos p with h0 | hpos
  · subst h0
    simp only [pow_zero, one_mulVec]
    exact hVdot _ _
  · -- p = a + 1 + b
    obtain ⟨a, b, hab, hlt⟩ : ∃ a b, p = a + (1 + b) ∧ ((a < k ∧ b < k) ∨ w = 0) := by
      rcases hp with hp | hp
      · refine ⟨p / 2, p - 1 - p / 2, by omega, Or.inl ⟨by omega, by omega⟩⟩
      · exact ⟨0, p - 1, by omega, Or.inr hp⟩
    have ha := krylov_pow h hT a (hlt.imp And.left id)
    have hb := krylov_pow h hT b (hlt.imp And.right id)
    rw [hab, pow_add, ← mulVec_mulVec, hsM, ha, pow_add, ← mulVec_mulVec, hb, pow_one,
      dotProduct_comm]
    rw [pow_add, ← mulVec_mulVec (firstCol k), hsT, pow_add, ← mulVec_mulVec (firstCol k), pow_one]
    rw [dotProduct_comm, dotProduct_mulVec, ← mulVec_transpose, hM.eq]
    generalize T ^ a *ᵥ firstCol k = x
    generalize T ^ b *ᵥ firstCol k = y
    rw [h.projected, ← mulVec_mulVec, ← mulVec_mulVec, dotProduct_mulVec x, ← mulVec_transpose,
      transpose_transpose, dotProduct_mulVec (V *ᵥ x), ← mulVec_transpose, hM.eq]

/-- Gauss quadrature: quadratic forms of polynomials. -/
theorem quadratic_forms (h : KrylovFactorisation M z V T w) (hM : M.IsSymm) (hT : Hessenberg T)
    (p : ℝ[X]) (hp : p.natDegree < 2 * k ∨ w = 0) :
    z ⬝ᵥ ((aeval M p) *ᵥ z) = (z ⬝ᵥ z) * (firstCol k ⬝ᵥ ((aeval T p) *ᵥ firstCol k)) := by
  have hz : 0 ≤ z ⬝ᵥ z := Finset.sum_nonneg (fun i _ => mul_self_nonneg (z i))
  have h1 : (V *ᵥ firstCol k) ⬝ᵥ ((aeval M p) *ᵥ (V *ᵥ firstCol k)) =
      firstCol k ⬝ᵥ ((aeval T p) *ᵥ firstCol k) := by
    rw [aeval_eq_sum_range, aeval_eq_sum_range, Matrix.sum_mulVec, Matrix.sum_mulVec,
      dotProduct_sum, dotProduct_sum]
    apply Finset.sum_congr rfl
    intro q hq
    rw [Finset.mem_range] at hq
    rw [smul_mulVec, smul_mulVec, dotProduct_smul, dotProduct_smul,
      moments h hM hT q (hp.imp (fun h => by omega) id)]
  rw [← h1]
  conv_lhs => rw [h.start]
  rw [mulVec_smul, smul_dotProduct, dotProduct_smul, smul_smul, Real.mul_self_sqrt hz, smul_eq_mul]

/-! ### Spectral decompositions -/

theorem Spectral.pow {M' Q : Matrix (Fin k) (Fin k) ℝ} {lam : Fin k → ℝ} (h : Spectral M' Q lam)
    (p : Nat) : M' ^ p = Q * diagonal (fun i => lam i ^ p) * Qᵀ := by
  induction p with
  | zero =>
    simp only [pow_zero]
    rw [show diagonal (fun _ : Fin k => (1 : ℝ)) = 1 from diagonal_one, Matrix.mul_one, h.right]
  | succ p ih =>
    rw [pow_succ, ih]
    nth_rewrite 1 [h.eq]
    rw [show Q * diagonal (fun i => lam i ^ p) * Qᵀ * (Q * diagonal lam * Qᵀ) =
      Q * diagonal (fun i => lam i ^ p) * (Qᵀ * Q) * diagonal lam * Qᵀ by
        simp only [Matrix.mul_assoc], h.left, Matrix.mul_one, Matrix.mul_assoc Q,
      diagonal_mul_diagonal]
    simp only [pow_succ]

theorem Spectral.aeval {M' Q : Matrix (Fin k) (Fin k) ℝ} {lam : Fin k → ℝ} (h : Spectral M' Q lam)
    (p : ℝ[X]) : aeval M' p = matrixFunction (fun x => p.eval x) Q lam := by
  unfold matrixFunction
  rw [aeval_eq_sum_range]
  simp only [eval_eq_sum_range, Spectral.pow h]
  ext i j
  simp only [Matrix.sum_apply, Matrix.smul_apply, Matrix.mul_apply, diagonal_apply, mul_ite,
    mul_zero, Finset.sum_ite_eq', Finset.mem_univ, if_true, smul_eq_mul, Finset.mul_sum,
    Finset.sum_mul]
  rw [Finset.sum_comm]
  apply Finset.sum_congr rfl; intro x _
  apply Finset.sum_congr rfl; intro y _
  ring

/-- Some polynomial agrees with `f` on finitely many points. -/
theorem exists_poly (f : ℝ → ℝ) (S : Finset ℝ) : ∃ p : ℝ[X], ∀ x ∈ S, p.eval x = f x := by
  refine ⟨Lagrange.interpolate S id f, ?_⟩
  intro x hx
  have := Lagrange.eval_interpolate_at_node (s := S) (v := id) f (fun _ _ _ _ h => h) hx
  simpa using this

/-- The matrix function does not depend on the chosen decomposition; and any function is a
polynomial on finitely many spectra. -/
theorem matrixFunction_poly {M' Q : Matrix (Fin k) (Fin k) ℝ} {lam : Fin k → ℝ}
    (h : Spectral M' Q lam) {f : ℝ → ℝ} {p : ℝ[X]} (hp : ∀ i, p.eval (lam i) = f (lam i)) :
    matrixFunction f Q lam = aeval M' p := by
  rw [Spectral.aeval h]
  unfold matrixFunction
  simp only [hp]

theorem matrixFunction_unique {M' Q Q' : Matrix (Fin k) (Fin k) ℝ} {lam lam' : Fin k → ℝ}
    (h : Spectral M' Q lam) (h' : Spectral M' Q' lam') (f : ℝ → ℝ) :
    matrixFunction f Q lam = matrixFunction f Q' lam' := by
  obtain ⟨p, hp⟩ := exists_poly f (Finset.image lam Finset.univ ∪ Finset.image lam' Finset.univ)
  rw [matrixFunction_poly h (p := p) (fun i => hp _ (by simp)),
    matrixFunction_poly h' (p := p) (fun i => hp _ (by simp))]

/-- The quadrature sum `Σ τ_i² f(θ_i)` is the (0,0) entry of `f(T)`. -/
theorem quadrature_sum {Q : Matrix (Fin k) (Fin k) ℝ} {lam : Fin k → ℝ} (hk : 0 < k) (f : ℝ → ℝ) :
    firstCol k ⬝ᵥ (matrixFunction f Q lam *ᵥ firstCol k) =
      ∑ i, Q ⟨0, hk⟩ i * Q ⟨0, hk⟩ i * f (lam i) := by
  have h1 : ∀ (B : Matrix (Fin k) (Fin k) ℝ), firstCol k ⬝ᵥ (B *ᵥ firstCol k) = B ⟨0, hk⟩ ⟨0, hk⟩ := by
    intro B
    have h2 : ∀ g : Fin k → ℝ, g ⬝ᵥ firstCol k = g ⟨0, hk⟩ := by
      intro g
      show ∑ i : Fin k, g i * (if i.1 = 0 then 1 else 0) = _
      rw [sum_fin_eq g 0 hk (fun _ => 1), mul_one]
    rw [dotProduct_comm, h2]
    show B ⟨0, hk⟩ ⬝ᵥ firstCol k = _
    rw [h2]
  rw [h1]
  unfold matrixFunction
  simp only [Matrix.mul_apply, diagonal_apply, mul_ite, mul_zero, Finset.sum_ite_eq',
    Finset.mem_univ, if_true, transpose_apply]
  apply Finset.sum_congr rfl
  intro i _
  ring

end Imate.Lanczos
