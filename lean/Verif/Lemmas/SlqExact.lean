import Verif.Lemmas.Slq
import Verif.Lemmas.Lapack

/-! Exactness of the quadrature, shift invariance of the Lanczos iteration, averages over Rademacher
vectors. -/

namespace Imate.Lanczos

open Matrix Imate.Spec Polynomial

variable {n : Nat} {A : Matrix (Fin n) (Fin n) ℝ} {z : Fin n → ℝ}

theorem rademacher_dot (hz : Rademacher z) : z ⬝ᵥ z = n := by
  show ∑ i, z i * z i = _
  rw [Finset.sum_congr rfl (g := fun _ => (1 : ℝ)) (fun i _ => by rcases hz i with h | h <;> rw [h] <;> ring)]
  simp

theorem rademacher_ne_zero (hz : Rademacher z) (hn : 0 < n) : z ≠ 0 := by
  intro h
  have := hz ⟨0, hn⟩
  rw [h] at this
  simp at this

/-- Exactness from a Krylov factorisation. -/
theorem krylov_exact {k : Nat} {M : Matrix (Fin n) (Fin n) ℝ} {V : Matrix (Fin n) (Fin k) ℝ}
    {T : Matrix (Fin k) (Fin k) ℝ} {w : Fin n → ℝ} {l : Nodes ℝ}
    (h : KrylovFactorisation M z V T w) (hM : M.IsSymm) (hT : Hessenberg T) (hd : Diagonalises T l)
    (hz : Rademacher z) (pow : ℝ → ℝ → ℝ) (f : ℝ → ℝ) (e : ℝ) :
    (∀ p : ℝ[X], p.natDegree < 2 * k → (∀ x, f (pow x e) = p.eval x) →
      n * quadratureSum pow f e l = z ⬝ᵥ (aeval M p *ᵥ z)) ∧
    (w = 0 → ∀ Q lam, Spectral M Q lam →
      n * quadratureSum pow f e l = z ⬝ᵥ (matrixFunction (fun x => f (pow x e)) Q lam *ᵥ z)) := by
  obtain ⟨hk, Q', lam', hs, _⟩ := id hd
  constructor
  · intro p hp hf
    rw [hd.sum hs, matrixFunction_poly hs (p := p) (fun i => (hf _).symm),
      quadratic_forms h hM hT p (Or.inl hp), rademacher_dot hz]
  · intro hw Q lam hQ
    obtain ⟨p, hp⟩ := exists_poly (fun x => f (pow x e))
      (Finset.image lam Finset.univ ∪ Finset.image lam' Finset.univ)
    rw [hd.sum hs, matrixFunction_poly hs (p := p) (fun i => hp _ (by simp)),
      matrixFunction_poly hQ (p := p) (fun i => hp _ (by simp)),
      quadratic_forms h hM hT p (Or.inr hw), rademacher_dot hz]

theorem gram_symm (B : Matrix (Fin n) (Fin n) ℝ) : (Bᵀ * B).IsSymm := by
  rw [Matrix.IsSymm, transpose_mul, transpose_transpose]

theorem lanczos_krylov {m : Nat} {thr : ℝ} {c : Coefficients ℝ} (hr : LanczosResult A z m thr c)
    (hA : A.IsSymm) (hz : z ≠ 0) (hthr : 0 < thr) (hm : 0 < m) :
    KrylovFactorisation A z (cols c.size (vv A z)) (lanczosT A z c.size) (rr A z c.size) :=
  lanczos_factor hA (hr.pos hm) (hr.ne_zero hz hthr)

theorem gram_krylov {m : Nat} {c : Coefficients ℝ} (hr : GKCore A z m c) :
    KrylovFactorisation (Aᵀ * A) z (cols c.size (gv A z)) (gramT A z c.size)
      (ga A z (c.size - 1) • gq A z c.size) :=
  bidiagonalisation_krylov (golubKahn_factor hr.pos hr.bne hr.ane)

/-! ### Shift invariance -/

theorem vv_zero_or_unit (j : Nat) : vv A z j = 0 ∨ vv A z j ⬝ᵥ vv A z j = 1 := by
  by_cases h : bb A z j = 0
  · left; rw [vv_eq, h]; simp
  · right; exact vv_unit h

theorem shift_step (c : ℝ) (v : Fin n → ℝ) (hv : v = 0 ∨ v ⬝ᵥ v = 1) :
    (A + c • (1 : Matrix (Fin n) (Fin n) ℝ)) *ᵥ v -
      (v ⬝ᵥ ((A + c • (1 : Matrix (Fin n) (Fin n) ℝ)) *ᵥ v)) • v = A *ᵥ v - (v ⬝ᵥ (A *ᵥ v)) • v := by
  rcases hv with rfl | hv
  · simp
  · rw [add_mulVec, smul_mulVec, one_mulVec, dotProduct_add, dotProduct_smul, hv, add_smul]
    simp only [smul_eq_mul, mul_one]
    abel

theorem rr_shift (c : ℝ) (j : Nat) :
    rr (A + c • (1 : Matrix (Fin n) (Fin n) ℝ)) z j = rr A z j ∧
    rr (A + c • (1 : Matrix (Fin n) (Fin n) ℝ)) z (j + 1) = rr A z (j + 1) := by
  have hvv : ∀ i, rr (A + c • (1 : Matrix (Fin n) (Fin n) ℝ)) z i = rr A z i →
      vv (A + c • (1 : Matrix (Fin n) (Fin n) ℝ)) z i = vv A z i := by
    intro i hi
    rw [vv_eq, vv_eq, bb, bb, hi]
  induction j with
  | zero =>
    refine ⟨rfl, ?_⟩
    rw [rr_one, rr_one, aa, aa, hvv 0 rfl]
    exact shift_step c _ (vv_zero_or_unit 0)
  | succ j ih =>
    refine ⟨ih.2, ?_⟩
    have h1 := hvv j ih.1
    have h2 := hvv (j + 1) ih.2
    rw [rr_succ, rr_succ, aa, aa, h1, h2, bb, bb, ih.2,
      shift_step c _ (vv_zero_or_unit (j + 1))]

theorem bb_shift (c : ℝ) (j : Nat) :
    bb (A + c • (1 : Matrix (Fin n) (Fin n) ℝ)) z j = bb A z j := by
  rw [bb, bb, (rr_shift c j).1]

theorem vv_shift (c : ℝ) (j : Nat) :
    vv (A + c • (1 : Matrix (Fin n) (Fin n) ℝ)) z j = vv A z j := by
  rw [vv_eq, vv_eq, bb_shift, (rr_shift c j).1]

theorem aa_shift (c : ℝ) {j : Nat} (h : bb A z j ≠ 0) :
    aa (A + c • (1 : Matrix (Fin n) (Fin n) ℝ)) z j = aa A z j + c := by
  rw [aa, aa, vv_shift, add_mulVec, smul_mulVec, one_mulVec, dotProduct_add, dotProduct_smul,
    vv_unit h]
  simp

theorem lanczosT_shift (c : ℝ) {k : Nat} (h : ∀ i < k, bb A z i ≠ 0) :
    lanczosT (A + c • (1 : Matrix (Fin n) (Fin n) ℝ)) z k = lanczosT A z k + c • 1 := by
  ext i j
  rw [Matrix.add_apply, Matrix.smul_apply, Matrix.one_apply]
  unfold lanczosT tridiagonal
  rw [aa_shift c (h i.1 i.2)]
  simp only [bb_shift]
  split
  · simp
  · simp

/-! ### Averages -/

/-- The vector of signs. -/
noncomputable def signVector (s : Fin n → Bool) : Fin n → ℝ := fun i => if s i then 1 else -1

theorem signVector_rademacher (s : Fin n → Bool) : Rademacher (signVector s) := by
  intro i
  unfold signVector
  cases s i <;> simp

theorem sum_sign_mul (i j : Fin n) :
    ∑ s : Fin n → Bool, signVector s i * signVector s j = if i = j then (2 : ℝ) ^ n else 0 := by
  by_cases h : i = j
  · subst h
    rw [if_pos rfl, Finset.sum_congr rfl (g := fun _ => (1 : ℝ)) (fun s _ => by
      rcases signVector_rademacher s i with h | h <;> rw [h] <;> ring)]
    simp
  · rw [if_neg h]
    have hinv : Function.Involutive (fun s : Fin n → Bool => Function.update s i (!(s i))) := by
      intro s
      funext x
      by_cases hx : x = i
      · subst hx; simp
      · simp [Function.update_of_ne hx]
    have := Equiv.sum_comp (hinv.toPerm _) (fun s => signVector s i * signVector s j)
    have hneg : ∀ s : Fin n → Bool, signVector (hinv.toPerm _ s) i * signVector (hinv.toPerm _ s) j =
        -(signVector s i * signVector s j) := by
      intro s
      show signVector (Function.update s i (!(s i))) i * signVector (Function.update s i (!(s i))) j = _
      unfold signVector
      rw [Function.update_self, Function.update_of_ne (Ne.symm h)]
      cases s i <;> cases s j <;> simp
    simp only [hneg, Finset.sum_neg_distrib] at this
    linarith

/-- The average of the quadratic form over all sign vectors is the trace. -/
theorem average_trace (M : Matrix (Fin n) (Fin n) ℝ) :
    ∑ s : Fin n → Bool, signVector s ⬝ᵥ (M *ᵥ signVector s) = 2 ^ n * M.trace := by
  have h1 : ∀ s : Fin n → Bool, signVector s ⬝ᵥ (M *ᵥ signVector s) =
      ∑ i, ∑ j, M i j * (signVector s i * signVector s j) := by
    intro s
    show ∑ i, signVector s i * ∑ j, M i j * signVector s j = _
    refine Finset.sum_congr rfl fun i _ => ?_
    rw [Finset.mul_sum]
    refine Finset.sum_congr rfl fun j _ => ?_
    ring
  simp only [h1]
  rw [Finset.sum_comm]
  rw [Finset.sum_congr rfl (fun i _ => Finset.sum_comm)]
  simp only [← Finset.mul_sum, sum_sign_mul]
  simp only [mul_ite, mul_zero, Finset.sum_ite_eq, Finset.mem_univ, if_true]
  rw [← Finset.sum_mul, mul_comm]
  rfl

end Imate.Lanczos
