import Verif.Lemmas.SlqConvergence

/-!
# More steps of the iteration

The matrix of the first `k` steps is a leading block of that of `k'` steps, so its quadrature is a Gauss rule for the
quadrature of `k'` steps.
-/

namespace Imate.Lanczos

open Matrix Imate.Spec Imate.Gauss Finset

variable {n : Nat} {z : Fin n → ℝ} {k l : Nat}

/-- The first `k` of `l` unit vectors. -/
def leading (k l : Nat) : Matrix (Fin l) (Fin k) ℝ := fun i j => if i.1 = j.1 then 1 else 0

theorem leading_mul (hkl : k ≤ l) (T : Matrix (Fin k) (Fin k) ℝ) (i : Fin l) (j : Fin k) :
    (leading k l * T) i j = if h : i.1 < k then T ⟨i.1, h⟩ j else 0 := by
  rw [Matrix.mul_apply]
  split
  · rename_i h
    rw [sum_eq_single ⟨i.1, h⟩ (fun x _ hx => by
      rw [leading, if_neg fun e => hx (Fin.ext e.symm), zero_mul]) (by simp)]
    simp [leading]
  · rename_i h
    exact sum_eq_zero fun x _ => by rw [leading, if_neg fun e => h (by omega), zero_mul]

theorem mul_leading (hkl : k ≤ l) {m : Nat} (T : Matrix (Fin m) (Fin l) ℝ) (i : Fin m) (j : Fin k) :
    (T * leading k l) i j = T i (Fin.castLE hkl j) := by
  rw [Matrix.mul_apply, sum_eq_single (Fin.castLE hkl j) (fun x _ hx => by
    rw [leading, if_neg (c := x.1 = j.1) fun e => hx (Fin.ext e), mul_zero]) (by simp)]
  simp [leading]

theorem leading_transpose_mul (hkl : k ≤ l) {m : Nat} (T : Matrix (Fin l) (Fin m) ℝ) (i : Fin k) (j : Fin m) :
    ((leading k l)ᵀ * T) i j = T (Fin.castLE hkl i) j := by
  rw [Matrix.mul_apply, sum_eq_single (Fin.castLE hkl i) (fun x _ hx => by
    rw [transpose_apply, leading, if_neg (c := x.1 = i.1) fun e => hx (Fin.ext e), zero_mul]) (by simp)]
  simp [leading]

/-- A leading block is a Krylov projection. -/
theorem leading_krylov (hk : 0 < k) (hkl : k ≤ l) {T : Matrix (Fin k) (Fin k) ℝ} {S : Matrix (Fin l) (Fin l) ℝ} (hS : Hessenberg S)
    (hT : ∀ i j, T i j = S (Fin.castLE hkl i) (Fin.castLE hkl j)) :
    KrylovFactorisation S (firstCol l) (leading k l) T
      (fun i => if k ≤ i.1 then S i (Fin.castLE hkl ⟨k - 1, by omega⟩) else 0) := by
  refine ⟨?_, ?_, ?_, ?_, ?_⟩
  · ext i j
    rw [mul_leading hkl, transpose_apply, leading, Matrix.one_apply]
    by_cases h : i = j
    · subst h; simp
    · rw [if_neg (fun e => h (Fin.ext e.symm)), if_neg h]
  · rw [firstCol_dot (by omega), Real.sqrt_one, one_smul]
    funext i
    show _ = ∑ j : Fin k, (if i.1 = j.1 then (1 : ℝ) else 0) * (if j.1 = 0 then 1 else 0)
    rw [sum_eq_single ⟨0, hk⟩ (fun x _ hx => by rw [if_neg (c := x.1 = 0) fun e => hx (Fin.ext e), mul_zero]) (by simp)]
    simp [firstCol]
  · ext i j
    rw [mul_leading hkl, Matrix.add_apply, leading_mul hkl, vecMulVec_apply]
    by_cases h : i.1 < k
    · rw [dif_pos h, if_neg (by omega), zero_mul, add_zero, hT]
      rfl
    · rw [dif_neg h, if_pos (by omega), zero_add]
      unfold lastRow
      by_cases h1 : j.1 + 1 = k
      · rw [if_pos h1, mul_one]
        congr 1
        exact Fin.ext (by simp; omega)
      · rw [if_neg h1, mul_zero]
        exact hS _ _ (by have := j.2; simp; omega)
  · funext j
    show ∑ i, (leading k l)ᵀ j i * (if k ≤ i.1 then _ else 0) = 0
    refine sum_eq_zero fun i _ => ?_
    have := j.2
    rw [transpose_apply, leading]
    split
    · rw [if_neg (by omega), mul_zero]
    · rw [zero_mul]
  · ext i j
    rw [mul_leading hkl, leading_transpose_mul hkl, hT]

theorem tridiagonal_leading (hkl : k ≤ l) (a b : Nat → ℝ) (i j : Fin k) :
    tridiagonal k a b i j = tridiagonal l a b (Fin.castLE hkl i) (Fin.castLE hkl j) := by
  unfold tridiagonal
  simp only [Fin.castLE_inj, Fin.val_castLE]

theorem bidiagonal_leading (hkl : k ≤ l) (a b : Nat → ℝ) (i j : Fin k) :
    ((bidiagonal k a b)ᵀ * bidiagonal k a b) i j =
      ((bidiagonal l a b)ᵀ * bidiagonal l a b) (Fin.castLE hkl i) (Fin.castLE hkl j) := by
  rw [Matrix.mul_apply, Matrix.mul_apply]
  have h1 : ∀ i j : Fin k, bidiagonal k a b i j = bidiagonal l a b (Fin.castLE hkl i) (Fin.castLE hkl j) := fun i j => by
    unfold bidiagonal
    simp only [Fin.castLE_inj, Fin.val_castLE]
  rw [← sum_subset (subset_univ (univ.map (Fin.castLEEmb hkl))) fun x _ hx => ?_, sum_map]
  · exact sum_congr rfl fun x _ => by rw [transpose_apply, transpose_apply, h1, h1]; rfl
  · have hxk : k ≤ x.1 := by
      by_contra h
      exact hx (mem_map.2 ⟨⟨x.1, by omega⟩, mem_univ _, Fin.ext rfl⟩)
    rw [transpose_apply]
    have := i.2
    rw [show bidiagonal l a b x (Fin.castLE hkl i) = 0 from ?_, zero_mul]
    unfold bidiagonal
    rw [if_neg (fun e => by rw [e] at hxk; simp at hxk; omega), if_neg (by simp; omega)]

/-- The quadrature after `k` steps is a Gauss rule for the one after `l ≥ k` steps. -/
theorem leading_rule (hk : 0 < k) (hkl : k ≤ l) {T P : Matrix (Fin k) (Fin k) ℝ} {S R : Matrix (Fin l) (Fin l) ℝ}
    {th : Fin k → ℝ} {et : Fin l → ℝ} {a b : ℝ} (hTH : Hessenberg T) (hS : Hessenberg S)
    (hT : ∀ i j, T i j = S (Fin.castLE hkl i) (Fin.castLE hkl j)) (hP : Spectral T P th) (hR : Spectral S R et)
    (het : ∀ i, et i ∈ Set.Icc a b) :
    Rule a b th (fun i => weights P (firstCol k) i) et (weights R (firstCol l)) := by
  have h := (leading_krylov hk hkl hS hT).rule hR hP hTH hk het
  simpa only [firstCol_dot (by omega : 0 < l), one_mul] using h

/-- The matrix that the iteration has built after `k` steps, and the numbers that are compared with the tolerance. -/
noncomputable def stepMatrix (gram : Bool) (A : Matrix (Fin n) (Fin n) ℝ) (z : Fin n → ℝ) (k : Nat) : Matrix (Fin k) (Fin k) ℝ :=
  if gram then gramT A z k else lanczosT A z k
noncomputable def stepBeta (gram : Bool) (A : Matrix (Fin n) (Fin n) ℝ) (z : Fin n → ℝ) : Nat → ℝ :=
  if gram then gb A z else bb A z

theorem stepMatrix_hessenberg (gram : Bool) (A : Matrix (Fin n) (Fin n) ℝ) (z : Fin n → ℝ) (k : Nat) :
    Hessenberg (stepMatrix gram A z k) := by
  unfold stepMatrix
  split
  · exact bidiagonal_gram_hessenberg _ _
  · exact tridiagonal_hessenberg _ _

theorem stepMatrix_leading (gram : Bool) (A : Matrix (Fin n) (Fin n) ℝ) (z : Fin n → ℝ) (hkl : k ≤ l) (i j : Fin k) :
    stepMatrix gram A z k i j = stepMatrix gram A z l (Fin.castLE hkl i) (Fin.castLE hkl j) := by
  unfold stepMatrix
  split
  · exact bidiagonal_leading hkl _ _ i j
  · exact tridiagonal_leading hkl _ _ i j

/-- The number is the quadrature after `k` steps; the iteration ends when it is told to, or at the tolerance. -/
def StepRule (gram : Bool) (A : Matrix (Fin n) (Fin n) ℝ) (z : Fin n → ℝ) (m : Nat) (thr : ℝ) (g : ℝ → ℝ) (value : ℝ) : Prop :=
  ∃ (k : Nat) (V : Matrix (Fin n) (Fin k) ℝ) (P : Matrix (Fin k) (Fin k) ℝ) (w : Fin n → ℝ) (th : Fin k → ℝ),
    0 < k ∧ k ≤ m ∧ KrylovFactorisation (target gram A) z V (stepMatrix gram A z k) w ∧ Spectral (stepMatrix gram A z k) P th ∧
    (∀ i, i + 1 < k → thr ≤ stepBeta gram A z (i + 1)) ∧ (k < m → stepBeta gram A z k < thr) ∧
    value = wsum (fun i => (z ⬝ᵥ z) * weights P (firstCol k) i) th g

variable {ext : External ℝ} {opt : Options ℝ} {op : Operator ℝ n}
  {parameters junkAlpha junkBeta estimate : Array ℝ} {converged : Array Bool} {num : Nat}
  {f : ℝ → ℝ} {M : ℝ → Matrix (Fin n) (Fin n) ℝ}

theorem slqSample_step (hr : ExactRun ext opt op M parameters) (hop : op.relationKnown = false ∨ num = 1) (hn : 0 < n)
    (hz : Rademacher z)
    (hpar : parameters.size = num) (hconv : converged.size = num) (hest : estimate.size = num)
    (hja : junkAlpha.size = opt.degree) (hjb : junkBeta.size = opt.degree) :
    ∃ e, slqSample ext opt op f parameters num z junkAlpha junkBeta converged estimate =
        .ok (converged, e) ∧ e.size = num ∧
      ∀ j < num, ∀ t, parameters[j]? = some t → converged[j]? = some false → ∃ value, e[j]? = some value ∧
          StepRule opt.gram (M t) z opt.degree (opt.tol * Real.sqrt n) (fun x => f (ext.pow x opt.exponent)) value := by
  have hz0 := rademacher_ne_zero hz hn
  have hthr := threshold_pos hz0 hr.tol
  obtain ⟨e, he, hs, hres⟩ := slqSample_separate (ext := ext) (opt := opt) (op := op) (z := z)
    (f := f) hop hpar hconv hest hja hjb
    (fun t l => StepRule opt.gram (M t) z opt.degree (opt.tol * Real.sqrt n)
      (fun x => f (ext.pow x opt.exponent)) (n * quadratureSum ext.pow f opt.exponent l))
    (by
      intro t alpha beta ha hb ht
      unfold StepRule stepMatrix stepBeta target
      by_cases hg : opt.gram = true
      · obtain ⟨hsvd, hinj⟩ := hr.invertible hg
        obtain ⟨l, a, b, h1, h2, h3, c, h4, h5, h6, h7⟩ := golubKahnNodes_ok hr.sqrt hsvd (hr.dot t)
          (hr.transposeDot t) (hinj t ht) hz0 hr.tol hr.degree ha hb
        refine ⟨l, a, b, by unfold inquiryNodes; rw [if_pos hg]; exact h1, h2, h3, ?_⟩
        obtain ⟨hk, P, th, hs, rfl⟩ := h7
        simp only [if_pos hg]
        have hkry := gram_krylov h5
        have hle := h5.le
        have hres : 2 ≤ opt.degree → GKResult (M t) z opt.degree (opt.tol * Real.sqrt n) c := fun h2 => by
          obtain ⟨c', hc', hr'⟩ := golubKahn_result (hr.dot t) (hr.transposeDot t)
            (fun j hj => ga_ne_zero (hinj t ht) j hj) hz0 ext.eps opt.tol hr.tol opt.degree opt.orthogonalize
            (by omega) ha hb
          rw [hr.sqrt] at h4
          obtain rfl : c = c' := by
            have : (Except.ok c : Except Fault (Coefficients ℝ)) = .ok c' := h4.symm.trans hc'
            simpa using this
          exact hr'
        exact ⟨c.size, _, P, _, th, hk, hle, hkry, hs, fun i hi => (hres (by omega)).big i hi,
          fun hlt => (hres (by omega)).early hlt, quadratureSum_rule hk P th ext.pow opt.exponent hz⟩
      · have hg' : opt.gram = false := by simpa using hg
        obtain ⟨heig, hsym⟩ := hr.symmetric hg'
        obtain ⟨l, a, b, h1, h2, h3, c, h4, h5, h6⟩ := lanczosNodes_ok hr.sqrt heig (hr.dot t) (hsym t) hz0
          hr.tol hr.degree ha hb
        refine ⟨l, a, b, by unfold inquiryNodes; rw [if_neg hg]; exact h1, h2, h3, ?_⟩
        obtain ⟨hk, P, th, hs, rfl⟩ := h6
        simp only [if_neg hg]
        exact ⟨c.size, _, P, _, th, hk, h5.le, lanczos_krylov h5 (hsym t) hz0 hthr (by have := hr.degree; omega), hs,
          h5.big, h5.early, quadratureSum_rule hk P th ext.pow opt.exponent hz⟩)
  refine ⟨e, he, hs, ?_⟩
  intro j hj t ht hc
  obtain ⟨t', l, h3, h4, h5⟩ := (hres j hj).2 hc
  rw [ht] at h3
  obtain rfl : t = t' := by simpa using h3
  exact ⟨_, h5, h4⟩

/-- With a higher degree and a smaller tolerance, the first of two samples is a Gauss rule for the second, which is one for the
matrix. -/
theorem StepRule.compare {gram : Bool} {A Q : Matrix (Fin n) (Fin n) ℝ} {m m' : Nat} {thr thr' value value' a b : ℝ} {g : ℝ → ℝ}
    {lam : Fin n → ℝ}
    (h : StepRule gram A z m thr g value) (h' : StepRule gram A z m' thr' g value') (hm : m ≤ m') (ht : thr' ≤ thr)
    (hQ : Spectral (target gram A) Q lam) (hl : ∀ i, lam i ∈ Set.Icc a b) :
    ∃ (k l : Nat) (th tau : Fin k → ℝ) (et mu : Fin l → ℝ),
      Rule a b th tau et mu ∧ Rule a b et (fun i => (z ⬝ᵥ z) * mu i) lam (weights Q z) ∧
      value = (z ⬝ᵥ z) * wsum tau th g ∧ value' = (z ⬝ᵥ z) * wsum mu et g := by
  obtain ⟨k, V, P, w, th, hk, hkm, hkry, hP, hbig, hearly, rfl⟩ := h
  obtain ⟨l, V', P', w', et, hl0, hlm, hkry', hP', hbig', hearly', rfl⟩ := h'
  have hkl : k ≤ l := by
    by_contra hc
    have h1 := hearly' (by omega)
    have h2 := hbig (l - 1) (by omega)
    rw [Nat.sub_add_cancel hl0] at h2
    linarith
  have het := hkry'.ritz_mem hQ hP' hl
  refine ⟨k, l, th, weights P (firstCol k), et, weights P' (firstCol l),
    leading_rule hk hkl (stepMatrix_hessenberg _ _ _ _) (stepMatrix_hessenberg _ _ _ _) (stepMatrix_leading _ _ _ hkl) hP hP' het,
    hkry'.rule hQ hP' (stepMatrix_hessenberg _ _ _ _) hl0 hl, ?_, ?_⟩ <;>
  · unfold wsum
    rw [mul_sum]
    exact sum_congr rfl fun i _ => by ring

end Imate.Lanczos
