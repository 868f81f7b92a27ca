import Verif.Lemmas.CudaKrylov
import Verif.Props.Cuda
import Verif.Props.EndToEnd

/-!
# Property theorems C60: samples on the GPU
-/

namespace Imate.Props

open Matrix Imate.Lanczos Imate.Spec Polynomial

variable {n : Nat} {ext : External ℝ} {opt : Options ℝ}
  {parameters junkAlpha junkBeta estimate : Array ℝ} {converged : Array Bool} {num : Nat}
  {f : ℝ → ℝ}

/-- C60: given the same operator and the same random vector, a sample on the GPU is a sample on the CPU:
the same values, flags and faults, for every operator, symmetric or not, every function, degree, tolerance
and orthogonalisation.  The different test in the Gram-Schmidt process never matters as long as
`2 ε n ≤ 1` (below `n = 4 000 000` in single precision). -/
theorem gpu_sample_equals_cpu (hsqrt : ext.sqrt = Real.sqrt) (heps : 2 * ext.eps * n ≤ 1)
    (op : Operator ℝ n) (z : Fin n → ℝ) :
    cuSlqSample ext opt op f parameters num z junkAlpha junkBeta converged estimate =
      slqSample ext opt op f parameters num z junkAlpha junkBeta converged estimate :=
  cuSlqSample_eq hsqrt heps opt op f parameters num z junkAlpha junkBeta converged estimate

/-- The condition holds for instance for the largest matrices that fit a 64 GB device in single
precision. -/
example : 2 * (2 : ℝ) ^ (-23 : ℤ) * (130000 : ℕ) ≤ 1 := by norm_num

/-- C60: outside of the iterations the two Gram-Schmidt steps differ: against the vector of constant
entries `ε`, the CPU leaves its opposite as it is, the GPU reduces it to zero.  For every size. -/
theorem gpu_gram_schmidt_differs {eps : ℝ} (h0 : 0 < eps) (h1 : eps < 1 / 2) (hn : 0 < n) :
    gsStep Real.sqrt eps (fun _ : Fin n => eps) (fun _ => -eps) = (fun _ => -eps) ∧
    cuGsStep Real.sqrt eps (fun _ : Fin n => eps) (fun _ => -eps) = 0 := by
  have hnn : (0 : ℝ) < n := by exact_mod_cast hn
  have e1 : (fun _ : Fin n => eps) ⬝ᵥ (fun _ => eps) = n * (eps * eps) := by simp [dotProduct]
  have e2 : (fun _ : Fin n => eps) ⬝ᵥ (fun _ => -eps) = -(n * (eps * eps)) := by simp [dotProduct]
  have e3 : (fun _ : Fin n => -eps) ⬝ᵥ (fun _ => -eps) = n * (eps * eps) := by simp [dotProduct]
  have hpos : 0 < n * (eps * eps) := by positivity
  have hnorm : ¬ Lanczos.norm Real.sqrt (fun _ : Fin n => eps) < eps * Real.sqrt n := by
    unfold Lanczos.norm
    rw [e1, Real.sqrt_mul hnn.le, Real.sqrt_mul_self h0.le, mul_comm]
    exact lt_irrefl _
  have hsc : -(n * (eps * eps)) / (n * (eps * eps)) = (-1 : ℝ) := by
    rw [neg_div, div_self hpos.ne']
  constructor
  · unfold gsStep
    simp only
    rw [if_neg hnorm, norm_mul_self, norm_mul_self, e1, e2, e3, hsc, if_pos]
    refine ⟨by simpa using h0.le, ?_⟩
    have : eps * eps < eps * (1 / 2) := mul_lt_mul_of_pos_left h1 h0
    nlinarith
  · unfold cuGsStep
    simp only
    rw [if_neg hnorm, norm_mul_self, norm_mul_self, e1, e2, e3, hsc, if_neg]
    · funext i
      simp
    · rintro ⟨h2, -⟩
      norm_num at h2
      linarith

theorem vectorOf_ofFn (v : Fin n → ℝ) : vectorOf n (Array.ofFn v) = .ok v := by
  unfold vectorOf
  rw [dif_pos (by simp)]
  congr 1
  funext i
  simp

/-- C60: for every symmetric matrix that the GPU can hold, the sample is the exact quadratic form. -/
theorem gpu_matrix_sample_partial {S : StoredMatrix ℝ} {A : Matrix (Fin n) (Fin n) ℝ}
    (hS : Represents S A) (he : StoresEntry n n S) (hA : A.IsSymm) (hsqrt : ext.sqrt = Real.sqrt)
    (heps : 2 * ext.eps * n ≤ 1) (heig : EighSpec ext.eigh)
    (hgram : opt.gram = false) (htol : 0 < opt.tol) (hm : 1 ≤ opt.degree) (hn : 0 < n)
    (hja : junkAlpha.size = opt.degree) (hjb : junkBeta.size = opt.degree) {z : Fin n → ℝ}
    (hz : Rademacher z) (e0 : ℝ) :
    ∃ D e c, Cuda.upload S n n = .ok D ∧
      cuSlqSample ext opt (cuMatrixOperator D n) f #[0] 1 z junkAlpha junkBeta #[false] #[e0] =
        .ok (#[false], #[e]) ∧
      cuLanczos Real.sqrt ext.eps ((cuMatrixOperator D n).dot 0) z opt.degree opt.tol
        opt.orthogonalize junkAlpha junkBeta = .ok c ∧ 1 ≤ c.size ∧
      ExactSample ext opt f A z c.size (c.beta.getD (c.size - 1) 0 = 0) e := by
  obtain ⟨D, h1, h2, -, -⟩ := upload_represents hS hn hn he (fun _ => rfl)
  have hdot : ∀ (t : ℝ) x, (cuMatrixOperator D n).dot t x = .ok (A *ᵥ x) := by
    intro t x
    show (Cuda.dot D n n _ _ >>= _) = _
    rw [(device_products h2 hn hn).1 x _ (by simp), Except.ok_bind', vectorOf_ofFn]
  obtain ⟨e, he, hs, hval⟩ := slq_sample_exact (op := cuMatrixOperator D n) (f := f) (num := 1)
    (M := fun _ => A) (parameters := #[0]) (converged := #[false]) (estimate := #[e0]) hsqrt heig hgram
    (Or.inl rfl) (fun _ => hA) hdot htol hm hn hz rfl rfl rfl hja hjb
  obtain ⟨c, value, hc, hpos, hv, p1, p2⟩ := (hval 0 (by norm_num) 0 rfl).2 rfl
  have hee : e = #[value] := by
    apply Array.ext
    · simpa using hs
    · intro i hi1 hi2
      obtain rfl : i = 0 := by omega
      rw [Array.getElem?_eq_getElem hi1] at hv
      simpa using hv
  subst hee
  refine ⟨D, value, c, h1, ?_, ?_, hpos, p1, p2⟩
  · rw [gpu_sample_equals_cpu hsqrt heps]; exact he
  · rw [cuLanczos_eq heps]; exact hc

/-- C60: with `gram=True`, for every invertible matrix that the GPU can hold (also sparse), the sample is
the exact quadratic form of `AᵀA`. -/
theorem gpu_gram_sample_partial {S : StoredMatrix ℝ} {A : Matrix (Fin n) (Fin n) ℝ}
    (hS : Represents S A) (he : StoresEntry n n S) (hA : Function.Injective A.mulVec)
    (hsqrt : ext.sqrt = Real.sqrt) (heps : 2 * ext.eps * n ≤ 1) (hsvd : SvdSpec ext.svd)
    (hgram : opt.gram = true) (htol : 0 < opt.tol) (hm : 1 ≤ opt.degree) (hn : 0 < n)
    (hja : junkAlpha.size = opt.degree) (hjb : junkBeta.size = opt.degree) {z : Fin n → ℝ}
    (hz : Rademacher z) (e0 : ℝ) :
    ∃ D e c alpha beta, Cuda.upload S n n = .ok D ∧
      cuSlqSample ext opt (cuMatrixOperator D n) f #[0] 1 z junkAlpha junkBeta #[false] #[e0] =
        .ok (#[false], #[e]) ∧
      cuGolubKahn Real.sqrt ext.eps ((cuMatrixOperator D n).dot 0)
        ((cuMatrixOperator D n).transposeDot 0) z opt.degree opt.tol
        opt.orthogonalize alpha beta = .ok c ∧ 1 ≤ c.size ∧
      ExactSample ext opt f (Aᵀ * A) z c.size
        ((2 ≤ opt.degree ∨ opt.orthogonalize = 0) ∧ c.beta.getD (c.size - 1) 0 = 0) e := by
  obtain ⟨D, h1, h2, -, -⟩ := upload_represents hS hn hn he (fun _ => rfl)
  have hdot : ∀ (t : ℝ) x, (cuMatrixOperator D n).dot t x = .ok (A *ᵥ x) := by
    intro t x
    show (Cuda.dot D n n _ _ >>= _) = _
    rw [(device_products h2 hn hn).1 x _ (by simp), Except.ok_bind', vectorOf_ofFn]
  have htdot : ∀ (t : ℝ) x, (cuMatrixOperator D n).transposeDot t x = .ok (Aᵀ *ᵥ x) := by
    intro t x
    show (Cuda.transposeDot D n n _ _ >>= _) = _
    rw [(device_products h2 hn hn).2.2.1 (fun _ => rfl) x _ (by simp), Except.ok_bind', vectorOf_ofFn]
  obtain ⟨e, he, hs, hval⟩ := slq_gram_sample_exact (op := cuMatrixOperator D n) (f := f) (num := 1)
    (M := fun _ => A) (parameters := #[0]) (converged := #[false]) (estimate := #[e0]) hsqrt hsvd hgram
    (Or.inl rfl) (fun _ _ => hA) hdot htdot htol hm hn hz rfl rfl rfl hja hjb
  obtain ⟨c, alpha, beta, value, hc, hpos, hv, p1, p2⟩ := (hval 0 (by norm_num) 0 rfl).2 rfl
  have hee : e = #[value] := by
    apply Array.ext
    · simpa using hs
    · intro i hi1 hi2
      obtain rfl : i = 0 := by omega
      rw [Array.getElem?_eq_getElem hi1] at hv
      simpa using hv
  subst hee
  refine ⟨D, value, c, alpha, beta, h1, ?_, ?_, hpos, p1, fun h => p2 h.1 h.2⟩
  · rw [gpu_sample_equals_cpu hsqrt heps]; exact he
  · rw [cuGolubKahn_eq heps]; exact hc

/-- C60: for a pencil with a generic `B` the samples with `gram=False` are exact at every parameter. -/
theorem gpu_pencil_sample_partial {S T : StoredMatrix ℝ} {A B : Matrix (Fin n) (Fin n) ℝ}
    (hS : Represents S A) (hT : Represents T B) (heS : StoresEntry n n S) (heT : StoresEntry n n T)
    (hB : B ≠ 0) (hA : A.IsSymm) (hBs : B.IsSymm) (hsqrt : ext.sqrt = Real.sqrt)
    (heps : 2 * ext.eps * n ≤ 1) (heig : EighSpec ext.eigh)
    (hgram : opt.gram = false) (htol : 0 < opt.tol) (hm : 1 ≤ opt.degree) (hn : 0 < n)
    (hpar : parameters.size = num) (hconv : converged.size = num) (hest : estimate.size = num)
    (hja : junkAlpha.size = opt.degree) (hjb : junkBeta.size = opt.degree) {z : Fin n → ℝ}
    (hz : Rademacher z) :
    ∃ O e, Cuda.construct S (some T) n n = .ok O ∧
      cuSlqSample ext opt (cuAffineOperator O n) f parameters num z junkAlpha junkBeta converged
        estimate = .ok (converged, e) ∧ e.size = num ∧
      ∀ j < num, ∀ t, parameters[j]? = some t →
        (converged[j]? = some true → e[j]? = estimate[j]?) ∧
        (converged[j]? = some false → ∃ c value,
          cuLanczos Real.sqrt ext.eps ((cuAffineOperator O n).dot t) z opt.degree
            opt.tol opt.orthogonalize junkAlpha junkBeta = .ok c ∧ 1 ≤ c.size ∧
          e[j]? = some value ∧
          ExactSample ext opt f (A + t • B) z c.size (c.beta.getD (c.size - 1) 0 = 0) value) := by
  have hI : T.isIdentity n n = .ok false := by
    obtain ⟨b, h1, h2⟩ := isIdentity_true_imp_zero hT
    cases b with
    | false => exact h1
    | true => exact absurd (h2 rfl) hB
  have hsym : ∀ t : ℝ, (A + t • B).IsSymm := by
    intro t
    rw [Matrix.IsSymm, transpose_add, transpose_smul, hA.eq, hBs.eq]
  obtain ⟨O, hO, -, -⟩ := gpu_affine_generic_correct_partial hS hT hn hn heS heT (fun _ => rfl)
    (fun _ => rfl) hI 0
  have hk : (cuAffineOperator O n).relationKnown = false := by
    obtain ⟨D, u1, -, -, -⟩ := upload_represents hS hn hn heS (fun _ => rfl)
    obtain ⟨E, u2, -, -, -⟩ := upload_represents hT hn hn heT (fun _ => rfl)
    simp only [Cuda.construct, u1, u2, hI, Except.ok_bind', Bool.false_eq_true, if_false,
      Except.ok.injEq] at hO
    rw [← hO]; rfl
  have hdot : ∀ (t : ℝ) x, (cuAffineOperator O n).dot t x = .ok ((A + t • B) *ᵥ x) := by
    intro t x
    obtain ⟨O', hO', h1, -⟩ := gpu_affine_generic_correct_partial hS hT hn hn heS heT (fun _ => rfl)
      (fun _ => rfl) hI t
    rw [hO] at hO'
    cases hO'
    show (Cuda.affineDot O (some t) _ _ >>= _) = _
    rw [h1 x _ (by simp), Except.ok_bind', vectorOf_ofFn]
  obtain ⟨e, he, hs, hval⟩ := slq_sample_exact (op := cuAffineOperator O n) (f := f)
    (M := fun t => A + t • B) hsqrt heig hgram
    (Or.inl hk) hsym hdot htol hm hn hz hpar hconv hest hja hjb
  refine ⟨O, e, hO, ?_, hs, ?_⟩
  · rw [gpu_sample_equals_cpu hsqrt heps]; exact he
  · intro j hj t ht
    obtain ⟨q1, q2⟩ := hval j hj t ht
    refine ⟨q1, fun hc => ?_⟩
    obtain ⟨c, value, hc, hpos, hv, p1, p2⟩ := q2 hc
    exact ⟨c, value, by rw [cuLanczos_eq heps]; exact hc, hpos, hv, p1, p2⟩

/-! ### The lost part of `A` reaches the result -/

/-- The iteration with the products `x ↦ s x` and `x ↦ t x`, `s = a + t`. -/
theorem golubKahn_scalars {a t s tol eps : ℝ} (ha : 0 < a) (ht : 0 < t) (hs : s = a + t)
    {dot tdot : (Fin n → ℝ) → Except Fault (Fin n → ℝ)}
    (hdot : ∀ x, dot x = .ok (s • x)) (htdot : ∀ x, tdot x = .ok (t • x)) {z : Fin n → ℝ}
    (hz : z ≠ 0) (htol : tol * Real.sqrt n ≤ a) (a0 a1 b0 b1 : ℝ) :
    golubKahn Real.sqrt eps dot tdot z 2 tol 0 #[a0, a1] #[b0, b1] =
      .ok ⟨2, #[s, s + a], #[a, 2 * a]⟩ := by
  have hn0 : Lanczos.norm Real.sqrt z ≠ 0 := norm_ne_zero hz
  obtain ⟨w, hw⟩ : ∃ w, w = (Lanczos.norm Real.sqrt z)⁻¹ • z := ⟨_, rfl⟩
  have hww : w ⬝ᵥ w = 1 := by rw [hw]; exact unit_of_normalised hn0
  have hdz : divide z (Lanczos.norm Real.sqrt z) = some w := by rw [divide_eq hn0, hw]
  have hnorm : ∀ c : ℝ, Lanczos.norm Real.sqrt (c • w) = |c| := by
    intro c
    unfold Lanczos.norm
    rw [smul_dotProduct, dotProduct_smul, hww, smul_eq_mul, smul_eq_mul, mul_one, Real.sqrt_mul_self_eq_abs]
  have hdiv : ∀ c : ℝ, c ≠ 0 → divide (c • w) |c| = some ((|c|⁻¹ * c) • w) := by
    intro c hc
    rw [divide_eq (by simpa using hc), smul_smul]
  have hs0 : 0 < s := by linarith
  have hbuf : golubKahnBufferSize 2 0 = 2 := rfl
  have hrep : (Array.replicate 2 none : Rows ℝ n) = #[none, none] := rfl
  have l0 : ∀ (x : Fin n → ℝ) y, load (#[some x, y] : Rows ℝ n) 0 = .ok x := fun _ _ => rfl
  have l1 : ∀ (x : Fin n → ℝ) y, load (#[y, some x] : Rows ℝ n) 1 = .ok x := fun _ _ => rfl
  have s0 : ∀ (x y v : Option (Fin n → ℝ)), Lanczos.store (#[x, y] : Rows ℝ n) 0 v = .ok #[v, y] :=
    fun _ _ _ => rfl
  have s1 : ∀ (x y v : Option (Fin n → ℝ)), Lanczos.store (#[x, y] : Rows ℝ n) 1 v = .ok #[x, v] :=
    fun _ _ _ => rfl
  have w0 : ∀ x y v : ℝ, wr #[x, y] 0 v = .ok #[v, y] := fun _ _ _ => rfl
  have w1 : ∀ x y v : ℝ, wr #[x, y] 1 v = .ok #[x, v] := fun _ _ _ => rfl
  have r0 : ∀ x y : ℝ, rd #[x, y] 0 = .ok x := fun _ _ => rfl
  have hj0 : golubKahnBody Real.sqrt eps dot tdot tol 0 2 0
      ⟨#[none, none], #[some w, none], #[a0, a1], #[b0, b1], 0, false⟩ =
      .ok ⟨#[some w, none], #[some w, some ((-1 : ℝ) • w)], #[s, a1], #[a, b1], 1, false⟩ := by
    unfold golubKahnBody gkSubtractPrevious gkReorthogonalizeU gkReorthogonalizeV normalizeIn subtractIn
    simp only [Nat.zero_mod, l0, Except.ok_bind', hdot, s0, gt_iff_lt, Nat.lt_irrefl, if_false,
      and_false, ne_eq, not_true_eq_false, hnorm, abs_of_pos hs0, w0]
    have e1 : divide (s • w) s = some w := by
      have := hdiv s hs0.ne'
      rw [abs_of_pos hs0, inv_mul_cancel₀ hs0.ne', one_smul] at this
      exact this
    rw [e1]
    simp only [l0, Except.ok_bind', htdot, Nat.reduceAdd, Nat.reduceMod, s1, l1]
    have e2 : t • w - s • w = (-a) • w := by rw [← sub_smul]; congr 1; linarith
    have e3 : divide ((-a) • w) a = some ((-1 : ℝ) • w) := by
      have := hdiv (-a) (by linarith)
      rw [abs_neg, abs_of_pos ha, mul_neg, inv_mul_cancel₀ ha.ne'] at this
      exact this
    rw [e2, hnorm, abs_neg, abs_of_pos ha, e3]
    rw [decide_eq_false (by linarith)]
  have hj1 : ∀ st, golubKahnBody Real.sqrt eps dot tdot tol 0 2 1
      ⟨#[some w, none], #[some w, some ((-1 : ℝ) • w)], #[s, a1], #[a, b1], 1, st⟩ =
      .ok ⟨#[some w, some ((-1 : ℝ) • w)], #[some w, some ((-1 : ℝ) • w)], #[s, s + a], #[a, 2 * a], 2,
        decide (2 * a < tol * Real.sqrt n)⟩ := by
    intro st
    unfold golubKahnBody gkSubtractPrevious gkReorthogonalizeU gkReorthogonalizeV normalizeIn subtractIn
    simp only [Nat.reduceMod, l0, l1, Except.ok_bind', hdot, s1, gt_iff_lt, Nat.lt_one_iff, if_true,
      if_false, false_and, ne_eq, not_true_eq_false, Nat.sub_self, Nat.zero_mod, r0, Nat.reduceAdd,
      ]
    have e1 : s • (-1 : ℝ) • w - a • w = (-(s + a)) • w := by
      rw [smul_smul, ← sub_smul]; congr 1; ring
    have hsa : 0 < s + a := by linarith
    have e2 : divide ((-(s + a)) • w) (s + a) = some ((-1 : ℝ) • w) := by
      have := hdiv (-(s + a)) (by linarith)
      rw [abs_neg, abs_of_pos hsa, mul_neg, inv_mul_cancel₀ hsa.ne'] at this
      exact this
    rw [e1, hnorm, abs_neg, abs_of_pos hsa, e2]
    simp only [w1, l1, l0, s0, Except.ok_bind', htdot]
    have e3 : t • (-1 : ℝ) • w - (s + a) • (-1 : ℝ) • w = (2 * a) • w := by
      rw [smul_smul, smul_smul, ← sub_smul]; congr 1; linarith
    have h2a : 0 < 2 * a := by linarith
    have e4 : divide ((2 * a) • w) (2 * a) = some w := by
      have := hdiv (2 * a) h2a.ne'
      rw [abs_of_pos h2a, inv_mul_cancel₀ h2a.ne', one_smul] at this
      exact this
    rw [e3, hnorm, abs_of_pos h2a, e4]
  unfold golubKahn
  simp only [hbuf, hrep, hdz, s0, Except.ok_bind']
  unfold forRange
  simp only [loopN, Nat.sub_zero, Bool.false_eq_true, if_false, hj0, hj1, Except.ok_bind', Nat.zero_add]

/-- C60 is violated in the results: `tr ((A + tB)ᵀ(A + tB))²` with `A = a I` and `B = I` given as dense
arrays.  Every sample on the GPU with degree 2 returns `n ((a+t)⁴ + a² (a+t)²)`, although the quadratic
form is `n (a+t)⁴` for every random vector.  For all sizes, all `a, t > 0` and every tolerance below
`a/√n`. -/
theorem gpu_dense_pencil_gram_wrong {a t tol : ℝ} (ha : 0 < a) (ht : 0 < t) (hn : 0 < n)
    (hsqrt : ext.sqrt = Real.sqrt) (heps : 2 * ext.eps * n ≤ 1) (hsvd : SvdSpec ext.svd)
    (hpow : ∀ x, ext.pow x 1 = x) (htol : tol * Real.sqrt n ≤ a) {z : Fin n → ℝ} (hz : Rademacher z)
    {arrA arrB : Array ℝ} {ra rb : Bool}
    (hA : DenseRepr ra arrA (a • (1 : Matrix (Fin n) (Fin n) ℝ)))
    (hB : DenseRepr rb arrB (1 : Matrix (Fin n) (Fin n) ℝ)) (a0 a1 b0 b1 e0 : ℝ) :
    (∃ O, Cuda.construct (.dense arrA ra) (some (.dense arrB rb)) n n = .ok O ∧
      cuSlqSample ext ⟨true, 1, 0, 2, tol⟩ (cuAffineOperator O n) (fun x => x ^ 2) #[t] 1 z #[a0, a1]
        #[b0, b1] #[false] #[e0] = .ok (#[false], #[n * ((a + t) ^ 4 + a ^ 2 * (a + t) ^ 2)])) ∧
    z ⬝ᵥ ((((a • (1 : Matrix (Fin n) (Fin n) ℝ) + t • 1)ᵀ * (a • 1 + t • 1)) ^ 2) *ᵥ z) =
      n * (a + t) ^ 4 ∧
    (n : ℝ) * ((a + t) ^ 4 + a ^ 2 * (a + t) ^ 2) ≠ n * (a + t) ^ 4 := by
  have hz0 := rademacher_ne_zero hz hn
  have hI : (StoredMatrix.dense arrB rb).isIdentity n n = .ok false :=
    explicit_identity_not_recognised hn hB
  refine ⟨?_, ?_, ?_⟩
  · obtain ⟨⟨O, hO, -⟩, -⟩ := gpu_dense_affine_transpose_loses_A hA hB hn hn hI ht.ne' z
      (Array.replicate n 0) (by simp)
    refine ⟨O, hO, ?_⟩
    have hdot : ∀ x, (cuAffineOperator O n).dot t x = .ok ((a + t) • x) := by
      intro x
      obtain ⟨O', hO', h1, -⟩ := gpu_affine_generic_correct_partial (S := .dense arrA ra)
        (T := .dense arrB rb) hA hB hn hn trivial trivial (fun h => h.elim) (fun h => h.elim) hI t
      rw [hO] at hO'
      cases hO'
      show (Cuda.affineDot O (some t) _ _ >>= _) = _
      rw [h1 x _ (by simp), Except.ok_bind', vectorOf_ofFn, ← add_smul, smul_mulVec, one_mulVec]
    have htdot : ∀ x, (cuAffineOperator O n).transposeDot t x = .ok (t • x) := by
      intro x
      obtain ⟨⟨O', hO', h1⟩, -⟩ := gpu_dense_affine_transpose_loses_A hA hB hn hn hI ht.ne' x
        (Array.replicate n 0) (by simp)
      rw [hO] at hO'
      cases hO'
      show (Cuda.affineTransposeDot O (some t) _ _ >>= _) = _
      rw [h1, Except.ok_bind', vectorOf_ofFn, transpose_one, one_mulVec]
    rw [gpu_sample_equals_cpu hsqrt heps]
    have hk : (cuAffineOperator O n).relationKnown = false ∨ 1 = 1 := Or.inr rfl
    set B2 := bidiagonal 2 (fun i => (#[a + t, a + t + a] : Array ℝ).getD i 0)
      (fun i => (#[a, 2 * a] : Array ℝ).getD i 0) with hB2
    obtain ⟨e, he, hs, hres⟩ := slqSample_separate (ext := ext) (opt := ⟨true, 1, 0, 2, tol⟩)
      (op := cuAffineOperator O n) (z := z) (f := fun x => x ^ 2) (parameters := #[t])
      (converged := #[false]) (estimate := #[e0]) (junkAlpha := #[a0, a1]) (junkBeta := #[b0, b1])
      hk rfl rfl rfl rfl rfl (fun t' l => Diagonalises (B2ᵀ * B2) l) (by
        intro t' alpha beta hsa hsb ht'
        obtain rfl : t' = t := by simpa using ht'
        obtain ⟨x0, x1, rfl⟩ : ∃ x0 x1, alpha = #[x0, x1] := by
          have hsa' : alpha.size = 2 := hsa
          refine ⟨alpha[0], alpha[1], ?_⟩
          apply Array.ext
          · simp [hsa']
          · intro i h1 h2
            have : i = 0 ∨ i = 1 := by omega
            rcases this with rfl | rfl <;> rfl
        obtain ⟨y0, y1, rfl⟩ : ∃ x0 x1, beta = #[x0, x1] := by
          have hsb' : beta.size = 2 := hsb
          refine ⟨beta[0], beta[1], ?_⟩
          apply Array.ext
          · simp [hsb']
          · intro i h1 h2
            have : i = 0 ∨ i = 1 := by omega
            rcases this with rfl | rfl <;> rfl
        have hgk := golubKahn_scalars (eps := ext.eps) ha ht rfl hdot htdot hz0 htol x0 x1 y0 y1
        obtain ⟨q1, q2, U, hsv⟩ := hsvd 2 #[a + t', a + t' + a] #[a, 2 * a] (by norm_num) (by simp)
          (by simp) (by
            intro i hi
            interval_cases i
            · simp; linarith
            · simp; linarith)
        have hread := readNodes_array (k := 2) (a := (ext.svd 2 #[a + t', a + t' + a] #[a, 2 * a]).1)
          (v := (ext.svd 2 #[a + t', a + t' + a] #[a, 2 * a]).2) (by rw [q1]; simp) (fun i => i) (by
            intro i hi
            rw [q2]; omega) (fun x => x * x)
        refine ⟨_, (ext.svd 2 #[a + t', a + t' + a] #[a, 2 * a]).1, #[a, 2 * a], ?_, by rw [q1]; rfl,
          rfl, ⟨by norm_num, _, _, spectral_of_singular hsv, rfl⟩⟩
        unfold inquiryNodes golubKahnNodes
        simp only [if_true, hsqrt]
        rw [hgk, Except.ok_bind']
        have hfun : (fun i => do .ok ((← rd (ext.svd 2 #[a + t', a + t' + a] #[a, 2 * a]).1 i) *
              (← rd (ext.svd 2 #[a + t', a + t' + a] #[a, 2 * a]).1 i)) : Nat → Except Fault ℝ) =
            (fun i => do .ok ((fun x => x * x)
              (← rd (ext.svd 2 #[a + t', a + t' + a] #[a, 2 * a]).1 i))) := by
          funext i
          cases rd (ext.svd 2 #[a + t', a + t' + a] #[a, 2 * a]).1 i <;> rfl
        simp only [hfun, hread, Except.ok_bind', Nat.zero_mul, Nat.add_zero])
    obtain ⟨t', l, -, hl, hel⟩ := (hres 0 (by norm_num)).2 rfl
    rw [he]
    obtain ⟨hk', Q, lam, hspec, hll⟩ := id hl
    have hsum : quadratureSum ext.pow (fun x => x ^ 2) 1 l = (a + t) ^ 4 + a ^ 2 * (a + t) ^ 2 := by
      rw [hl.sum hspec, matrixFunction_poly hspec (p := X ^ 2) (by intro i; simp [hpow]), map_pow, aeval_X]
      have hB00 : B2 = !![a + t, a; 0, a + t + a] := by
        ext i j
        fin_cases i <;> fin_cases j <;> simp [hB2, bidiagonal]
      rw [hB00, pow_two]
      simp [firstCol, dotProduct, mulVec, Matrix.mul_apply, Fin.sum_univ_two, Matrix.transpose_apply]
      ring
    have hee : e = #[n * ((a + t) ^ 4 + a ^ 2 * (a + t) ^ 2)] := by
      apply Array.ext
      · simpa using hs
      · intro i hi1 hi2
        obtain rfl : i = 0 := by omega
        rw [Array.getElem?_eq_getElem hi1] at hel
        rw [← hsum]
        simpa using hel
    rw [hee]
  · rw [← add_smul, transpose_smul, transpose_one, smul_mul_smul_comm, one_mul, smul_pow, one_pow,
      smul_mulVec, one_mulVec, dotProduct_smul, rademacher_dot hz, smul_eq_mul]
    ring
  · have h1 : (0 : ℝ) < n := by exact_mod_cast hn
    have h2 : 0 < a ^ 2 * (a + t) ^ 2 := by positivity
    intro h
    have := mul_left_cancel₀ h1.ne' h
    linarith

/-! ### concrete cases -/

theorem exSigns : Rademacher (![1, -1] : Fin 2 → ℝ) := by
  intro i; fin_cases i <;> simp

theorem exIdentity : DenseRepr true #[1, 0, 0, 1] (1 : Matrix (Fin 2) (Fin 2) ℝ) := by
  refine ⟨rfl, fun i j => ?_⟩
  fin_cases i <;> fin_cases j <;> simp

/-- `tr A` of a stored matrix on the GPU. -/
example : ∃ D e, Cuda.upload (.csr #[2, 1, 1, 3] #[0, 1, 0, 1] #[0, 2, 4]) 2 2 = .ok D ∧
    cuSlqSample someExternal ⟨false, 1, 2, 5, 1/100⟩ (cuMatrixOperator D 2) id #[0] 1 ![1, -1]
      (Array.replicate 5 0) (Array.replicate 5 0) #[false] #[0] = .ok (#[false], #[e]) ∧ e = 3 := by
  obtain ⟨D, e, c, h1, h2, _, hpos, h3, _⟩ := gpu_matrix_sample_partial (ext := someExternal)
    (opt := ⟨false, 1, 2, 5, 1/100⟩) (f := id)
    (junkAlpha := Array.replicate 5 0) (junkBeta := Array.replicate 5 0)
    exCsr ⟨4, rfl, by norm_num⟩ exCsr_symm rfl (by norm_num [someExternal]) exists_eigh.choose_spec rfl
    (by norm_num) (by norm_num) (by norm_num) (by simp) (by simp) exSigns 0
  refine ⟨D, e, h1, h2, ?_⟩
  rw [h3 X (by rw [natDegree_X]; omega) (by intro x; simp [someExternal]), aeval_X]
  simp [dotProduct, mulVec, Fin.sum_univ_two]
  norm_num

/-- `A = B = I`, `t = 1`: the sample on the GPU is 40, the quadratic form 32. -/
example : ∃ O, Cuda.construct (.dense #[1, 0, 0, 1] true) (some (.dense #[1, 0, 0, 1] true)) 2 2 =
      .ok O ∧
    cuSlqSample someExternal ⟨true, 1, 0, 2, 1/100⟩ (cuAffineOperator O 2) (fun x => x ^ 2) #[1] 1
      ![1, -1] #[0, 0] #[0, 0] #[false] #[0] = .ok (#[false], #[40]) := by
  have hs : Real.sqrt 2 ≤ 100 := by
    rw [Real.sqrt_le_left (by norm_num)]; norm_num
  obtain ⟨⟨O, h1, h2⟩, -, -⟩ := gpu_dense_pencil_gram_wrong (n := 2) (ext := someExternal) (a := 1)
    (t := 1) (tol := 1/100) (by norm_num) (by norm_num) (by norm_num) rfl
    (by norm_num [someExternal]) exists_svd.choose_spec (by intro x; simp [someExternal])
    (by push_cast; linarith) exSigns (arrA := #[1, 0, 0, 1]) (arrB := #[1, 0, 0, 1]) (ra := true)
    (rb := true) (by rw [one_smul]; exact exIdentity) exIdentity 0 0 0 0 0
  refine ⟨O, h1, h2.trans ?_⟩
  norm_num

end Imate.Props
