import Verif.Lemmas.Equivariance
import Verif.Lemmas.ScaledConvergence
import Verif.Props.SlqConvergence
import Mathlib.Analysis.SpecialFunctions.Pow.Real

/-!
# C98: SLQ estimates follow scaling, rotation and shift of the matrix

Two whole samples (`slqSample`) are compared: one of the matrices `M t` with the vector `z`, the other of
`c P (M t) Pᵀ + d` with the vector `P z`.  In exact arithmetic they are related as the exact traces are, if
`lanczos_tol` is scaled as well.  With the same `lanczos_tol` they are not.
-/

namespace Imate.Props

open Matrix Imate.Lanczos Imate.Spec Imate.Functions

variable {n : Nat} {z : Fin n → ℝ} {ext : External ℝ} {opt : Options ℝ} {op op' : Operator ℝ n}
  {parameters junkAlpha junkBeta estimate junkAlpha' junkBeta' estimate' : Array ℝ} {converged : Array Bool} {num : Nat}
  {f f' : ℝ → ℝ} {M : ℝ → Matrix (Fin n) (Fin n) ℝ} {P U : Matrix (Fin n) (Fin n) ℝ} {c d a b lo hi : ℝ}

theorem rotate_ne_zero (hP : Pᵀ * P = 1) (hz : z ≠ 0) : P *ᵥ z ≠ 0 := by
  intro h
  apply hz
  rw [← one_mulVec z, ← hP, ← mulVec_mulVec, h, mulVec_zero]

theorem transformed_symm {A : Matrix (Fin n) (Fin n) ℝ} (hA : A.IsSymm) : (c • (P * A * Pᵀ) + d • 1).IsSymm := by
  rw [Matrix.IsSymm, transpose_add, transpose_smul, transpose_smul, transpose_one, transpose_mul, transpose_mul,
    transpose_transpose, show Aᵀ = A from hA, Matrix.mul_assoc]

theorem transformed_injective {A : Matrix (Fin n) (Fin n) ℝ} (hP : Pᵀ * P = 1) (hU : Uᵀ * U = 1) (hc : 0 < c)
    (hA : Function.Injective A.mulVec) : Function.Injective (c • (U * A * Pᵀ)).mulVec := by
  have hP' : P * Pᵀ = 1 := mul_eq_one_comm.1 hP
  intro x y h
  have e : ∀ x, (c • (U * A * Pᵀ)) *ᵥ x = c • (U *ᵥ (A *ᵥ (Pᵀ *ᵥ x))) := by
    intro x; rw [smul_mulVec, mulVec_mulVec, mulVec_mulVec]
  have h1 : U *ᵥ (A *ᵥ (Pᵀ *ᵥ x)) = U *ᵥ (A *ᵥ (Pᵀ *ᵥ y)) := by
    have h' : c • (U *ᵥ (A *ᵥ (Pᵀ *ᵥ x))) = c • (U *ᵥ (A *ᵥ (Pᵀ *ᵥ y))) := by rw [← e, ← e]; exact h
    exact smul_right_injective _ hc.ne' h'
  have h2 : A *ᵥ (Pᵀ *ᵥ x) = A *ᵥ (Pᵀ *ᵥ y) := by
    have := congrArg (Uᵀ *ᵥ ·) h1
    simpa [mulVec_mulVec, ← Matrix.mul_assoc, hU] using this
  have h3 := congrArg (P *ᵥ ·) (hA h2)
  simpa [mulVec_mulVec, hP'] using h3

/-- **C98 (matrix).**  Replace the symmetric matrix `A` by `c P A Pᵀ + d` with an orthogonal `P` and `c > 0`, the random
vector `z` by `P z` and `lanczos_tol` by its `c`-fold.  If the new function of `c x + d` is `a` times the old one of `x`
plus `b` at every `x` in an interval containing the eigenvalues, then every sample becomes its `a`-fold plus `n b`. -/
theorem sample_equivariant (hr : ExactRun ext opt op M parameters) (hgram : opt.gram = false)
    (hop : op.relationKnown = false ∨ num = 1) (hop' : op'.relationKnown = false ∨ num = 1) (hz : z ≠ 0)
    (hP : Pᵀ * P = 1) (hc : 0 < c) (hdot : ∀ t x, op'.dot t x = .ok ((c • (P * M t * Pᵀ) + d • 1) *ᵥ x))
    (hf : ∀ t ∈ parameters, ∃ Q lam lo hi, Spectral (M t) Q lam ∧ (∀ i, lam i ∈ Set.Icc lo hi) ∧
      ∀ x ∈ Set.Icc lo hi, f' (ext.pow (c * x + d) opt.exponent) = a * f (ext.pow x opt.exponent) + b)
    (hpar : parameters.size = num) (hconv : converged.size = num) (hest : estimate.size = num)
    (hest' : estimate'.size = num) (hja : junkAlpha.size = opt.degree) (hjb : junkBeta.size = opt.degree)
    (hja' : junkAlpha'.size = opt.degree) (hjb' : junkBeta'.size = opt.degree) :
    ∃ e e', slqSample ext opt op f parameters num z junkAlpha junkBeta converged estimate = .ok (converged, e) ∧
      slqSample ext { opt with tol := c * opt.tol } op' f' parameters num (P *ᵥ z) junkAlpha' junkBeta' converged
        estimate' = .ok (converged, e') ∧
      e.size = num ∧ e'.size = num ∧
      ∀ j < num, (converged[j]? = some true → e[j]? = estimate[j]? ∧ e'[j]? = estimate'[j]?) ∧
        (converged[j]? = some false → ∃ v, e[j]? = some v ∧ e'[j]? = some (a * v + n * b)) := by
  obtain ⟨heig, hsym⟩ := hr.symmetric hgram
  have hthr := threshold_pos hz hr.tol
  have hm := hr.degree
  obtain ⟨e, he, hs, hres⟩ := slqSample_separate (ext := ext) (opt := opt) (op := op) (z := z) (f := f) hop hpar hconv
    hest hja hjb
    (fun t l => t ∈ parameters ∧ ∃ k, LanczosResult (M t) z opt.degree (opt.tol * Real.sqrt n) k ∧
      Diagonalises (lanczosT (M t) z k.size) l)
    (by
      intro t alpha beta ha hb ht
      obtain ⟨l, x, y, h1, h2, h3, k, _, h5, h6⟩ := lanczosNodes_ok hr.sqrt heig (hr.dot t) (hsym t) hz hr.tol hr.degree
        ha hb
      exact ⟨l, x, y, by unfold inquiryNodes; rw [if_neg (by simp [hgram])]; exact h1, h2, h3, ht, k, h5, h6⟩)
  obtain ⟨e', he', hs', hres'⟩ := slqSample_separate (ext := ext) (opt := { opt with tol := c * opt.tol }) (op := op')
    (z := P *ᵥ z) (f := f') hop' hpar hconv hest' hja' hjb'
    (fun t l => t ∈ parameters ∧
      ∃ k, LanczosResult (c • (P * M t * Pᵀ) + d • 1) (P *ᵥ z) opt.degree (c * opt.tol * Real.sqrt n) k ∧
      Diagonalises (lanczosT (c • (P * M t * Pᵀ) + d • 1) (P *ᵥ z) k.size) l)
    (by
      intro t alpha beta ha hb ht
      obtain ⟨l, x, y, h1, h2, h3, k, _, h5, h6⟩ := lanczosNodes_ok (opt := { opt with tol := c * opt.tol }) hr.sqrt heig
        (hdot t) (transformed_symm (hsym t)) (rotate_ne_zero hP hz) (mul_pos hc hr.tol) hr.degree ha hb
      exact ⟨l, x, y, by unfold inquiryNodes; rw [if_neg (by simp [hgram])]; exact h1, h2, h3, ht, k, h5, h6⟩)
  refine ⟨e, e', he, he', hs, hs', fun j hj => ⟨fun h => ⟨(hres j hj).1 h, (hres' j hj).1 h⟩, fun hcj => ?_⟩⟩
  obtain ⟨t, l, h1, ⟨ht, k, h2, h3⟩, h4⟩ := (hres j hj).2 hcj
  obtain ⟨t', l', h1', ⟨_, k', h2', h3'⟩, h4'⟩ := (hres' j hj).2 hcj
  obtain rfl : t' = t := by rw [h1] at h1'; simpa using h1'.symm
  have hb : ∀ i, bb (c • (P * M t' * Pᵀ) + d • 1) (P *ᵥ z) (i + 1) = c * bb (M t') z (i + 1) := by
    intro i
    rw [bb_shift, bb_scaled hP hc]
  have hsize := size_determined hc (show c * opt.tol * Real.sqrt n = c * (opt.tol * Real.sqrt n) by ring) hb
    (h2.pos (by omega)) (h2'.pos (by omega)) h2.le h2'.le h2.big h2'.big h2.early h2'.early
  have hne := h2'.ne_zero (rotate_ne_zero hP hz) (by rw [mul_assoc]; exact mul_pos hc hthr)
  have hT : lanczosT (c • (P * M t' * Pᵀ) + d • 1) (P *ᵥ z) k'.size = c • lanczosT (M t') z k'.size + d • 1 := by
    rw [lanczosT_shift d (fun i hi => by rw [← bb_shift d]; exact hne i hi), lanczosT_scaled hP hc]
  rw [hT] at h3'
  have hkry := lanczos_krylov h2 (hsym t') hz hthr (by omega)
  obtain ⟨Q, lam, lo, hi, hspec, hl, hx⟩ := hf t' ht
  refine ⟨_, h4, ?_⟩
  rw [h4']
  show some (n * quadratureSum ext.pow f' opt.exponent l') = _
  rw [← hsize] at h3'
  rw [h3'.sum_eq (h3.affine c d), h3.sum_affine (f := f) (a := a) (b := b) ext.pow opt.exponent (fun Q' lam' hs' i =>
    hx _ (hkry.ritz_mem hspec hs' hl i))]
  congr 1
  ring

/-- **C98 (Gram matrix).**  The same with `gram`: `A` becomes `c U A Pᵀ` with orthogonal `U` and `P`, so that the
eigenvalues of the Gram matrix are multiplied by `c²`. -/
theorem gram_sample_equivariant (hr : ExactRun ext opt op M parameters) (hgram : opt.gram = true)
    (hop : op.relationKnown = false ∨ num = 1) (hop' : op'.relationKnown = false ∨ num = 1) (hz : z ≠ 0)
    (hP : Pᵀ * P = 1) (hU : Uᵀ * U = 1) (hc : 0 < c) (hdot : ∀ t x, op'.dot t x = .ok ((c • (U * M t * Pᵀ)) *ᵥ x))
    (htdot : ∀ t x, op'.transposeDot t x = .ok ((c • (U * M t * Pᵀ))ᵀ *ᵥ x))
    (hf : ∀ t ∈ parameters, ∃ Q lam lo hi, Spectral ((M t)ᵀ * M t) Q lam ∧ (∀ i, lam i ∈ Set.Icc lo hi) ∧
      ∀ x ∈ Set.Icc lo hi, f' (ext.pow (c ^ 2 * x) opt.exponent) = a * f (ext.pow x opt.exponent) + b)
    (hpar : parameters.size = num) (hconv : converged.size = num) (hest : estimate.size = num)
    (hest' : estimate'.size = num) (hja : junkAlpha.size = opt.degree) (hjb : junkBeta.size = opt.degree)
    (hja' : junkAlpha'.size = opt.degree) (hjb' : junkBeta'.size = opt.degree) :
    ∃ e e', slqSample ext opt op f parameters num z junkAlpha junkBeta converged estimate = .ok (converged, e) ∧
      slqSample ext { opt with tol := c * opt.tol } op' f' parameters num (P *ᵥ z) junkAlpha' junkBeta' converged
        estimate' = .ok (converged, e') ∧
      e.size = num ∧ e'.size = num ∧
      ∀ j < num, (converged[j]? = some true → e[j]? = estimate[j]? ∧ e'[j]? = estimate'[j]?) ∧
        (converged[j]? = some false → ∃ v, e[j]? = some v ∧ e'[j]? = some (a * v + n * b)) := by
  obtain ⟨hsvd, hinj⟩ := hr.invertible hgram
  have hm := hr.degree
  obtain ⟨e, he, hs, hres⟩ := slqSample_separate (ext := ext) (opt := opt) (op := op) (z := z) (f := f) hop hpar hconv
    hest hja hjb
    (fun t l => t ∈ parameters ∧ ∃ k, GKCore (M t) z opt.degree k ∧
      (2 ≤ opt.degree → GKResult (M t) z opt.degree (opt.tol * Real.sqrt n) k) ∧
      Diagonalises (gramT (M t) z k.size) l)
    (by
      intro t alpha beta ha hb ht
      obtain ⟨l, x, y, h1, h2, h3, k, h4, h5, _, h7⟩ := golubKahnNodes_ok hr.sqrt hsvd (hr.dot t) (hr.transposeDot t)
        (hinj t ht) hz hr.tol hr.degree ha hb
      refine ⟨l, x, y, by unfold inquiryNodes; rw [if_pos hgram]; exact h1, h2, h3, ht, k, h5, fun h => ?_, h7⟩
      obtain ⟨k', hk', hr'⟩ := golubKahn_result (hr.dot t) (hr.transposeDot t)
        (fun j hj => ga_ne_zero (hinj t ht) j hj) hz ext.eps opt.tol hr.tol opt.degree opt.orthogonalize (Or.inl h) ha hb
      rw [hr.sqrt] at h4
      obtain rfl : k = k' := by
        have : (Except.ok k : Except Fault (Coefficients ℝ)) = .ok k' := h4.symm.trans hk'
        simpa using this
      exact hr')
  obtain ⟨e', he', hs', hres'⟩ := slqSample_separate (ext := ext) (opt := { opt with tol := c * opt.tol }) (op := op')
    (z := P *ᵥ z) (f := f') hop' hpar hconv hest' hja' hjb'
    (fun t l => t ∈ parameters ∧ ∃ k, GKCore (c • (U * M t * Pᵀ)) (P *ᵥ z) opt.degree k ∧
      (2 ≤ opt.degree → GKResult (c • (U * M t * Pᵀ)) (P *ᵥ z) opt.degree (c * opt.tol * Real.sqrt n) k) ∧
      Diagonalises (gramT (c • (U * M t * Pᵀ)) (P *ᵥ z) k.size) l)
    (by
      intro t alpha beta ha hb ht
      have hi := transformed_injective hP hU hc (hinj t ht)
      obtain ⟨l, x, y, h1, h2, h3, k, h4, h5, _, h7⟩ := golubKahnNodes_ok (opt := { opt with tol := c * opt.tol })
        hr.sqrt hsvd (hdot t) (htdot t) hi (rotate_ne_zero hP hz) (mul_pos hc hr.tol) hr.degree ha hb
      refine ⟨l, x, y, by unfold inquiryNodes; rw [if_pos hgram]; exact h1, h2, h3, ht, k, h5, fun h => ?_, h7⟩
      obtain ⟨k', hk', hr'⟩ := golubKahn_result (hdot t) (htdot t)
        (fun j hj => ga_ne_zero hi j hj) (rotate_ne_zero hP hz) ext.eps (c * opt.tol) (mul_pos hc hr.tol) opt.degree
        opt.orthogonalize (Or.inl h) ha hb
      rw [hr.sqrt] at h4
      obtain rfl : k = k' := by
        have : (Except.ok k : Except Fault (Coefficients ℝ)) = .ok k' := h4.symm.trans hk'
        simpa using this
      exact hr')
  refine ⟨e, e', he, he', hs, hs', fun j hj => ⟨fun h => ⟨(hres j hj).1 h, (hres' j hj).1 h⟩, fun hcj => ?_⟩⟩
  obtain ⟨t, l, h1, ⟨ht, k, h2, hk, h3⟩, h4⟩ := (hres j hj).2 hcj
  obtain ⟨t', l', h1', ⟨_, k', h2', hk', h3'⟩, h4'⟩ := (hres' j hj).2 hcj
  obtain rfl : t' = t := by rw [h1] at h1'; simpa using h1'.symm
  have hsize : k.size = k'.size := by
    rcases Nat.lt_or_ge opt.degree 2 with h | h
    · have := h2.le; have := h2.pos; have := h2'.le; have := h2'.pos; omega
    · exact size_determined hc (show c * opt.tol * Real.sqrt n = c * (opt.tol * Real.sqrt n) by ring)
        (gb_scaled hP hU hc) h2.pos h2'.pos h2.le h2'.le (hk h).big (hk' h).big (hk h).early (hk' h).early
  rw [gramT_scaled hP hU hc, ← hsize] at h3'
  obtain ⟨Q, lam, lo, hi, hspec, hl, hx⟩ := hf t' ht
  have haff := h3.affine (c ^ 2) 0
  rw [zero_smul, add_zero] at haff
  refine ⟨_, h4, ?_⟩
  rw [h4']
  show some (n * quadratureSum ext.pow f' opt.exponent l') = _
  rw [h3'.sum_eq haff, h3.sum_affine (f := f) (a := a) (b := b) ext.pow opt.exponent (fun Q' lam' hs' i => by
    rw [add_zero]
    exact hx _ ((gram_krylov h2).ritz_mem hspec hs' hl i))]
  congr 1
  ring

/-- The functions of the calls at scaled arguments. -/
theorem slqFunction_scaled {k y : ℝ} (hk : 0 < k) (hy : 0 < y) (api : Api) :
    slqFunction (scaledApi k api) (.fin (k * y)) =
      (slqFunction api (.fin y)).map (fun v => scaledFactor k api * v + scaledOffset k api) := by
  have hk' := hk.ne'
  cases api with
  | trace => simp [slqFunction, scaledApi, identity, scaledFactor, scaledOffset]
  | traceinv => simp [slqFunction, scaledApi, inverse, scaledFactor, scaledOffset, hk', hy.ne', mul_comm]
  | logdet =>
    simp only [slqFunction, scaledApi, logarithm, scaledFactor, scaledOffset]
    rw [if_pos (mul_pos hk hy), if_pos hy, Real.log_mul hk' hy.ne']
    simp [add_comm]
  | trexp t =>
    simp only [slqFunction, scaledApi, exponential, scaledFactor, scaledOffset, Option.map_some]
    rw [show k * y * (t / k) = y * t by field_simp]
    simp
  | trlinfrac a b c d =>
    simp only [slqFunction, scaledApi, homographic, scaledFactor, scaledOffset]
    rw [show c / k * (k * y) = c * y by field_simp, show a / k * (k * y) = a * y by field_simp]
    split <;> simp
  | eigencount lo hi =>
    simp only [slqFunction, scaledApi, indicator, scaledFactor, scaledOffset, mul_lt_mul_iff_right₀ hk]
    split <;> simp
  | density mu sigma =>
    simp only [slqFunction, scaledApi, gaussian, scaledFactor, scaledOffset, Option.map_some]
    rw [← mul_sub, mul_div_mul_left _ _ hk']
    congr 1
    rw [add_zero, ← mul_assoc]
    congr 1
    rw [div_mul_eq_div_div_swap]
    field_simp

/-- **C98 (scaling).**  For every function of the library and every exponent `p`: multiplying a positive definite matrix
by `c`, and with it `lanczos_tol`, multiplies every sample of `trace` by `cᵖ`, of `traceinv` by `c⁻ᵖ` and adds
`n log cᵖ` to every sample of `logdet`; the samples of the functions with parameters follow when the parameters are
scaled. -/
theorem scaled_call_partial (api : Api) (hr : ExactRun ext opt op M parameters) (hgram : opt.gram = false)
    (hpow : ∀ x, 0 < x → ext.pow x opt.exponent = x ^ opt.exponent)
    (hop : op.relationKnown = false ∨ num = 1) (hop' : op'.relationKnown = false ∨ num = 1) (hz : z ≠ 0)
    (hc : 0 < c) (hdot : ∀ t x, op'.dot t x = .ok ((c • M t) *ᵥ x)) (hlo : 0 < lo)
    (hrange : ∀ t ∈ parameters, ∃ Q lam, Spectral (M t) Q lam ∧ ∀ i, lam i ∈ Set.Icc lo hi)
    (hf : ∀ x ∈ Set.Icc lo hi, slqValue api opt.exponent x = some (f (x ^ opt.exponent)))
    (hf' : ∀ x ∈ Set.Icc lo hi,
      slqValue (scaledApi (c ^ opt.exponent) api) opt.exponent (c * x) = some (f' ((c * x) ^ opt.exponent)))
    (hpar : parameters.size = num) (hconv : converged.size = num) (hest : estimate.size = num)
    (hest' : estimate'.size = num) (hja : junkAlpha.size = opt.degree) (hjb : junkBeta.size = opt.degree)
    (hja' : junkAlpha'.size = opt.degree) (hjb' : junkBeta'.size = opt.degree) :
    ∃ e e', slqSample ext opt op f parameters num z junkAlpha junkBeta converged estimate = .ok (converged, e) ∧
      slqSample ext { opt with tol := c * opt.tol } op' f' parameters num z junkAlpha' junkBeta' converged
        estimate' = .ok (converged, e') ∧
      ∀ j < num, converged[j]? = some false → ∃ v, e[j]? = some v ∧
        e'[j]? = some (scaledFactor (c ^ opt.exponent) api * v + n * scaledOffset (c ^ opt.exponent) api) := by
  obtain ⟨e, e', h1, h2, _, _, h5⟩ := sample_equivariant (P := 1) (c := c) (d := 0) (f := f) (f' := f')
    (a := scaledFactor (c ^ opt.exponent) api) (b := scaledOffset (c ^ opt.exponent) api)
    hr hgram hop hop' hz (by simp) hc (by intro t x; rw [hdot]; simp)
    (by
      intro t ht
      obtain ⟨Q, lam, hspec, hl⟩ := hrange t ht
      refine ⟨Q, lam, lo, hi, hspec, hl, ?_⟩
      intro x hx
      have hx0 : 0 < x := hlo.trans_le hx.1
      have e1 := hf x hx
      have e2 := hf' x hx
      rw [slqValue, applied, Eigen.powR, if_pos hx0] at e1
      rw [slqValue, applied, Eigen.powR, if_pos (mul_pos hc hx0), Real.mul_rpow hc.le hx0.le,
        slqFunction_scaled (Real.rpow_pos_of_pos hc _) (Real.rpow_pos_of_pos hx0 _), e1] at e2
      rw [add_zero, hpow _ (mul_pos hc hx0), hpow _ hx0, Real.mul_rpow hc.le hx0.le]
      simpa using e2.symm)
    hpar hconv hest hest' hja hjb hja' hjb'
  rw [one_mulVec] at h2
  exact ⟨e, e', h1, h2, fun j hj => (h5 j hj).2⟩

/-- **C98 (scaling, `gram`).**  The same for the Gram matrix, with `c²` instead of `c`. -/
theorem scaled_gram_call_partial (api : Api) (hr : ExactRun ext opt op M parameters) (hgram : opt.gram = true)
    (hpow : ∀ x, 0 < x → ext.pow x opt.exponent = x ^ opt.exponent)
    (hop : op.relationKnown = false ∨ num = 1) (hop' : op'.relationKnown = false ∨ num = 1) (hz : z ≠ 0)
    (hc : 0 < c) (hdot : ∀ t x, op'.dot t x = .ok ((c • M t) *ᵥ x))
    (htdot : ∀ t x, op'.transposeDot t x = .ok ((c • M t)ᵀ *ᵥ x)) (hlo : 0 < lo)
    (hrange : ∀ t ∈ parameters, ∃ Q lam, Spectral ((M t)ᵀ * M t) Q lam ∧ ∀ i, lam i ∈ Set.Icc lo hi)
    (hf : ∀ x ∈ Set.Icc lo hi, slqValue api opt.exponent x = some (f (x ^ opt.exponent)))
    (hf' : ∀ x ∈ Set.Icc lo hi,
      slqValue (scaledApi ((c ^ 2) ^ opt.exponent) api) opt.exponent (c ^ 2 * x) =
        some (f' ((c ^ 2 * x) ^ opt.exponent)))
    (hpar : parameters.size = num) (hconv : converged.size = num) (hest : estimate.size = num)
    (hest' : estimate'.size = num) (hja : junkAlpha.size = opt.degree) (hjb : junkBeta.size = opt.degree)
    (hja' : junkAlpha'.size = opt.degree) (hjb' : junkBeta'.size = opt.degree) :
    ∃ e e', slqSample ext opt op f parameters num z junkAlpha junkBeta converged estimate = .ok (converged, e) ∧
      slqSample ext { opt with tol := c * opt.tol } op' f' parameters num z junkAlpha' junkBeta' converged
        estimate' = .ok (converged, e') ∧
      ∀ j < num, converged[j]? = some false → ∃ v, e[j]? = some v ∧
        e'[j]? = some (scaledFactor ((c ^ 2) ^ opt.exponent) api * v +
          n * scaledOffset ((c ^ 2) ^ opt.exponent) api) := by
  have hc2 : 0 < c ^ 2 := pow_pos hc 2
  obtain ⟨e, e', h1, h2, _, _, h5⟩ := gram_sample_equivariant (P := 1) (U := 1) (c := c) (f := f)
    (f' := f') (a := scaledFactor ((c ^ 2) ^ opt.exponent) api) (b := scaledOffset ((c ^ 2) ^ opt.exponent) api)
    hr hgram hop hop' hz (by simp) (by simp) hc (by intro t x; rw [hdot]; simp) (by intro t x; rw [htdot]; simp)
    (by
      intro t ht
      obtain ⟨Q, lam, hspec, hl⟩ := hrange t ht
      refine ⟨Q, lam, lo, hi, hspec, hl, ?_⟩
      intro x hx
      have hx0 : 0 < x := hlo.trans_le hx.1
      have e1 := hf x hx
      have e2 := hf' x hx
      rw [slqValue, applied, Eigen.powR, if_pos hx0] at e1
      rw [slqValue, applied, Eigen.powR, if_pos (mul_pos hc2 hx0), Real.mul_rpow hc2.le hx0.le,
        slqFunction_scaled (Real.rpow_pos_of_pos hc2 _) (Real.rpow_pos_of_pos hx0 _), e1] at e2
      rw [hpow _ (mul_pos hc2 hx0), hpow _ hx0, Real.mul_rpow hc2.le hx0.le]
      simpa using e2.symm)
    hpar hconv hest hest' hja hjb hja' hjb'
  rw [one_mulVec] at h2
  exact ⟨e, e', h1, h2, fun j hj => (h5 j hj).2⟩

/-- The matrix of a permutation. -/
theorem permutation_matrix (σ : Equiv.Perm (Fin n)) (A : Matrix (Fin n) (Fin n) ℝ) :
    ((1 : Matrix (Fin n) (Fin n) ℝ).submatrix σ id)ᵀ * (1 : Matrix (Fin n) (Fin n) ℝ).submatrix σ id = 1 ∧
    (1 : Matrix (Fin n) (Fin n) ℝ).submatrix σ id * A * ((1 : Matrix (Fin n) (Fin n) ℝ).submatrix σ id)ᵀ =
      A.submatrix σ σ ∧
    (1 : Matrix (Fin n) (Fin n) ℝ).submatrix σ id *ᵥ z = z ∘ σ := by
  refine ⟨?_, ?_, ?_⟩
  · rw [transpose_submatrix, transpose_one, submatrix_mul_equiv, Matrix.one_mul, submatrix_id_id]
  · rw [transpose_submatrix, transpose_one]
    have h1 : (1 : Matrix (Fin n) (Fin n) ℝ).submatrix σ id * A = A.submatrix σ id := by
      conv_lhs => rw [← submatrix_id_id A]
      rw [← submatrix_mul _ _ _ _ _ Function.bijective_id, Matrix.one_mul]
    have h2 : A.submatrix σ id * (1 : Matrix (Fin n) (Fin n) ℝ).submatrix id σ = A.submatrix σ σ := by
      rw [← submatrix_mul _ _ _ _ _ Function.bijective_id, Matrix.mul_one]
    rw [h1, h2]
  · funext i
    show ∑ j, (1 : Matrix (Fin n) (Fin n) ℝ) (σ i) j * z j = z (σ i)
    simp [Matrix.one_apply]

/-- **C98 (permutation).**  The rows and columns of a matrix and the entries of the random vector are permuted: every
sample of every function stays exactly the same, with the same options.  The permuted vector is a Rademacher vector if
the given one is. -/
theorem permuted_sample (σ : Equiv.Perm (Fin n)) (hr : ExactRun ext opt op M parameters) (hgram : opt.gram = false)
    (hop : op.relationKnown = false ∨ num = 1) (hop' : op'.relationKnown = false ∨ num = 1) (hz : z ≠ 0)
    (hdot : ∀ t x, op'.dot t x = .ok ((M t).submatrix σ σ *ᵥ x))
    (hpar : parameters.size = num) (hconv : converged.size = num) (hest : estimate.size = num)
    (hja : junkAlpha.size = opt.degree) (hjb : junkBeta.size = opt.degree)
    (hja' : junkAlpha'.size = opt.degree) (hjb' : junkBeta'.size = opt.degree) :
    (∃ e, slqSample ext opt op f parameters num z junkAlpha junkBeta converged estimate = .ok (converged, e) ∧
      slqSample ext opt op' f parameters num (z ∘ σ) junkAlpha' junkBeta' converged estimate = .ok (converged, e)) ∧
    (Rademacher z → Rademacher (z ∘ σ)) := by
  refine ⟨?_, fun h i => h (σ i)⟩
  obtain ⟨_, hsym⟩ := hr.symmetric hgram
  obtain ⟨e, e', h1, h2, h3, h4, h5⟩ := sample_equivariant (P := (1 : Matrix (Fin n) (Fin n) ℝ).submatrix σ id) (c := 1)
    (d := 0) (f := f) (f' := f) (a := 1) (b := 0) (junkAlpha' := junkAlpha') (junkBeta' := junkBeta')
    (estimate' := estimate) hr hgram hop hop' hz (permutation_matrix (z := z) σ 1).1
    one_pos (by intro t x; rw [hdot, (permutation_matrix (z := z) σ (M t)).2.1]; simp)
    (by
      intro t _
      obtain ⟨Q, lam, hspec⟩ := exists_spectral (hsym t)
      refine ⟨Q, lam, -∑ i, |lam i|, ∑ i, |lam i|, hspec, fun i => abs_le.1 ?_, fun x _ => by simp⟩
      exact Finset.single_le_sum (f := fun i => |lam i|) (fun i _ => abs_nonneg _) (Finset.mem_univ i))
    hpar hconv hest hest hja hjb hja' hjb'
  rw [(permutation_matrix σ 1).2.2, one_mul] at h2
  obtain rfl : e' = e := by
    apply Array.ext_getElem?
    intro j
    rcases Nat.lt_or_ge j num with hj | hj
    · cases hcj : converged[j]? with
      | none => rw [Array.getElem?_eq_none_iff] at hcj; omega
      | some b =>
        cases b with
        | true => rw [((h5 j hj).1 hcj).1, ((h5 j hj).1 hcj).2]
        | false =>
          obtain ⟨v, e1, e2⟩ := (h5 j hj).2 hcj
          rw [e1, e2]
          simp
    · rw [Array.getElem?_eq_none (by omega), Array.getElem?_eq_none (by omega)]
  exact ⟨e', h1, h2⟩

/-- **C98 (shift).**  Adding `d` to the diagonal of a symmetric matrix adds `n d` to every sample of `trace` with exponent
one, with the same options. -/
theorem shifted_trace (hr : ExactRun ext opt op M parameters) (hgram : opt.gram = false)
    (hpow : ∀ x, f (ext.pow x opt.exponent) = x)
    (hop : op.relationKnown = false ∨ num = 1) (hop' : op'.relationKnown = false ∨ num = 1) (hz : z ≠ 0)
    (hdot : ∀ t x, op'.dot t x = .ok ((M t + d • 1) *ᵥ x))
    (hpar : parameters.size = num) (hconv : converged.size = num) (hest : estimate.size = num)
    (hest' : estimate'.size = num) (hja : junkAlpha.size = opt.degree) (hjb : junkBeta.size = opt.degree)
    (hja' : junkAlpha'.size = opt.degree) (hjb' : junkBeta'.size = opt.degree) :
    ∃ e e', slqSample ext opt op f parameters num z junkAlpha junkBeta converged estimate = .ok (converged, e) ∧
      slqSample ext opt op' f parameters num z junkAlpha' junkBeta' converged estimate' = .ok (converged, e') ∧
      ∀ j < num, converged[j]? = some false → ∃ v, e[j]? = some v ∧ e'[j]? = some (v + n * d) := by
  obtain ⟨_, hsym⟩ := hr.symmetric hgram
  obtain ⟨e, e', h1, h2, _, _, h5⟩ := sample_equivariant (P := 1) (c := 1) (d := d) (f := f) (f' := f) (a := 1) (b := d)
    (junkAlpha' := junkAlpha') (junkBeta' := junkBeta') (estimate' := estimate') hr hgram hop hop' hz (by simp)
    one_pos (by intro t x; rw [hdot]; simp)
    (by
      intro t _
      obtain ⟨Q, lam, hspec⟩ := exists_spectral (hsym t)
      refine ⟨Q, lam, -∑ i, |lam i|, ∑ i, |lam i|, hspec, fun i => abs_le.1 ?_, fun x _ => by rw [hpow, hpow]⟩
      exact Finset.single_le_sum (f := fun i => |lam i|) (fun i _ => abs_nonneg _) (Finset.mem_univ i))
    hpar hconv hest hest' hja hjb hja' hjb'
  rw [one_mulVec, one_mul] at h2
  refine ⟨e, e', h1, h2, fun j hj hcj => ?_⟩
  obtain ⟨v, e1, e2⟩ := (h5 j hj).2 hcj
  exact ⟨v, e1, by rw [e2, one_mul]⟩

/-! ### The sampling loop -/

open Estimator Convergence in
/-- **C98 (whole run).**  If every sample and the absolute tolerance are multiplied by `k > 0` then, under every schedule
of the threads, the run makes the same decisions: the states differ only in the errors, which are multiplied by `k`, and
so are the reported averages and errors; the number of outliers is the same.  (Exact arithmetic with the special values
of IEEE arithmetic.) -/
theorem run_scaled {k : ℝ} (hk : 0 < k) (cfg : Config (XR ℝ)) (sched : List Nat) :
    run (scaledConfig k cfg) (init (scaledConfig k cfg)) sched = (run cfg (init cfg) sched).map (scaledState k) ∧
    ∀ s, run cfg (init cfg) sched = some s → ∀ errorZ outlierZ j, j < s.inqs.length →
      averaged (scaledConfig k cfg) errorZ outlierZ (scaledState k s) j =
        scaledAverage k (averaged cfg errorZ outlierZ s j) := by
  refine ⟨by rw [init_scaled, run_scaled_from hk], fun s _ ez oz j hj => ?_⟩
  unfold averaged
  have h : (scaledState k s).inqs[j]? = some (scaledInquiry k s.inqs[j]) := by
    show (s.inqs.map (scaledInquiry k))[j]? = _
    rw [List.getElem?_map, List.getElem?_eq_getElem hj]
    rfl
  rw [h, List.getElem?_eq_getElem hj]
  show averageEstimate ez oz ((column (scaledConfig k cfg) (scaledState k s) j).take s.inqs[j].numSamplesUsed) = _
  rw [column_scaled, ← List.map_take, averageEstimate_scaled hk]

/-! ### The tolerance is absolute -/

theorem first_residual {A : Matrix (Fin n) (Fin n) ℝ} (hz : z ≠ 0) :
    aa A z 0 = (z ⬝ᵥ (A *ᵥ z)) / (z ⬝ᵥ z) ∧
    (z ⬝ᵥ z) * bb A z 1 ^ 2 = (A *ᵥ z - aa A z 0 • z) ⬝ᵥ (A *ᵥ z - aa A z 0 • z) := by
  have hn := norm_ne_zero hz
  have hnn := norm_mul_self z
  have hv : vv A z 0 = (Lanczos.norm Real.sqrt z)⁻¹ • z := rfl
  constructor
  · rw [aa, hv, mulVec_smul, smul_dotProduct, dotProduct_smul, smul_eq_mul, smul_eq_mul, ← hnn]
    field_simp
  · have hr : rr A z 1 = (Lanczos.norm Real.sqrt z)⁻¹ • (A *ᵥ z - aa A z 0 • z) := by
      rw [rr_one, hv, mulVec_smul, smul_sub, smul_comm]
    rw [bb, sq, norm_mul_self, hr, smul_dotProduct, dotProduct_smul, smul_eq_mul, smul_eq_mul, ← hnn]
    field_simp

/-- The rule with one node. -/
theorem one_node {A : Matrix (Fin n) (Fin n) ℝ} {l : Nodes ℝ} (h : Diagonalises (lanczosT A z 1) l)
    (pow : ℝ → ℝ → ℝ) (e : ℝ) : quadratureSum pow f e l = f (pow (aa A z 0) e) := by
  have h' : Diagonalises (lanczosT A z 1) [(aa A z 0, 1)] := by
    refine ⟨one_pos, 1, fun _ => aa A z 0, ⟨by simp, by simp, ?_⟩, by simp [Matrix.one_apply]⟩
    ext i j
    fin_cases i; fin_cases j
    simp [lanczosT, tridiagonal]
  rw [h.sum_eq h']
  simp [quadratureSum]

/-- **C98 (one step).**  If the residual of the first step is below the tolerance, `‖A z - ρ z‖ < tol √n ‖z‖` with the
Rayleigh quotient `ρ`, the iteration stops after one step, whatever `lanczos_degree` is, and the sample is `n f(ρᵖ)`. -/
theorem one_step_sample (hr : ExactRun ext opt op M parameters) (hgram : opt.gram = false)
    (hop : op.relationKnown = false ∨ num = 1) (hz : z ≠ 0) (rho : ℝ → ℝ)
    (hrho : ∀ t, rho t = (z ⬝ᵥ (M t *ᵥ z)) / (z ⬝ᵥ z))
    (hsmall : ∀ t ∈ parameters, (M t *ᵥ z - rho t • z) ⬝ᵥ (M t *ᵥ z - rho t • z) < opt.tol ^ 2 * n * (z ⬝ᵥ z))
    (hpar : parameters.size = num) (hconv : converged.size = num) (hest : estimate.size = num)
    (hja : junkAlpha.size = opt.degree) (hjb : junkBeta.size = opt.degree) :
    ∃ e, slqSample ext opt op f parameters num z junkAlpha junkBeta converged estimate = .ok (converged, e) ∧
      e.size = num ∧
      ∀ j < num, converged[j]? = some false → ∃ t, parameters[j]? = some t ∧
        e[j]? = some (n * f (ext.pow (rho t) opt.exponent)) := by
  obtain ⟨heig, hsym⟩ := hr.symmetric hgram
  have hm := hr.degree
  have hzz : 0 < z ⬝ᵥ z := by
    rw [← norm_mul_self]; exact mul_self_pos.2 (norm_ne_zero hz)
  obtain ⟨e, he, hs, hres⟩ := slqSample_separate (ext := ext) (opt := opt) (op := op) (z := z) (f := f) hop hpar hconv
    hest hja hjb
    (fun t l => t ∈ parameters ∧ ∃ k, LanczosResult (M t) z opt.degree (opt.tol * Real.sqrt n) k ∧
      Diagonalises (lanczosT (M t) z k.size) l)
    (by
      intro t alpha beta ha hb ht
      obtain ⟨l, x, y, h1, h2, h3, k, _, h5, h6⟩ := lanczosNodes_ok hr.sqrt heig (hr.dot t) (hsym t) hz hr.tol hr.degree
        ha hb
      exact ⟨l, x, y, by unfold inquiryNodes; rw [if_neg (by simp [hgram])]; exact h1, h2, h3, ht, k, h5, h6⟩)
  refine ⟨e, he, hs, fun j hj hcj => ?_⟩
  obtain ⟨t, l, h1, ⟨ht, k, h2, h3⟩, h4⟩ := (hres j hj).2 hcj
  obtain ⟨ha, hb⟩ := first_residual (A := M t) hz
  have hlt : bb (M t) z 1 < opt.tol * Real.sqrt n := by
    have h5 := hsmall t ht
    rw [hrho, ← ha, ← hb, mul_comm (z ⬝ᵥ z)] at h5
    have h6 := lt_of_mul_lt_mul_right h5 hzz.le
    have h7 : (opt.tol * Real.sqrt n) ^ 2 = opt.tol ^ 2 * n := by rw [mul_pow, Real.sq_sqrt (Nat.cast_nonneg n)]
    rw [← h7] at h6
    exact lt_of_pow_lt_pow_left₀ 2 (mul_nonneg hr.tol.le (Real.sqrt_nonneg _)) h6
  have hsize : k.size = 1 := by
    have := h2.pos (by omega)
    by_contra hne
    exact absurd hlt (not_lt.2 (h2.big 0 (by omega)))
  refine ⟨t, h1, ?_⟩
  rw [hsize] at h3
  rw [h4, one_node h3, ha, hrho]

/-- **C98 (negation, every matrix).**  Every symmetric matrix, made small enough, is treated as a multiple of the identity
matrix: for all small `c` the sample of `c A` is `n f((c ρ)ᵖ)` with the Rayleigh quotient `ρ`, whatever the function and
the other options are. -/
theorem small_matrix_one_step {A : Matrix (Fin n) (Fin n) ℝ} (hz : z ≠ 0) {tol : ℝ} (htol : 0 < tol) :
    ∃ c0 > 0, ∀ c : ℝ, 0 < c → c < c0 → ∀ (ext : External ℝ) (opt : Options ℝ) (op : Operator ℝ n) (f : ℝ → ℝ) (t : ℝ)
      (junkAlpha junkBeta : Array ℝ), ExactRun ext opt op (fun _ => c • A) #[t] → opt.gram = false → opt.tol = tol →
      junkAlpha.size = opt.degree → junkBeta.size = opt.degree →
      slqSample ext opt op f #[t] 1 z junkAlpha junkBeta #[false] #[0] =
        .ok (#[false], #[n * f (ext.pow (c * ((z ⬝ᵥ (A *ᵥ z)) / (z ⬝ᵥ z))) opt.exponent)]) := by
  have hn : (0 : ℝ) < n := by exact_mod_cast ne_zero_pos hz
  have hzz : 0 < z ⬝ᵥ z := by
    rw [← norm_mul_self]; exact mul_self_pos.2 (norm_ne_zero hz)
  set w := A *ᵥ z - ((z ⬝ᵥ (A *ᵥ z)) / (z ⬝ᵥ z)) • z with hw
  have hww : 0 ≤ w ⬝ᵥ w := Finset.sum_nonneg fun i _ => mul_self_nonneg _
  have hT : 0 < tol ^ 2 * n * (z ⬝ᵥ z) := by positivity
  refine ⟨Real.sqrt (tol ^ 2 * n * (z ⬝ᵥ z) / (w ⬝ᵥ w + 1)), Real.sqrt_pos.2 (by positivity), ?_⟩
  intro c hc hlt ext opt op f t ja jb hr hgram htol' hja hjb
  have hrho : (z ⬝ᵥ ((c • A) *ᵥ z)) / (z ⬝ᵥ z) = c * ((z ⬝ᵥ (A *ᵥ z)) / (z ⬝ᵥ z)) := by
    rw [smul_mulVec, dotProduct_smul, smul_eq_mul, mul_div_assoc]
  have e : (c • A) *ᵥ z - (c * ((z ⬝ᵥ (A *ᵥ z)) / (z ⬝ᵥ z))) • z = c • w := by
    rw [hw, smul_mulVec, smul_sub, mul_smul]
  have hres : (c • w) ⬝ᵥ (c • w) < tol ^ 2 * n * (z ⬝ᵥ z) := by
    rw [smul_dotProduct, dotProduct_smul, smul_eq_mul, smul_eq_mul, ← mul_assoc, ← sq]
    have h1 := (Real.lt_sqrt hc.le).1 hlt
    rw [lt_div_iff₀ (by positivity)] at h1
    nlinarith [pow_pos hc 2]
  obtain ⟨E, h1, h2, h3⟩ := one_step_sample (f := f) (num := 1) (estimate := #[0]) (converged := #[false])
    (parameters := #[t]) hr hgram (Or.inr rfl) hz (fun _ => c * ((z ⬝ᵥ (A *ᵥ z)) / (z ⬝ᵥ z))) (fun _ => hrho.symm)
    (fun _ _ => by rw [htol', e]; exact hres) rfl rfl rfl hja hjb
  obtain ⟨_, _, h4⟩ := h3 0 one_pos rfl
  rw [h1]
  congr 2
  apply Array.ext_getElem?
  intro i
  rcases Nat.eq_zero_or_pos i with rfl | hi
  · rw [h4]; rfl
  · rw [Array.getElem?_eq_none (by omega), Array.getElem?_eq_none (by simp; omega)]

open Convergence in
/-- **C98 (negation, `traceinv`).**  With `lanczos_tol = tol`, every sample of the trace of the inverse of `c diag(1, 3)`,
`0 < c ≤ tol`, is `1 / c`, whatever the degree is.  The trace is `4 / (3 c)`: the result is wrong by a quarter of it.  As
all samples agree the reported error is zero and every positive relative tolerance is met. -/
theorem small_traceinv_wrong {tol : ℝ} (hc : 0 < c) (hct : c ≤ tol) (op : Operator ℝ 2) (t : ℝ)
    (hr : ExactRun ext opt op (fun _ => c • Matrix.diagonal ![1, 3]) #[t]) (hgram : opt.gram = false)
    (htol : opt.tol = tol) (hpow : ∀ x, ext.pow x opt.exponent = x)
    (hja : junkAlpha.size = opt.degree) (hjb : junkBeta.size = opt.degree) :
    (∀ z : Fin 2 → ℝ, Rademacher z →
      slqSample ext opt op (fun x => x⁻¹) #[t] 1 z junkAlpha junkBeta #[false] #[0] = .ok (#[false], #[1 / c])) ∧
    (c • Matrix.diagonal ![1, 3] : Matrix (Fin 2) (Fin 2) ℝ)⁻¹.trace = 4 / (3 * c) ∧
    ∀ k, 2 ≤ k → ∀ zq rtol : ℝ, 0 < rtol →
      errorOf (.fin zq) (List.replicate k (.fin (1 / c) : XR ℝ)) = .fin 0 ∧
      meetsTol (.fin zq) (.fin 0) (.fin rtol) (List.replicate k (.fin (1 / c) : XR ℝ)) = true := by
  refine ⟨fun z hz => ?_, ?_, fun k hk zq rtol hrt => ?_⟩
  · have hz0 : z ≠ 0 := rademacher_ne_zero hz (by norm_num)
    have hzz : z ⬝ᵥ z = 2 := by rw [rademacher_dot hz]; norm_num
    have hsq : ∀ i, z i * z i = 1 := fun i => by rcases hz i with h | h <;> rw [h] <;> norm_num
    have hrho : (z ⬝ᵥ ((c • Matrix.diagonal ![1, 3]) *ᵥ z)) / (z ⬝ᵥ z) = 2 * c := by
      rw [hzz, smul_mulVec, dotProduct_smul, smul_eq_mul]
      have : z ⬝ᵥ (Matrix.diagonal ![1, 3] *ᵥ z) = 4 := by
        simp only [dotProduct, mulVec_diagonal, Fin.sum_univ_two, Matrix.cons_val_zero, Matrix.cons_val_one]
        linear_combination hsq 0 + 3 * hsq 1
      rw [this]
      ring
    have hsmall : ((c • Matrix.diagonal ![1, 3]) *ᵥ z - (2 * c) • z) ⬝ᵥ
        ((c • Matrix.diagonal ![1, 3]) *ᵥ z - (2 * c) • z) < opt.tol ^ 2 * (2 : ℕ) * (z ⬝ᵥ z) := by
      have : ((c • Matrix.diagonal ![1, 3]) *ᵥ z - (2 * c) • z) ⬝ᵥ
          ((c • Matrix.diagonal ![1, 3]) *ᵥ z - (2 * c) • z) = 2 * c ^ 2 := by
        simp only [smul_mulVec, dotProduct, Fin.sum_univ_two, Pi.sub_apply, Pi.smul_apply, mulVec_diagonal,
          Matrix.cons_val_zero, Matrix.cons_val_one, smul_eq_mul]
        linear_combination c ^ 2 * hsq 0 + c ^ 2 * hsq 1
      rw [this, htol, hzz]
      push_cast
      nlinarith [pow_pos hc 2]
    obtain ⟨E, h1, h2, h3⟩ := one_step_sample (f := fun x => x⁻¹) (num := 1) (estimate := #[0]) (converged := #[false])
      (parameters := #[t]) hr hgram (Or.inr rfl) hz0 (fun _ => 2 * c) (fun _ => hrho.symm) (fun _ _ => hsmall) rfl rfl rfl
      hja hjb
    obtain ⟨_, _, h4⟩ := h3 0 one_pos rfl
    rw [h1]
    congr 2
    apply Array.ext_getElem?
    intro i
    rcases Nat.eq_zero_or_pos i with rfl | hi
    · have h5 : ((2 : ℕ) : ℝ) * (2 * c)⁻¹ = 1 / c := by push_cast; field_simp
      rw [h4, hpow, h5]
      rfl
    · rw [Array.getElem?_eq_none (by omega), Array.getElem?_eq_none (by simp; omega)]
  · have h : (c • Matrix.diagonal ![1, 3] : Matrix (Fin 2) (Fin 2) ℝ)⁻¹ = c⁻¹ • Matrix.diagonal ![1, 3⁻¹] := by
      apply Matrix.inv_eq_right_inv
      rw [Matrix.smul_mul, Matrix.mul_smul, smul_smul, mul_inv_cancel₀ hc.ne', one_smul, diagonal_mul_diagonal,
        ← diagonal_one]
      congr 1
      funext i
      fin_cases i <;> simp
    rw [h, trace_smul, trace_diagonal, Fin.sum_univ_two]
    simp only [Matrix.cons_val_zero, Matrix.cons_val_one, smul_eq_mul]
    field_simp
    norm_num
  · have e : (List.replicate k (.fin (1 / c) : XR ℝ)) = (List.replicate k (1 / c)).map XR.fin := by
      rw [List.map_replicate]
    have hk0 : (k : ℝ) ≠ 0 := by
      have : (0 : ℝ) < k := by exact_mod_cast (by omega : 0 < k)
      exact this.ne'
    have hmean : mean (List.replicate k (1 / c)) = 1 / c := by
      unfold mean
      rw [List.sum_replicate, List.length_replicate, nsmul_eq_mul]
      field_simp
    have hstd : sampleStd (List.replicate k (1 / c)) = 0 := by
      unfold sampleStd sqDev
      rw [hmean, List.map_replicate, List.sum_replicate]
      simp
    have herr : errorOf (.fin zq) (List.replicate k (.fin (1 / c) : XR ℝ)) = .fin 0 := by
      rw [e, errorOf_fin zq (by simpa using hk)]
      unfold standardError
      rw [hstd]
      simp
    refine ⟨herr, ?_⟩
    unfold meetsTol
    rw [herr, e, meanOf_fin (by intro h; rw [List.replicate_eq_nil_iff] at h; omega), hmean]
    show FloatLike.lt (XR.fin 0) (FloatLike.max (XR.fin 0) (XR.fin (rtol * (1 / c)))) = true
    rw [max_fin]
    show decide _ = true
    rw [decide_eq_true_eq]
    exact lt_max_of_lt_right (by positivity)

/-! ### Non-vacuity -/

/-- Products with `c diag(1, d)`. -/
noncomputable def scaledOp (c d : ℝ) : Operator ℝ 2 :=
  ⟨false, fun _ x => .ok ((c • oneAnd d) *ᵥ x), fun _ x => .ok ((c • oneAnd d)ᵀ *ᵥ x), fun _ _ _ => 0⟩

theorem someExternal_pow (x : ℝ) : someExternal.pow x 1 = x := by simp [someExternal]

theorem inverse_value {x : ℝ} (hx : 0 < x) : slqValue .traceinv 1 x = some ((x ^ (1 : ℝ))⁻¹) := by
  rw [slqValue, applied, Eigen.powR, if_pos hx, slqFunction, inverse, if_neg (by simp [hx.ne'])]
  simp

/-- Doubling `diag(1, 4)` halves the sample of `traceinv`. -/
example : ∃ e e' v, slqSample someExternal ⟨false, 1, 2, 3, 1/100⟩ (oneAndOp 4) (fun x => x⁻¹) #[0] 1 ![1, -1] #[0, 0, 0]
      #[0, 0, 0] #[false] #[0] = .ok (#[false], e) ∧
    slqSample someExternal ⟨false, 1, 2, 3, 2 * (1/100)⟩ (scaledOp 2 4) (fun x => x⁻¹) #[0] 1 ![1, -1] #[0, 0, 0]
      #[0, 0, 0] #[false] #[0] = .ok (#[false], e') ∧ e[0]? = some v ∧ e'[0]? = some (v / 2) := by
  obtain ⟨e, e', h1, h2, h3⟩ := scaled_call_partial (op' := scaledOp 2 4) (z := ![1, -1]) (c := 2) (lo := 1) (hi := 4)
    (f := fun x => x⁻¹) (f' := fun x => x⁻¹) (num := 1) (junkAlpha := #[0, 0, 0]) (junkBeta := #[0, 0, 0])
    (junkAlpha' := #[0, 0, 0]) (junkBeta' := #[0, 0, 0]) (estimate := #[0]) (estimate' := #[0]) (converged := #[false])
    .traceinv (oneAnd_run 4) rfl (fun x _ => by rw [someExternal_pow, Real.rpow_one]) (Or.inl rfl) (Or.inl rfl)
    (fun h => by have := congrFun h 0; simp at this) (by norm_num) (fun _ _ => rfl) (by norm_num)
    (fun _ _ => ⟨1, ![1, 4], oneAnd_spectral 4, by intro i; fin_cases i <;> norm_num⟩)
    (fun x hx => inverse_value (by linarith [hx.1])) (fun x hx => inverse_value (by linarith [hx.1]))
    rfl rfl rfl rfl rfl rfl rfl rfl
  obtain ⟨v, e1, e2⟩ := h3 0 one_pos rfl
  refine ⟨e, e', v, h1, h2, e1, ?_⟩
  rw [e2]
  simp only [scaledFactor, scaledOffset, Real.rpow_one]
  congr 1
  ring

/-- Doubling `diag(1, 2)` divides the sample of `traceinv` for the Gram matrix by four. -/
example : ∃ e e' v, slqSample someExternal ⟨true, 1, 2, 3, 1/100⟩ (oneAndOp 2) (fun x => x⁻¹) #[0] 1 ![1, -1] #[0, 0, 0]
      #[0, 0, 0] #[false] #[0] = .ok (#[false], e) ∧
    slqSample someExternal ⟨true, 1, 2, 3, 2 * (1/100)⟩ (scaledOp 2 2) (fun x => x⁻¹) #[0] 1 ![1, -1] #[0, 0, 0]
      #[0, 0, 0] #[false] #[0] = .ok (#[false], e') ∧ e[0]? = some v ∧ e'[0]? = some (v / 4) := by
  obtain ⟨e, e', h1, h2, h3⟩ := scaled_gram_call_partial (op' := scaledOp 2 2) (z := ![1, -1]) (c := 2) (lo := 1) (hi := 4)
    (f := fun x => x⁻¹) (f' := fun x => x⁻¹) (num := 1) (junkAlpha := #[0, 0, 0]) (junkBeta := #[0, 0, 0])
    (junkAlpha' := #[0, 0, 0]) (junkBeta' := #[0, 0, 0]) (estimate := #[0]) (estimate' := #[0]) (converged := #[false])
    .traceinv (oneAnd_gram_run (c := 2) (by norm_num)) rfl (fun x _ => by rw [someExternal_pow, Real.rpow_one])
    (Or.inl rfl) (Or.inl rfl)
    (fun h => by have := congrFun h 0; simp at this) (by norm_num) (fun _ _ => rfl) (fun _ _ => rfl) (by norm_num)
    (fun _ _ => ⟨1, ![1, 4], by
      have h : (oneAnd 2)ᵀ * oneAnd 2 = oneAnd 4 := by
        have := oneAnd_gram 2
        rw [target, if_pos rfl] at this
        rw [this]
        norm_num
      rw [h]
      exact oneAnd_spectral 4, by intro i; fin_cases i <;> norm_num⟩)
    (fun x hx => inverse_value (by linarith [hx.1])) (fun x hx => inverse_value (by linarith [hx.1]))
    rfl rfl rfl rfl rfl rfl rfl rfl
  obtain ⟨v, e1, e2⟩ := h3 0 one_pos rfl
  refine ⟨e, e', v, h1, h2, e1, ?_⟩
  rw [e2]
  simp only [scaledFactor, scaledOffset, Real.rpow_one]
  congr 1
  ring

/-- `diag(1, 4)` and `diag(4, 1)` have the same sample of the logarithm. -/
example : ∃ e, slqSample someExternal ⟨false, 1, 2, 3, 1/100⟩ (oneAndOp 4) Real.log #[0] 1 ![1, -1] #[0, 0, 0]
      #[0, 0, 0] #[false] #[0] = .ok (#[false], e) ∧
    slqSample someExternal ⟨false, 1, 2, 3, 1/100⟩ ⟨false, fun _ x => .ok (Matrix.diagonal ![4, 1] *ᵥ x),
      fun _ x => .ok (Matrix.diagonal ![4, 1] *ᵥ x), fun _ _ _ => 0⟩ Real.log #[0] 1 ![-1, 1] #[0, 0, 0]
      #[0, 0, 0] #[false] #[0] = .ok (#[false], e) := by
  have h := (permuted_sample (z := ![1, -1]) (f := Real.log) (num := 1) (junkAlpha := #[0, 0, 0])
    (junkBeta := #[0, 0, 0]) (junkAlpha' := #[0, 0, 0]) (junkBeta' := #[0, 0, 0]) (estimate := #[0])
    (converged := #[false]) (op' := ⟨false, fun _ x => .ok (Matrix.diagonal ![4, 1] *ᵥ x),
      fun _ x => .ok (Matrix.diagonal ![4, 1] *ᵥ x), fun _ _ _ => 0⟩)
    (Equiv.swap 0 1) (oneAnd_run 4) rfl (Or.inl rfl) (Or.inl rfl)
    (fun h => by have := congrFun h 0; simp at this) (fun _ x => by
      show Except.ok (Matrix.diagonal ![4, 1] *ᵥ x) = _
      congr 2
      ext i j
      fin_cases i <;> fin_cases j <;> simp [oneAnd]) rfl rfl rfl rfl rfl rfl rfl).1
  have hz : (![1, -1] : Fin 2 → ℝ) ∘ Equiv.swap 0 1 = ![-1, 1] := by
    funext i; fin_cases i <;> simp
  rwa [hz] at h

theorem scaledOp_run (c d : ℝ) :
    ExactRun someExternal ⟨false, 1, 2, 3, 1/100⟩ (scaledOp c d) (fun _ => c • oneAnd d) #[0] where
  sqrt := rfl
  dot := fun _ _ => rfl
  transposeDot := fun _ _ => rfl
  symmetric := fun _ => ⟨exists_eigh.choose_spec, fun _ => by
    rw [Matrix.IsSymm, transpose_smul, oneAnd, diagonal_transpose]⟩
  invertible := fun h => absurd h (by simp)
  tol := by norm_num
  degree := by norm_num

/-- `traceinv` of `diag(1, 3) / 200` is reported as 200; it is `800 / 3`. -/
example : slqSample someExternal ⟨false, 1, 2, 3, 1/100⟩ (scaledOp (1/200) 3) (fun x => x⁻¹) #[0] 1 ![1, -1] #[0, 0, 0]
    #[0, 0, 0] #[false] #[0] = .ok (#[false], #[1 / (1 / 200)]) :=
  (small_traceinv_wrong (tol := 1/100) (by norm_num) (by norm_num) _ _ (scaledOp_run (1/200) 3) rfl rfl
    someExternal_pow rfl rfl).1 _ (by intro i; fin_cases i <;> simp)

/-- Adding 3 to the diagonal of `diag(1, 4)` adds 6 to the sample of `trace`. -/
example : ∃ e e' v, slqSample someExternal ⟨false, 1, 2, 3, 1/100⟩ (oneAndOp 4) id #[0] 1 ![1, -1] #[0, 0, 0]
      #[0, 0, 0] #[false] #[0] = .ok (#[false], e) ∧
    slqSample someExternal ⟨false, 1, 2, 3, 1/100⟩ ⟨false, fun _ x => .ok ((oneAnd 4 + (3 : ℝ) • 1) *ᵥ x),
      fun _ x => .ok x, fun _ _ _ => 0⟩ id #[0] 1 ![1, -1] #[0, 0, 0]
      #[0, 0, 0] #[false] #[0] = .ok (#[false], e') ∧ e[0]? = some v ∧ e'[0]? = some (v + 6) := by
  obtain ⟨e, e', h1, h2, h3⟩ := shifted_trace (z := ![1, -1]) (f := id) (num := 1) (d := 3) (junkAlpha := #[0, 0, 0])
    (junkBeta := #[0, 0, 0]) (junkAlpha' := #[0, 0, 0]) (junkBeta' := #[0, 0, 0]) (estimate := #[0]) (estimate' := #[0])
    (converged := #[false]) (op' := ⟨false, fun _ x => .ok ((oneAnd 4 + (3 : ℝ) • 1) *ᵥ x),
      fun _ x => .ok x, fun _ _ _ => 0⟩)
    (oneAnd_run 4) rfl (fun x => someExternal_pow x) (Or.inl rfl) (Or.inl rfl)
    (fun h => by have := congrFun h 0; simp at this) (fun _ _ => rfl) rfl rfl rfl rfl rfl rfl rfl rfl
  obtain ⟨v, e1, e2⟩ := h3 0 one_pos rfl
  refine ⟨e, e', v, h1, h2, e1, ?_⟩
  rw [e2]
  norm_num

open Estimator Convergence in
/-- A run with two threads and samples 1, 3: the scaled run reports ten times the average. -/
example : ∃ s, run (⟨2, 1, 1, 2, 1, false, 0, .fin 2, .fin 0, .fin 1, fun i _ => .fin (2 * i + 1), fun _ _ => .nan,
      fun _ _ => .nan⟩ : Config (XR ℝ)) (init ⟨2, 1, 1, 2, 1, false, 0, .fin 2, .fin 0, .fin 1, fun i _ => .fin (2 * i + 1),
      fun _ _ => .nan, fun _ _ => .nan⟩) [0, 1, 0, 1] = some s ∧ 0 < s.inqs.length := by
  refine ⟨_, rfl, ?_⟩
  decide

end Imate.Props
