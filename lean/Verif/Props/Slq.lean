import Verif.Lemmas.SlqExact
import Mathlib.Tactic.NormNum

/-! # C13, C14, C17, C29: one SLQ sample -/

namespace Imate.Props

open Matrix Imate.Lanczos Imate.Spec Polynomial

variable {n : Nat} {z : Fin n → ℝ} {ext : External ℝ} {opt : Options ℝ} {op : Operator ℝ n}
  {parameters junkAlpha junkBeta estimate : Array ℝ} {converged : Array Bool} {num : Nat}
  {f : ℝ → ℝ} {M : ℝ → Matrix (Fin n) (Fin n) ℝ}

/-! ## C13 -/

/-- **C13.** For every symmetric operator, Rademacher vector and option values, a sample with Lanczos
size `m = c.size` reports, for each inquiry that is not yet converged, `zᵀ p(A) z` whenever the function
is a polynomial of degree at most `2m - 1`, and `zᵀ f(A) z` for every function when the iteration
stopped at an invariant subspace (residual zero).  Converged inquiries keep their estimate. -/
theorem slq_sample_exact (hsqrt : ext.sqrt = Real.sqrt) (heig : EighSpec ext.eigh)
    (hgram : opt.gram = false) (hop : op.relationKnown = false ∨ num = 1)
    (hM : ∀ t, (M t).IsSymm) (hdot : ∀ t x, op.dot t x = .ok (M t *ᵥ x))
    (htol : 0 < opt.tol) (hm : 1 ≤ opt.degree) (hn : 0 < n) (hz : Rademacher z)
    (hpar : parameters.size = num) (hconv : converged.size = num) (hest : estimate.size = num)
    (hja : junkAlpha.size = opt.degree) (hjb : junkBeta.size = opt.degree) :
    ∃ e, slqSample ext opt op f parameters num z junkAlpha junkBeta converged estimate =
        .ok (converged, e) ∧ e.size = num ∧
      ∀ j < num, ∀ t, parameters[j]? = some t →
        (converged[j]? = some true → e[j]? = estimate[j]?) ∧
        (converged[j]? = some false → ∃ c value,
          lanczos Real.sqrt ext.eps (op.dot t) z opt.degree opt.tol opt.orthogonalize junkAlpha
            junkBeta = .ok c ∧ 1 ≤ c.size ∧ e[j]? = some value ∧
          (∀ p : ℝ[X], p.natDegree < 2 * c.size → (∀ x, f (ext.pow x opt.exponent) = p.eval x) →
            value = z ⬝ᵥ (aeval (M t) p *ᵥ z)) ∧
          (c.beta.getD (c.size - 1) 0 = 0 → ∀ Q lam, Spectral (M t) Q lam →
            value = z ⬝ᵥ (matrixFunction (fun x => f (ext.pow x opt.exponent)) Q lam *ᵥ z))) := by
  have hz0 := rademacher_ne_zero hz hn
  obtain ⟨e, he, hs, hres⟩ := slqSample_separate (ext := ext) (opt := opt) (op := op) (z := z)
    (f := f) hop hpar hconv hest hja hjb
    (fun t l => ∃ c, LanczosResult (M t) z opt.degree (opt.tol * Real.sqrt n) c ∧
      Diagonalises (lanczosT (M t) z c.size) l)
    (by
      intro t alpha beta ha hb _
      obtain ⟨l, a, b, h1, h2, h3, c, h4, h5, h6⟩ := lanczosNodes_ok hsqrt heig (hdot t) (hM t) hz0
        htol hm ha hb
      refine ⟨l, a, b, ?_, h2, h3, c, h5, h6⟩
      unfold inquiryNodes; rw [hgram]; exact h1)
  refine ⟨e, he, hs, ?_⟩
  intro j hj t ht
  obtain ⟨h1, h2⟩ := hres j hj
  refine ⟨h1, fun hc => ?_⟩
  obtain ⟨t', l, h3, ⟨c', hr', hd⟩, h5⟩ := h2 hc
  rw [ht] at h3
  obtain rfl : t = t' := by simpa using h3
  obtain ⟨c, hcok, hr⟩ := lanczos_result (hdot t) (hM t) hz0 ext.eps opt.tol htol opt.degree
    opt.orthogonalize hja hjb
  have hsz := hr.size_eq hr' (by omega) (fun _ => rfl)
  rw [← hsz] at hd
  have hk := lanczos_krylov hr (hM t) hz0 (threshold_pos hz0 htol) (by omega)
  obtain ⟨p1, p2⟩ := krylov_exact hk (hM t) (tridiagonal_hessenberg _ _) hd hz ext.pow f opt.exponent
  have hpos := hr.pos (by omega)
  refine ⟨c, _, hcok, hpos, h5, p1, fun h0 => p2 ?_⟩
  rw [Array.getD_eq_getD_getElem?, hr.beta _ (by omega), Nat.sub_add_cancel hpos] at h0
  exact norm_eq_zero.1 h0

/-- **C13 for `gram=True`.** For every invertible square operator the Gram branch is exact, in the same
sense, for `AᵀA`. -/
theorem slq_gram_sample_exact (hsqrt : ext.sqrt = Real.sqrt) (hsvd : SvdSpec ext.svd)
    (hgram : opt.gram = true) (hop : op.relationKnown = false ∨ num = 1)
    (hM : ∀ t ∈ parameters, Function.Injective (M t).mulVec) (hdot : ∀ t x, op.dot t x = .ok (M t *ᵥ x))
    (htdot : ∀ t x, op.transposeDot t x = .ok ((M t)ᵀ *ᵥ x))
    (htol : 0 < opt.tol) (hm : 1 ≤ opt.degree) (hn : 0 < n) (hz : Rademacher z)
    (hpar : parameters.size = num) (hconv : converged.size = num) (hest : estimate.size = num)
    (hja : junkAlpha.size = opt.degree) (hjb : junkBeta.size = opt.degree) :
    ∃ e, slqSample ext opt op f parameters num z junkAlpha junkBeta converged estimate =
        .ok (converged, e) ∧ e.size = num ∧
      ∀ j < num, ∀ t, parameters[j]? = some t →
        (converged[j]? = some true → e[j]? = estimate[j]?) ∧
        (converged[j]? = some false → ∃ c alpha beta value,
          golubKahn Real.sqrt ext.eps (op.dot t) (op.transposeDot t) z opt.degree opt.tol
            opt.orthogonalize alpha beta = .ok c ∧ 1 ≤ c.size ∧ e[j]? = some value ∧
          (∀ p : ℝ[X], p.natDegree < 2 * c.size → (∀ x, f (ext.pow x opt.exponent) = p.eval x) →
            value = z ⬝ᵥ (aeval ((M t)ᵀ * M t) p *ᵥ z)) ∧
          ((2 ≤ opt.degree ∨ opt.orthogonalize = 0) → c.beta.getD (c.size - 1) 0 = 0 →
            ∀ Q lam, Spectral ((M t)ᵀ * M t) Q lam →
            value = z ⬝ᵥ (matrixFunction (fun x => f (ext.pow x opt.exponent)) Q lam *ᵥ z))) := by
  have hz0 := rademacher_ne_zero hz hn
  obtain ⟨e, he, hs, hres⟩ := slqSample_separate (ext := ext) (opt := opt) (op := op) (z := z)
    (f := f) hop hpar hconv hest hja hjb
    (fun t l => ∃ c alpha beta, golubKahn Real.sqrt ext.eps (op.dot t) (op.transposeDot t) z opt.degree opt.tol
            opt.orthogonalize alpha beta = .ok c ∧ GKCore (M t) z opt.degree c ∧
      (2 ≤ opt.degree ∨ opt.orthogonalize = 0 → c.beta[c.size - 1]? = some (gb (M t) z c.size)) ∧
      Diagonalises (gramT (M t) z c.size) l)
    (by
      intro t alpha beta ha hb ht
      obtain ⟨l, a, b, h1, h2, h3, c, h4, h5, h6, h7⟩ := golubKahnNodes_ok hsqrt hsvd (hdot t)
        (htdot t) (hM t ht) hz0 htol hm ha hb
      refine ⟨l, a, b, ?_, h2, h3, c, alpha, beta, by rw [← hsqrt]; exact h4, h5, h6, h7⟩
      unfold inquiryNodes; rw [hgram]; exact h1)
  refine ⟨e, he, hs, ?_⟩
  intro j hj t ht
  obtain ⟨h1, h2⟩ := hres j hj
  refine ⟨h1, fun hc => ?_⟩
  obtain ⟨t', l, h3, ⟨c, alpha, beta, hcok, hr, hlast, hd⟩, h5⟩ := h2 hc
  rw [ht] at h3
  obtain rfl : t = t' := by simpa using h3
  have hk := gram_krylov hr
  obtain ⟨p1, p2⟩ := krylov_exact hk (gram_symm _) (bidiagonal_gram_hessenberg _ _) hd hz ext.pow f
    opt.exponent
  refine ⟨c, alpha, beta, _, hcok, hr.pos, h5, p1, fun hd h0 => p2 ?_⟩
  rw [Array.getD_eq_getD_getElem?, hlast hd] at h0
  rw [show gq (M t) z c.size = 0 from norm_eq_zero.1 h0, smul_zero]

/-- An external library satisfying the specifications (non-vacuity). -/
noncomputable def someExternal : External ℝ where
  sqrt := Real.sqrt
  eps := 1 / 1000
  pow := fun x e => if e = 1 then x else x * x
  eigh := exists_eigh.choose
  svd := exists_svd.choose

/-- Non-vacuity: `tr A` estimated for two parameters of `A + t D`, one of them already converged; the
sample is `zᵀ (A + t D) z`. -/
example : ∃ e, slqSample someExternal ⟨false, 1, 2, 5, 1/100⟩
      ⟨false, fun t x => .ok (!![2, 1; 1, 3 + t] *ᵥ x), fun t x => .ok (!![2, 1; 1, 3 + t] *ᵥ x),
        fun _ _ _ => 0⟩ id #[1, 4] 2 ![1, -1] (Array.replicate 5 0) (Array.replicate 5 0)
      #[true, false] #[7, 0] = .ok (#[true, false], e) ∧ e[0]? = some 7 ∧ e[1]? = some 7 := by
  obtain ⟨e, h1, _, h3⟩ := slq_sample_exact (n := 2) (ext := someExternal)
    (opt := ⟨false, 1, 2, 5, 1/100⟩)
    (op := ⟨false, fun t x => .ok (!![2, 1; 1, 3 + t] *ᵥ x),
      fun t x => .ok (!![2, 1; 1, 3 + t] *ᵥ x), fun _ _ _ => 0⟩)
    (M := fun t => !![2, 1; 1, 3 + t]) (f := id) (num := 2) (z := ![1, -1])
    (parameters := #[1, 4]) (junkAlpha := Array.replicate 5 0) (junkBeta := Array.replicate 5 0)
    (converged := #[true, false]) (estimate := #[7, 0])
    rfl exists_eigh.choose_spec rfl (Or.inl rfl)
    (by intro t; ext i j; fin_cases i <;> fin_cases j <;> rfl) (fun _ _ => rfl) (by norm_num)
    (by norm_num) (by norm_num) (by intro i; fin_cases i <;> simp) rfl rfl rfl (by simp) (by simp)
  refine ⟨e, h1, (h3 0 (by norm_num) 1 rfl).1 rfl, ?_⟩
  obtain ⟨c, value, hc, hpos, hv, hp, _⟩ := (h3 1 (by norm_num) 4 rfl).2 rfl
  rw [hv, hp X ?_ ?_, aeval_X]
  · norm_num [dotProduct, Matrix.mulVec, Fin.sum_univ_two]
  · rw [natDegree_X]; omega
  · intro x; simp [someExternal]

/-! ## C14 -/

/-- **C14.** Averaged over all `2^n` Rademacher vectors the quadratic form is the trace. -/
theorem rademacher_average (M : Matrix (Fin n) (Fin n) ℝ) :
    (∑ s : Fin n → Bool, signVector s ⬝ᵥ (M *ᵥ signVector s)) / 2 ^ n = M.trace := by
  rw [average_trace]; field_simp

/-- Every Rademacher vector is the sign vector of exactly one bit string, so the average above is the
average over all Rademacher vectors. -/
theorem rademacher_enumeration : (∀ s : Fin n → Bool, Rademacher (signVector s)) ∧
    (∀ z : Fin n → ℝ, Rademacher z → ∃! s, signVector s = z) := by
  refine ⟨signVector_rademacher, fun z hz => ⟨fun i => decide (z i = 1), ?_, ?_⟩⟩
  · funext i
    unfold signVector
    rcases hz i with h | h
    · simp [h]
    · simp only [h]; norm_num
  · intro s hs
    funext i
    rw [← hs]
    unfold signVector
    cases s i <;> norm_num

/-- The sample of a sign vector, when the function is a polynomial of degree below twice the number of steps. -/
theorem slq_sample_poly (hsqrt : ext.sqrt = Real.sqrt) (heig : EighSpec ext.eigh)
    (hgram : opt.gram = false) {t : ℝ}
    (hM : ∀ t, (M t).IsSymm) (hdot : ∀ t x, op.dot t x = .ok (M t *ᵥ x))
    (htol : 0 < opt.tol) (hm : 1 ≤ opt.degree) (hn : 0 < n)
    (hja : junkAlpha.size = opt.degree) (hjb : junkBeta.size = opt.degree)
    (p : ℝ[X]) (hp : p.natDegree < 2 * opt.degree) (hf : ∀ x, f (ext.pow x opt.exponent) = p.eval x)
    (hfull : ∀ s : Fin n → Bool, ∃ c, lanczos Real.sqrt ext.eps (op.dot t) (signVector s) opt.degree
      opt.tol opt.orthogonalize junkAlpha junkBeta = .ok c ∧
      (c.size = opt.degree ∨ c.beta.getD (c.size - 1) 0 = 0)) (e0 : ℝ) (s : Fin n → Bool) :
    slqSample ext opt op f #[t] 1 (signVector s) junkAlpha junkBeta #[false] #[e0] =
      .ok (#[false], #[signVector s ⬝ᵥ (aeval (M t) p *ᵥ signVector s)]) := by
  obtain ⟨e, h1, h2, h3⟩ := slq_sample_exact (f := f) (num := 1) (z := signVector s)
    (parameters := #[t]) (converged := #[false]) (estimate := #[e0]) hsqrt heig hgram (Or.inr rfl) hM
    hdot htol hm hn (signVector_rademacher s) rfl rfl rfl hja hjb
  obtain ⟨c, value, hc, hpos, hv, p1, p2⟩ := (h3 0 (by norm_num) t rfl).2 rfl
  obtain ⟨c', hc', hfull'⟩ := hfull s
  obtain rfl : c = c' := by
    have : (Except.ok c : Except Fault (Coefficients ℝ)) = .ok c' := hc.symm.trans hc'
    simpa using this
  have hval : value = signVector s ⬝ᵥ (aeval (M t) p *ᵥ signVector s) := by
    rcases hfull' with h | h
    · exact p1 p (by omega) hf
    · obtain ⟨Q, lam, hs⟩ := exists_spectral (hM t)
      rw [p2 h Q lam hs, matrixFunction_poly hs (p := p) (fun i => (hf _).symm)]
  rw [h1, ← hval]
  congr 2
  apply Array.ext
  · simpa using h2
  · intro i hi1 hi2
    obtain rfl : i = 0 := by omega
    have := hv
    rw [Array.getElem?_eq_getElem hi1] at this
    simpa using this

/-- **C14 for samples.** If every Rademacher start vector gives either the full degree or an exact
breakdown, the samples (of a single inquiry) for a polynomial of degree below twice the Lanczos degree
average to the trace of the polynomial of the matrix. -/
theorem slq_unbiased (hsqrt : ext.sqrt = Real.sqrt) (heig : EighSpec ext.eigh)
    (hgram : opt.gram = false) {t : ℝ}
    (hM : ∀ t, (M t).IsSymm) (hdot : ∀ t x, op.dot t x = .ok (M t *ᵥ x))
    (htol : 0 < opt.tol) (hm : 1 ≤ opt.degree) (hn : 0 < n)
    (hja : junkAlpha.size = opt.degree) (hjb : junkBeta.size = opt.degree)
    (p : ℝ[X]) (hp : p.natDegree < 2 * opt.degree) (hf : ∀ x, f (ext.pow x opt.exponent) = p.eval x)
    (hfull : ∀ s : Fin n → Bool, ∃ c, lanczos Real.sqrt ext.eps (op.dot t) (signVector s) opt.degree
      opt.tol opt.orthogonalize junkAlpha junkBeta = .ok c ∧
      (c.size = opt.degree ∨ c.beta.getD (c.size - 1) 0 = 0)) (e0 : ℝ) :
    ∃ sample : (Fin n → Bool) → ℝ,
      (∀ s, slqSample ext opt op f #[t] 1 (signVector s) junkAlpha junkBeta #[false] #[e0] =
        .ok (#[false], #[sample s])) ∧
      (∑ s, sample s) / 2 ^ n = (aeval (M t) p).trace := by
  exact ⟨_, slq_sample_poly hsqrt heig hgram hM hdot htol hm hn hja hjb p hp hf hfull e0, rademacher_average _⟩

/-- Non-vacuity: degree one is always full. -/
example : ∃ sample : (Fin 2 → Bool) → ℝ,
    (∀ s, slqSample someExternal ⟨false, 1, 0, 1, 1/100⟩
      ⟨false, fun t x => .ok (!![2, 1; 1, 3 + t] *ᵥ x), fun t x => .ok (!![2, 1; 1, 3 + t] *ᵥ x),
        fun _ _ _ => 0⟩ id #[1] 1 (signVector s) #[0] #[0] #[false] #[0] =
        .ok (#[false], #[sample s])) ∧
      (∑ s, sample s) / 2 ^ 2 = 6 := by
  have h := slq_unbiased (n := 2) (ext := someExternal) (opt := ⟨false, 1, 0, 1, 1/100⟩)
    (op := ⟨false, fun t x => .ok (!![2, 1; 1, 3 + t] *ᵥ x),
      fun t x => .ok (!![2, 1; 1, 3 + t] *ᵥ x), fun _ _ _ => 0⟩)
    (M := fun t => !![2, 1; 1, 3 + t]) (f := id) (t := 1) (junkAlpha := #[0]) (junkBeta := #[0])
    rfl exists_eigh.choose_spec rfl
    (by intro t; ext i j; fin_cases i <;> fin_cases j <;> rfl) (fun _ _ => rfl) (by norm_num)
    (by norm_num) (by norm_num) rfl rfl X (by rw [natDegree_X]; norm_num)
    (by intro x; simp [someExternal])
    (by
      intro s
      obtain ⟨c', hc', hr⟩ := lanczos_result (A := !![2, 1; 1, 3 + 1])
        (dot := fun x => .ok (!![2, 1; 1, 3 + 1] *ᵥ x)) (z := signVector s) (fun _ => rfl)
        (by ext i j; fin_cases i <;> fin_cases j <;> rfl)
        (rademacher_ne_zero (signVector_rademacher s) (by norm_num)) someExternal.eps (1/100)
        (by norm_num) 1 0 (alpha := #[0]) (beta := #[0]) (by simp) (by simp)
      have h1 := hr.pos (by norm_num)
      have h2 := hr.le
      exact ⟨c', hc', Or.inl (by show c'.size = 1; omega)⟩) 0
  obtain ⟨sample, h1, h2⟩ := h
  refine ⟨sample, h1, ?_⟩
  rw [h2, aeval_X]
  norm_num [Matrix.trace, Fin.sum_univ_two]

/-! ## C17 -/

/-- The operator `A + t I` with the relation `λ(A + t I) = λ(A + t₀ I) - t₀ + t`. -/
structure AffineIdentity (op : Operator ℝ n) (A : Matrix (Fin n) (Fin n) ℝ) : Prop where
  known : op.relationKnown = true
  dot : ∀ t x, op.dot t x = .ok ((A + t • (1 : Matrix (Fin n) (Fin n) ℝ)) *ᵥ x)
  tdot : ∀ t x, op.transposeDot t x = .ok ((A + t • (1 : Matrix (Fin n) (Fin n) ℝ))ᵀ *ᵥ x)
  eigenvalue : ∀ t0 lam t, op.getEigenvalue t0 lam t = lam - t0 + t

/-- **C17 (`gram=False`; the `gram=True` case is false, see below).**  For `A + t I` with several
parameters, the sample reported for each parameter is the sample a separate run with that single
parameter reports, for the same vector. -/
theorem shared_run_equals_separate_partial {A : Matrix (Fin n) (Fin n) ℝ} (hop : AffineIdentity op A)
    (hA : A.IsSymm) (hsqrt : ext.sqrt = Real.sqrt) (heig : EighSpec ext.eigh)
    (hgram : opt.gram = false) (hnum : 1 < num)
    (htol : 0 < opt.tol) (hm : 1 ≤ opt.degree) (hz : z ≠ 0)
    (hpar : parameters.size = num) (hconv : converged.size = num) (hest : estimate.size = num)
    (hja : junkAlpha.size = opt.degree) (hjb : junkBeta.size = opt.degree) :
    ∃ e, slqSample ext opt op f parameters num z junkAlpha junkBeta converged estimate =
        .ok (Array.replicate num false, e) ∧ e.size = num ∧
      ∀ j < num, ∀ t, parameters[j]? = some t → ∀ (junkAlpha' junkBeta' : Array ℝ) (e0 : ℝ),
        junkAlpha'.size = opt.degree → junkBeta'.size = opt.degree →
        ∃ e', slqSample ext opt op f #[t] 1 z junkAlpha' junkBeta' #[false] #[e0] =
          .ok (#[false], e') ∧ e[j]? = e'[0]? ∧ e'[0]?.isSome := by
  have hsym : ∀ t : ℝ, (A + t • (1 : Matrix (Fin n) (Fin n) ℝ)).IsSymm := by
    intro t
    rw [Matrix.IsSymm, transpose_add, transpose_smul, transpose_one, hA.eq]
  have hthr := threshold_pos hz htol
  have ht0 : parameters[0]? = some (parameters[0]'(by omega)) := Array.getElem?_eq_getElem (by omega)
  set t0 := parameters[0]'(by omega) with ht0d
  have hsep : ∀ (t : ℝ) (junkAlpha' junkBeta' : Array ℝ) (e0 : ℝ), junkAlpha'.size = opt.degree →
      junkBeta'.size = opt.degree → ∃ e' c l,
        slqSample ext opt op f #[t] 1 z junkAlpha' junkBeta' #[false] #[e0] = .ok (#[false], e') ∧
        LanczosResult (A + t • (1 : Matrix (Fin n) (Fin n) ℝ)) z opt.degree (opt.tol * Real.sqrt n) c ∧
        Diagonalises (lanczosT (A + t • (1 : Matrix (Fin n) (Fin n) ℝ)) z c.size) l ∧
        e'[0]? = some (n * quadratureSum ext.pow f opt.exponent l) := by
    intro t junkAlpha' junkBeta' e0 ha hb
    obtain ⟨e, he, hs, hres⟩ := slqSample_separate (ext := ext) (opt := opt) (op := op) (z := z)
      (f := f) (num := 1) (parameters := #[t]) (converged := #[false]) (estimate := #[e0]) (Or.inr rfl)
      rfl rfl rfl ha hb
      (fun t l => ∃ c, LanczosResult (A + t • (1 : Matrix (Fin n) (Fin n) ℝ)) z opt.degree
        (opt.tol * Real.sqrt n) c ∧
        Diagonalises (lanczosT (A + t • (1 : Matrix (Fin n) (Fin n) ℝ)) z c.size) l)
      (by
        intro t alpha beta ha hb _
        obtain ⟨l, a, b, h1, h2, h3, c, h4, h5, h6⟩ := lanczosNodes_ok hsqrt heig (hop.dot t) (hsym t)
          hz htol hm ha hb
        refine ⟨l, a, b, ?_, h2, h3, c, h5, h6⟩
        unfold inquiryNodes; rw [hgram]; exact h1)
    obtain ⟨t', l, h3, ⟨c, hr, hd⟩, h5⟩ := (hres 0 (by norm_num)).2 rfl
    obtain rfl : t = t' := by simpa using h3
    exact ⟨e, c, l, he, hr, hd, h5⟩
  obtain ⟨l, e, ⟨c, hr, hd⟩, he, hs, he0, hej⟩ := slqSample_shared (ext := ext) (opt := opt) (op := op)
    (z := z) (f := f) hop.known hnum hpar hconv hest ht0 (junkAlpha := junkAlpha) (junkBeta := junkBeta)
    (fun l => ∃ c, LanczosResult (A + t0 • (1 : Matrix (Fin n) (Fin n) ℝ)) z opt.degree
        (opt.tol * Real.sqrt n) c ∧
        Diagonalises (lanczosT (A + t0 • (1 : Matrix (Fin n) (Fin n) ℝ)) z c.size) l)
    (by
      obtain ⟨l, a, b, h1, h2, h3, c, h4, h5, h6⟩ := lanczosNodes_ok hsqrt heig (hop.dot t0) (hsym t0)
        hz htol hm hja hjb
      refine ⟨l, a, b, ?_, c, h5, h6⟩
      unfold inquiryNodes; rw [hgram]; exact h1)
  refine ⟨e, he, hs, ?_⟩
  intro j hj t ht ja' jb' e0 hja' hjb'
  obtain ⟨e', c', l', he', hr', hd', hv'⟩ := hsep t ja' jb' e0 hja' hjb'
  refine ⟨e', he', ?_, by rw [hv']; rfl⟩
  have hAt : A + t • (1 : Matrix (Fin n) (Fin n) ℝ) =
      (A + t0 • (1 : Matrix (Fin n) (Fin n) ℝ)) + (t - t0) • (1 : Matrix (Fin n) (Fin n) ℝ) := by
    rw [add_assoc, ← add_smul]; congr 2; ring
  have hsz : c.size = c'.size := hr.size_eq hr' (by omega) (fun i => by
    rw [hAt]; exact (bb_shift (t - t0) i).symm)
  have hdt : Diagonalises (lanczosT (A + t • (1 : Matrix (Fin n) (Fin n) ℝ)) z c.size)
      (l.map (fun p => (op.getEigenvalue t0 p.1 t, p.2))) := by
    rw [hAt, lanczosT_shift _ (hr.ne_zero hz hthr)]
    have := hd.shift (t - t0)
    rw [show (fun p : ℝ × ℝ => (op.getEigenvalue t0 p.1 t, p.2)) = fun p => (p.1 + (t - t0), p.2) by
      funext p; rw [hop.eigenvalue]; congr 1; ring]
    exact this
  rw [hv']
  rcases Nat.eq_zero_or_pos j with rfl | hj0
  · rw [ht0] at ht
    obtain rfl : t0 = t := by simpa using ht
    rw [he0, Diagonalises.sum_eq hd (hsz ▸ hd')]
  · obtain ⟨t', h1, h2⟩ := hej j hj0 hj
    rw [ht] at h1
    obtain rfl : t = t' := by simpa using h1
    rw [h2, Diagonalises.sum_eq hdt (hsz ▸ hd')]

/-- The affine operator with identity `B`. -/
def affineIdentity (A : Matrix (Fin n) (Fin n) ℝ) [DecidableEq (Fin n)] : Operator ℝ n where
  relationKnown := true
  dot := fun t x => .ok (A *ᵥ x + t • x)
  transposeDot := fun t x => .ok (Aᵀ *ᵥ x + t • x)
  getEigenvalue := fun t0 lam t => lam - t0 + t

theorem affineIdentity_spec (A : Matrix (Fin n) (Fin n) ℝ) : AffineIdentity (affineIdentity A) A := by
  refine ⟨rfl, ?_, ?_, fun _ _ _ => rfl⟩
  · intro t x; show Except.ok _ = _; rw [add_mulVec, smul_mulVec, one_mulVec]
  · intro t x
    show Except.ok _ = _
    rw [transpose_add, transpose_smul, transpose_one, add_mulVec, smul_mulVec, one_mulVec]

/-- Non-vacuity of C17: two parameters. -/
example : ∃ e, slqSample someExternal ⟨false, 1, 0, 3, 1/100⟩ (affineIdentity !![2, 1; 1, 3]) id
    #[1, 4] 2 ![1, -1] (Array.replicate 3 0) (Array.replicate 3 0) #[false, false] #[0, 0] =
      .ok (Array.replicate 2 false, e) ∧ e.size = 2 := by
  obtain ⟨e, h1, h2, _⟩ := shared_run_equals_separate_partial (n := 2) (A := !![2, 1; 1, 3])
    (ext := someExternal) (opt := ⟨false, 1, 0, 3, 1/100⟩) (f := id) (num := 2) (z := ![1, -1])
    (parameters := #[1, 4]) (junkAlpha := Array.replicate 3 0) (junkBeta := Array.replicate 3 0)
    (converged := #[false, false]) (estimate := #[0, 0]) (affineIdentity_spec _)
    (by ext i j; fin_cases i <;> fin_cases j <;> rfl) rfl exists_eigh.choose_spec rfl (by norm_num)
    (by norm_num) (by norm_num) (by intro h; have := congrFun h 0; simp at this) rfl rfl rfl (by simp)
    (by simp)
  exact ⟨e, h1, h2⟩

/-- **C17 (violation for `gram=True`).**  For the 1×1 matrix `A = 1`, `t = (0, 1)`, `f = id`: the value
reported for `t = 1` in a run with both parameters is `2` (the shift is applied to the squared singular
value), a separate run reports `4 = (A + I)ᵀ(A + I)`. -/
theorem gram_shared_run_wrong (hsqrt : ext.sqrt = Real.sqrt) (hsvd : SvdSpec ext.svd)
    (hpow : ∀ x, ext.pow x 1 = x) (orthogonalize : Int) :
    ∃ e e', slqSample ext ⟨true, 1, orthogonalize, 1, 1/100⟩ (affineIdentity (1 : Matrix (Fin 1) (Fin 1) ℝ))
        id #[0, 1] 2 (fun _ => 1) #[0] #[0] #[false, false] #[0, 0] = .ok (#[false, false], e) ∧
      e[1]? = some 2 ∧
      slqSample ext ⟨true, 1, orthogonalize, 1, 1/100⟩ (affineIdentity (1 : Matrix (Fin 1) (Fin 1) ℝ))
        id #[1] 1 (fun _ => 1) #[0] #[0] #[false] #[0] = .ok (#[false], e') ∧ e'[0]? = some 4 := by
  have hz : (fun _ => 1 : Fin 1 → ℝ) ≠ 0 := by intro h; have := congrFun h 0; simp at this
  have hrad : Rademacher (fun _ => 1 : Fin 1 → ℝ) := fun _ => Or.inl rfl
  have hop := affineIdentity_spec (1 : Matrix (Fin 1) (Fin 1) ℝ)
  have hmv : ∀ (t : ℝ) (x : Fin 1 → ℝ), ((1 : Matrix (Fin 1) (Fin 1) ℝ) + t • 1) *ᵥ x = (1 + t) • x := by
    intro t x
    rw [add_mulVec, smul_mulVec, one_mulVec, add_smul, one_smul]
  have hinj : ∀ t : ℝ, 0 ≤ t →
      Function.Injective ((1 : Matrix (Fin 1) (Fin 1) ℝ) + t • 1).mulVec := by
    intro t ht x y h
    simp only [hmv] at h
    exact smul_right_injective _ (by positivity : (1 + t) ≠ 0) h
  -- the nodes for parameter `t`
  have hnodes : ∀ t : ℝ, 0 ≤ t → ∀ alpha beta : Array ℝ, alpha.size = 1 → beta.size = 1 →
      ∃ l a b, inquiryNodes ext ⟨true, 1, orthogonalize, 1, 1/100⟩
      (affineIdentity (1 : Matrix (Fin 1) (Fin 1) ℝ)) (fun _ => 1) t alpha beta = .ok (l, a, b) ∧
      a.size = 1 ∧ b.size = 1 ∧
      ∃ q, q * q = 1 ∧ l = [((1 + t) * (1 + t), q)] := by
    intro t ht alpha beta hal hbe
    obtain ⟨l, a, b, h1, h2, h3, c, h4, h5, h6, h7⟩ := golubKahnNodes_ok
      (opt := ⟨true, 1, orthogonalize, 1, 1/100⟩) (A := (1 : Matrix (Fin 1) (Fin 1) ℝ) + t • 1)
      hsqrt hsvd (hop.dot t) (hop.tdot t) (hinj t ht) hz (by norm_num) (by norm_num)
      hal hbe
    refine ⟨l, a, b, h1, h2, h3, ?_⟩
    have hsz : c.size = 1 := by
      have := h5.pos
      have h' : c.size ≤ 1 := h5.le
      omega
    rw [hsz] at h7
    obtain ⟨hk, Q, lam, hs, rfl⟩ := h7
    have hQ : Q 0 0 * Q 0 0 = 1 := by
      have := congrFun (congrFun hs.left 0) 0
      simpa [Matrix.mul_apply] using this
    have hgv : gv ((1 : Matrix (Fin 1) (Fin 1) ℝ) + t • 1) (fun _ => 1) 0 = fun _ => 1 := by
      funext i
      show (Lanczos.norm Real.sqrt (fun _ => 1 : Fin 1 → ℝ))⁻¹ * 1 = 1
      simp [Lanczos.norm, dotProduct]
    have hga : ga ((1 : Matrix (Fin 1) (Fin 1) ℝ) + t • 1) (fun _ => 1) 0 = 1 + t := by
      rw [ga, gp_zero, hgv, hmv]
      unfold Lanczos.norm
      rw [show (((1 + t) • fun _ => 1 : Fin 1 → ℝ)) ⬝ᵥ ((1 + t) • fun _ => 1 : Fin 1 → ℝ) =
        (1 + t) * (1 + t) by simp [dotProduct]]
      exact Real.sqrt_mul_self (by positivity)
    have hT : gramT ((1 : Matrix (Fin 1) (Fin 1) ℝ) + t • 1) (fun _ => 1) 1 0 0 = (1 + t) * (1 + t) := by
      unfold gramT
      rw [Matrix.mul_apply]
      simp [bidiagonal, hga]
    have hlam : lam 0 = (1 + t) * (1 + t) := by
      rw [← hT, hs.eq, Matrix.mul_apply]
      simp only [Finset.univ_unique, Fin.default_eq_zero, Finset.sum_singleton, Matrix.mul_diagonal,
        transpose_apply]
      rw [show Q 0 0 * lam 0 * Q 0 0 = lam 0 * (Q 0 0 * Q 0 0) by ring, hQ, mul_one]
    exact ⟨Q 0 0, hQ, by
      rw [List.ofFn_succ, List.ofFn_zero]
      exact congrArg (fun x => [(x, Q 0 0)]) hlam⟩
  obtain ⟨l, e, ⟨q, hq, rfl⟩, he, _, _, he1⟩ := slqSample_shared (ext := ext)
    (opt := ⟨true, 1, orthogonalize, 1, 1/100⟩) (z := fun _ => 1) (f := id) (num := 2)
    (parameters := #[0, 1]) (converged := #[false, false]) (estimate := #[0, 0])
    (op := affineIdentity (1 : Matrix (Fin 1) (Fin 1) ℝ)) (junkAlpha := #[0]) (junkBeta := #[0])
    rfl (by norm_num) rfl rfl rfl (t0 := 0) rfl (fun l => ∃ q, q * q = 1 ∧ l = [((1 + 0) * (1 + 0), q)])
    (by
      obtain ⟨l, a, b, h1, _, _, h4⟩ := hnodes 0 le_rfl #[0] #[0] rfl rfl
      exact ⟨l, a, b, h1, h4⟩)
  obtain ⟨e', he', _, hres⟩ := slqSample_separate (ext := ext)
    (opt := ⟨true, 1, orthogonalize, 1, 1/100⟩) (z := fun _ => 1) (f := id) (num := 1)
    (parameters := #[1]) (converged := #[false]) (estimate := #[0])
    (op := affineIdentity (1 : Matrix (Fin 1) (Fin 1) ℝ)) (junkAlpha := #[0]) (junkBeta := #[0])
    (Or.inr rfl) rfl rfl rfl rfl rfl (fun t l => ∃ q, q * q = 1 ∧ l = [((1 + t) * (1 + t), q)])
    (by
      intro t alpha beta ha hb ht
      obtain rfl : t = 1 := by simpa using ht
      exact hnodes 1 zero_le_one alpha beta ha hb)
  refine ⟨e, e', he, ?_, he', ?_⟩
  · obtain ⟨t, ht, hv⟩ := he1 1 (by norm_num) (by norm_num)
    obtain rfl : (1 : ℝ) = t := by simpa using ht
    rw [hv]
    simp only [List.map_cons, List.map_nil, quadratureSum, List.foldl_cons, List.foldl_nil]
    rw [hpow, hq]
    show some _ = some _
    congr 1
    show ((1 : ℕ) : ℝ) * (0 + 1 * (((1 + 0) * (1 + 0)) - 0 + 1)) = 2
    norm_num
  · obtain ⟨t, l, ht, ⟨q', hq', rfl⟩, hv⟩ := (hres 0 (by norm_num)).2 rfl
    obtain rfl : (1 : ℝ) = t := by simpa using ht
    rw [hv]
    simp only [quadratureSum, List.foldl_cons, List.foldl_nil]
    rw [hpow, hq']
    norm_num

/-! ## C29 -/

/-- What a sample does not release, up to order: the tables of the inquiries that are not iterated, and
the eigenvector buffers of all but the last computed inquiry. -/
theorem leaked_blocks (gram relationKnown : Bool) (num : Nat) (hnum : 1 ≤ num)
    (converged : Nat → Bool) :
    let required := if relationKnown then 1 else num
    (leakedBlocks gram relationKnown num converged).Perm
      ((List.range' required (num - required)).map Block.theta ++
        (List.range' required (num - required)).map Block.tau ++
        (computedInquiries required num converged).dropLast.flatMap (inquiryBlocks gram)) := by
  intro required
  have hreq : required ≤ num := by
    show (if relationKnown then 1 else num) ≤ num
    split <;> omega
  unfold leakedBlocks
  show ((allocatedBlocks gram required num converged).diff
    (releasedBlocks gram required num converged)).Perm _
  have hrange : List.range num = List.range required ++ List.range' required (num - required) := by
    have h := List.range'_append_1 (s := 0) (m := required) (n := num - required)
    rw [Nat.zero_add, Nat.add_sub_cancel' hreq] at h
    rw [List.range_eq_range', List.range_eq_range', h]
  generalize hcd : computedInquiries required num converged = comp
  have hsplit : (comp.flatMap (inquiryBlocks gram)).Perm
      (comp.dropLast.flatMap (inquiryBlocks gram) ++ pointerBlocks gram comp) := by
    unfold pointerBlocks
    rcases List.eq_nil_or_concat comp with h | ⟨l, x, h⟩
    · subst h; simp
    · subst h; simp
  have hperm : (allocatedBlocks gram required num converged).Perm
      (releasedBlocks gram required num converged ++
        ((List.range' required (num - required)).map Block.theta ++
        (List.range' required (num - required)).map Block.tau ++
        comp.dropLast.flatMap (inquiryBlocks gram))) := by
    unfold allocatedBlocks releasedBlocks initialBlocks
    rw [hcd, hrange]
    simp only [List.map_append]
    rw [← Multiset.coe_eq_coe]
    simp only [← Multiset.coe_add]
    rw [Multiset.coe_eq_coe.2 hsplit]
    simp only [← Multiset.coe_add]
    rw [show ([Block.alpha, .beta, .thetaTable] : Multiset Block) = {.alpha} + {.beta} + {.thetaTable} from rfl]
    rw [show ([Block.alpha, .beta, .lanczosSize] : Multiset Block) = {.alpha} + {.beta} + {.lanczosSize} from rfl]
    simp only [Multiset.coe_singleton]
    abel
  have h := hperm.diff (List.Perm.refl (releasedBlocks gram required num converged))
  refine h.trans ?_
  rw [← Multiset.coe_eq_coe, ← Multiset.coe_sub, ← Multiset.coe_add, add_tsub_cancel_left]

/-- **C29 (single inquiry; missing: several inquiries, where the claim is false).** A sample with one
inquiry releases every array it allocates. -/
theorem sample_releases_memory_partial (gram relationKnown : Bool) (converged : Nat → Bool) :
    leakedBlocks gram relationKnown 1 converged = [] := by
  have h := leaked_blocks gram relationKnown 1 le_rfl converged
  simp only [ite_self, Nat.sub_self, List.range'_zero, List.map_nil, List.nil_append] at h
  have : (computedInquiries 1 1 converged).dropLast = [] := by
    have hl : (computedInquiries 1 1 converged).length ≤ 1 := by
      unfold computedInquiries
      exact (List.length_filter_le _ _).trans (by simp)
    apply List.eq_nil_of_length_eq_zero
    rw [List.length_dropLast]; omega
  rw [this] at h
  simpa using h

/-- No block is released twice or without having been allocated. -/
theorem sample_releases_only_allocated (gram relationKnown : Bool) (num : Nat) (hnum : 1 ≤ num)
    (converged : Nat → Bool) :
    let required := if relationKnown then 1 else num
    (releasedBlocks gram required num converged).Nodup ∧
      ∀ b ∈ releasedBlocks gram required num converged, b ∈ allocatedBlocks gram required num converged := by
  intro required
  have hreq : required ≤ num := by
    show (if relationKnown then 1 else num) ≤ num
    split <;> omega
  have hth : ((List.range required).map Block.theta).Nodup :=
    List.nodup_range.map (fun a b h => by simpa using h)
  have hta : ((List.range required).map Block.tau).Nodup :=
    List.nodup_range.map (fun a b h => by simpa using h)
  constructor
  · unfold releasedBlocks pointerBlocks inquiryBlocks
    cases hL : (computedInquiries required num converged).getLast? with
    | none =>
      simp [List.nodup_append, hth, hta]
      rintro a _ b (⟨c, _, rfl⟩ | rfl) <;> simp
    | some j =>
      cases gram
      · simp [List.nodup_append, hth, hta]
        rintro a _ b (⟨c, _, rfl⟩ | rfl | rfl) <;> simp
      · simp [List.nodup_append, hth, hta]
        rintro a _ b (⟨c, _, rfl⟩ | rfl | rfl | rfl) <;> simp
  · intro b hb
    unfold releasedBlocks at hb
    unfold allocatedBlocks initialBlocks
    simp only [List.mem_append, List.mem_map, List.mem_range, List.mem_cons, List.not_mem_nil,
      or_false] at hb ⊢
    rcases hb with ((((h | ⟨a, h, rfl⟩) | h) | ⟨a, h, rfl⟩) | h) | h
    · rcases h with rfl | rfl | rfl <;> simp
    · left; left; left; left; right; exact ⟨a, by omega, rfl⟩
    · subst h; simp
    · left; left; right; exact ⟨a, by omega, rfl⟩
    · subst h; simp
    · right
      unfold pointerBlocks at h
      cases hL : (computedInquiries required num converged).getLast? with
      | none => rw [hL] at h; simp at h
      | some j =>
        rw [hL] at h
        exact List.mem_flatMap.2 ⟨j, List.mem_of_getLast? hL, h⟩

/-- **C29 (violation).** With `num ≥ 2` inquiries every sample leaks: `2(num-1)` arrays when the
eigenvalue relation is known, `num-1` (twice that with `gram`) when it is not and nothing has converged
yet. -/
theorem sample_leaks (gram : Bool) (num : Nat) (hnum : 2 ≤ num) (converged : Nat → Bool) :
    (leakedBlocks gram true num converged).length = 2 * (num - 1) ∧
    ((∀ j, converged j = false) → (leakedBlocks gram false num converged).length =
      (if gram then 2 else 1) * (num - 1)) := by
  constructor
  · rw [(leaked_blocks gram true num (by omega) converged).length_eq]
    have : (computedInquiries 1 num converged).dropLast = [] := by
      have hl : (computedInquiries 1 num converged).length ≤ 1 := by
        unfold computedInquiries
        exact (List.length_filter_le _ _).trans (by simp)
      apply List.eq_nil_of_length_eq_zero
      rw [List.length_dropLast]; omega
    simp only [if_true, this, List.flatMap_nil, List.append_nil, List.length_append, List.length_map,
      List.length_range']
    omega
  · intro hc
    rw [(leaked_blocks gram false num (by omega) converged).length_eq]
    have : computedInquiries num num converged = List.range num := by
      unfold computedInquiries
      rw [List.filter_eq_self]
      intro j _
      simp [hc j]
    simp only [Bool.false_eq_true, if_false, this, Nat.sub_self, List.range'_zero, List.map_nil,
      List.nil_append]
    rw [List.length_flatMap]
    have hlen : ∀ j, (inquiryBlocks gram j).length = if gram then 2 else 1 := by
      intro j; unfold inquiryBlocks; cases gram <;> rfl
    simp only [hlen, List.map_const', List.sum_replicate, List.length_dropLast, List.length_range,
      smul_eq_mul]
    rw [Nat.mul_comm]

/-- Non-vacuity: two parameters of `A + t I`. -/
example : leakedBlocks false true 2 (fun _ => false) = [.theta 1, .tau 1] := by decide

end Imate.Props
