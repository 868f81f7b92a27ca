import Verif.Props.RitzValues
import Verif.Lemmas.RoundedMoments

/-!
# C105: accuracy of the quadrature in floating-point arithmetic
-/

namespace Imate.Props

open Matrix Spec Rounded Polynomial

variable {n : ℕ} {p e q : ℕ} {flD flE flL : ℝ → ℝ}

/-- C105: with full reorthogonalization and rounding, the quadrature rule of the tridiagonal matrix gives the quadratic form of every
polynomial of degree below `2 size` up to rounding errors. Here `2688 m³ ε A / θ` is written `ω`. -/
theorem rounded_quadrature (hp : 1 ≤ p) (hpe : p ≤ e) (hq : 1 ≤ q) (hD : Nearest p flD) (hE : Nearest e flE)
    (hL : Nearest q flL) {M P : Matrix (Fin n) (Fin n) ℝ} (hM : M.transpose = M) {ε : ℝ} (hε : normFactor p q n - 1 ≤ ε)
    {eDot : ℝ} (heD : 0 ≤ eDot) (heDε : eDot ≤ ε) {dot : Array ℝ → Array ℝ → Except Fault (Array ℝ)}
    (hdot : AccurateDot dot M P eDot) {A : ℝ} (hA : ∀ x : Fin n → ℝ, len (P *ᵥ fun j => |x j|) ≤ A * len x)
    {eps : ℝ} (heps0 : 0 < eps) (heps : eps ≤ 1 / 16) (hepsn : eps * Real.sqrt n ≤ 1 / 4)
    {m : ℕ} (hm : 2 ≤ m) (hmn : m ≤ n) {orth : ℤ} (ho : orth < 0 ∨ (m : ℤ) ≤ orth) {θ : ℝ} (hθ : 0 < θ) (hθA : θ ≤ A)
    (hsq : 4096 * (m ^ 2 * ε * A ^ 2) ≤ θ ^ 2) (hskip : 6000 * (m * ε * A ^ 2) ≤ θ)
    {z : Fin n → ℝ} (hz : z ≠ 0) {tol : ℝ} (htol : 0 < tol) {V0 : Array (Array ℝ)} (hV : V0.size = m)
    (hV' : ∀ row ∈ V0, row.size = n) {r0 alpha beta : Array ℝ} (hr0 : r0.size = n) (ha : alpha.size = m)
    (hb : beta.size = m) {lo hi : ℝ}
    (hlo : ∀ x : Fin n → ℝ, lo * (x ⬝ᵥ x) ≤ x ⬝ᵥ (M *ᵥ x)) (hhi : ∀ x : Fin n → ℝ, x ⬝ᵥ (M *ᵥ x) ≤ hi * (x ⬝ᵥ x))
    {ω : ℝ} (hω : ω = 2688 * (m ^ 3 * ε * A) / θ) :
    ∃ size alpha' beta', lanczosOrtho flD flE flL dot eps orth n (Array.ofFn z) m tol V0 r0 alpha beta =
        .ok (size, alpha', beta') ∧ ∃ h0 : 0 < size, size ≤ m ∧ alpha'.size = m ∧ beta'.size = m ∧
      (∀ k, k + 1 < size → flE (tol * flE (Real.sqrt n)) ≤ beta'.getD k 0) ∧
      ((∀ k, k + 1 < size → θ ≤ beta'.getD k 0) → ∀ (Q : Matrix (Fin size) (Fin size) ℝ) (lam : Fin size → ℝ),
        Spectral (tridiagonal size (fun k => alpha'.getD k 0) (fun k => beta'.getD k 0)) Q lam →
        (∀ i, lo - ω * A ≤ lam i ∧ lam i ≤ hi + ω * A) ∧ ∑ i, Q ⟨0, h0⟩ i * Q ⟨0, h0⟩ i = 1 ∧
        ∀ f : ℝ[X], f.natDegree < 2 * size →
          |∑ i, Q ⟨0, h0⟩ i * Q ⟨0, h0⟩ i * f.eval (lam i) - z ⬝ᵥ (aeval M f *ᵥ z) / (z ⬝ᵥ z)| ≤
            ω * ∑ k ∈ Finset.range (f.natDegree + 1), |f.coeff k| * ((k + 1) * (A * (1 + ω)) ^ k)) := by
  have hε0 : 0 ≤ ε := heD.trans heDε
  have hm1 : (1 : ℝ) ≤ m := by exact_mod_cast (by omega : 1 ≤ m)
  obtain ⟨size, alpha', beta', v, g1, g2, g3, s1, s2, -, g5, g6, g7⟩ := rounded_lanczos_orthogonal hp hpe hq hD hE hL hM hε heD heDε
    hdot hA heps0 heps hepsn hm hmn ho hθ hθA hsq hskip hz htol hV hV' hr0 ha hb
  obtain ⟨_, _, _, r1, -, -, -, -, -, r2⟩ := rounded_ritz_values hp hpe hq hD hE hL hM hε heD heDε
    hdot hA heps0 heps hepsn hm hmn ho hθ hθA hsq hskip hz htol hV hV' hr0 ha hb hlo hhi
  obtain ⟨_, _, _, r1', -, -, -, -, -, r2'⟩ := rounded_ritz_values hp hpe hq hD hE hL hM hε heD heDε
    hdot hA heps0 heps hepsn hm hmn ho hθ hθA hsq hskip hz htol hV hV' hr0 ha hb (lo := -A) (hi := A)
    (fun x => by
      have k1 := neg_le_of_abs_le ((abs_dot_le _ _).trans (mul_le_mul_of_nonneg_left (len_mulVec_le hdot.1 hA x) (len_nonneg x)))
      have k2 := len_sq x
      calc -A * (x ⬝ᵥ x) = -(len x * (A * len x)) := by rw [← k2]; ring
        _ ≤ _ := k1)
    (fun x => by
      have k1 := (le_abs_self _).trans ((abs_dot_le _ _).trans (mul_le_mul_of_nonneg_left (len_mulVec_le hdot.1 hA x) (len_nonneg x)))
      have k2 := len_sq x
      calc _ ≤ len x * (A * len x) := k1
        _ = _ := by rw [← k2]; ring)
  rw [g1] at r1 r1'
  cases r1
  cases r1'
  have hωA : 2688 * (m ^ 3 * ε * A ^ 2) / θ = ω * A := by rw [hω]; ring
  rw [hωA] at r2 r2'
  refine ⟨size, alpha', beta', g1, g2, g3, s1, s2, g5, fun hgood Q lam hspec => ?_⟩
  obtain ⟨hO, hbd⟩ := g7 hgood
  obtain ⟨η, hη⟩ : ∃ η, η = 128 * (m * ε * A) / θ := ⟨_, rfl⟩
  have hs : Small m ε A θ η := ⟨hm1, hε0, hθ, hθA, by rw [hη]; field_simp, by linarith, by linarith⟩
  have hApos := hs.A_pos
  have hη0 := hs.η_nonneg
  have e1 : 1792 * (m ^ 2 * ε * A ^ 2) / θ = 14 * (m * (A * η)) := by rw [hη]; field_simp; ring
  have e2 : ω = 21 * (m * m * η) := by rw [hω, hη]; field_simp; ring
  rw [e1, ← hη] at hO
  have hAl : 5 / 2 * (ε * A) ≤ 20 * (m * (A * η)) := by
    have k1 := hs.mεA
    have k2 := hs.εA
    have k3 : A * η ≤ m * (A * η) := le_mul_of_one_le_left (mul_nonneg hApos.le hη0) hm1
    linarith [hs.mεA_nonneg]
  have hω0 : 0 ≤ ω := by rw [e2]; positivity
  have hR : ∀ i, |lam i| ≤ A * (1 + ω) := fun i => by
    have k1 := r2' hgood Q lam hspec i
    rw [abs_le]
    constructor <;> linarith [k1.1, k1.2]
  have hAR : A ≤ A * (1 + ω) := le_mul_of_one_le_right hApos.le (by linarith)
  refine ⟨r2 hgood Q lam hspec, ?_, fun f hf => ?_⟩
  · have k1 := congrFun (congrFun hspec.right ⟨0, g2⟩) ⟨0, g2⟩
    rw [Matrix.mul_apply, Matrix.one_apply_eq] at k1
    exact k1
  have hmom := fun k hk => moment_start hs hM g3 g2 hz (fun x => len_mulVec_le hdot.1 hA x) hAR hAl le_rfl g6 hO
    (fun k hk => (hbd k hk).1) (fun k hk => (hbd k hk).2) hspec hR k hk
  have e3 : ∑ i, Q ⟨0, g2⟩ i * Q ⟨0, g2⟩ i * f.eval (lam i) = firstCol size ⬝ᵥ
      (aeval (tridiagonal size (fun k => alpha'.getD k 0) (fun k => beta'.getD k 0)) f *ᵥ firstCol size) := by
    rw [Lanczos.Spectral.aeval hspec, Lanczos.quadrature_sum g2]
  rw [e3, aeval_eq_sum_range, aeval_eq_sum_range, Matrix.sum_mulVec, Matrix.sum_mulVec, dotProduct_sum, dotProduct_sum,
    Finset.sum_div, ← Finset.sum_sub_distrib, Finset.mul_sum]
  refine (Finset.abs_sum_le_sum_abs _ _).trans (Finset.sum_le_sum fun k hk => ?_)
  rw [Finset.mem_range] at hk
  rw [smul_mulVec, smul_mulVec, dotProduct_smul, dotProduct_smul, smul_eq_mul, smul_eq_mul, mul_div_assoc, ← mul_sub, abs_mul,
    abs_sub_comm]
  have k1 := mul_le_mul_of_nonneg_left (hmom k (by omega)) (abs_nonneg (f.coeff k))
  rw [← e2] at k1
  calc _ ≤ _ := k1
    _ = _ := by ring

/-- C105 for functions and dense matrices, with the eigenvalues and eigenvectors of the tridiagonal matrix that LAPACK returns: if some
polynomial of degree below `2 size` approximates the function up to `μ` on the range of the spectrum, slightly enlarged, then the
quadrature approximates the quadratic form of the function of the matrix up to `2 μ` and rounding errors. -/
theorem rounded_quadrature_function (hp : 1 ≤ p) (hpe : p ≤ e) (hq : 1 ≤ q) (hD : Nearest p flD) (hE : Nearest e flE)
    (hL : Nearest q flL) {D : Array ℝ} {M : Matrix (Fin n) (Fin n) ℝ} {rowMajor : Bool} (h : DenseRepr rowMajor D M)
    (hM : M.transpose = M) {ε : ℝ} (hε : normFactor p q n - 1 ≤ ε) {A : ℝ} (hA : ∑ i, ∑ j, M i j ^ 2 ≤ A ^ 2)
    {eps : ℝ} (heps0 : 0 < eps) (heps : eps ≤ 1 / 16) (hepsn : eps * Real.sqrt n ≤ 1 / 4)
    {m : ℕ} (hm : 2 ≤ m) (hmn : m ≤ n) {orth : ℤ} (ho : orth < 0 ∨ (m : ℤ) ≤ orth) {θ : ℝ} (hθ : 0 < θ) (hθA : θ ≤ A)
    (hsq : 4096 * (m ^ 2 * ε * A ^ 2) ≤ θ ^ 2) (hskip : 6000 * (m * ε * A ^ 2) ≤ θ)
    {z : Fin n → ℝ} (hz : z ≠ 0) {tol : ℝ} (htol : 0 < tol) (hθt : θ ≤ flE (tol * flE (Real.sqrt n)))
    {V0 : Array (Array ℝ)} (hV : V0.size = m) (hV' : ∀ row ∈ V0, row.size = n) {r0 alpha beta : Array ℝ} (hr0 : r0.size = n)
    (ha : alpha.size = m) (hb : beta.size = m) {ω : ℝ} (hω : ω = 2688 * (m ^ 3 * ε * A) / θ)
    {Q : Matrix (Fin n) (Fin n) ℝ} {lam : Fin n → ℝ} (hspec : Spectral M Q lam) {lo hi : ℝ} (hlam : ∀ i, lo ≤ lam i ∧ lam i ≤ hi)
    {eigh : Nat → Array ℝ → Array ℝ → Array ℝ × Array ℝ} (heigh : EighSpec eigh) :
    ∃ size alpha' beta', lanczosOrtho flD flE flL (fun x c => Rounded.denseMatvec flD flL D x n n rowMajor c) eps orth n
        (Array.ofFn z) m tol V0 r0 alpha beta = .ok (size, alpha', beta') ∧ 0 < size ∧ size ≤ m ∧
      ∀ (f : ℝ → ℝ) (g : ℝ[X]) (μ : ℝ), g.natDegree < 2 * size →
        (∀ x, lo - ω * A ≤ x → x ≤ hi + ω * A → |f x - g.eval x| ≤ μ) →
        |∑ i ∈ Finset.range size, (eigh size alpha' beta').2.getD (i * size) 0 ^ 2 * f ((eigh size alpha' beta').1.getD i 0) -
            z ⬝ᵥ (matrixFunction f Q lam *ᵥ z) / (z ⬝ᵥ z)| ≤
          2 * μ + ω * ∑ k ∈ Finset.range (g.natDegree + 1), |g.coeff k| * ((k + 1) * (A * (1 + ω)) ^ k) := by
  have hu := (unit_pos p).le
  have hU := (unit_pos q).le
  have h6 := one_le_G hu hU 6 n
  have h7 : (1 + unitRoundoff p) ^ 6 * (1 + unitRoundoff q) ^ n ≤ normFactor p q n :=
    mul_le_mul_of_nonneg_right (pow_le_pow_right₀ (by linarith) (by norm_num)) (pow_nonneg (by linarith) n)
  have hF := frobenius_bound (hθ.le.trans hθA) hA
  have hdot := dense_accurate_dot hp hq hD hL h
  have hform : ∀ x : Fin n → ℝ, lo * (x ⬝ᵥ x) ≤ x ⬝ᵥ (M *ᵥ x) ∧ x ⬝ᵥ (M *ᵥ x) ≤ hi * (x ⬝ᵥ x) := fun x => by
    rw [hspec.form, ← hspec.weights_sum x, ← Gauss.wsum_const (weights Q x) lam, ← Gauss.wsum_const (weights Q x) lam]
    exact ⟨Gauss.wsum_mono (weights_nonneg x) fun i => (hlam i).1, Gauss.wsum_mono (weights_nonneg x) fun i => (hlam i).2⟩
  obtain ⟨size, alpha', beta', g1, g2, g3, s1, s2, g4, g5⟩ := rounded_quadrature hp hpe hq hD hE hL hM hε
    (by linarith) (by linarith) hdot hF heps0 heps hepsn hm hmn
    ho hθ hθA hsq hskip hz htol hV hV' hr0 ha hb (fun x => (hform x).1) (fun x => (hform x).2) hω
  refine ⟨size, alpha', beta', g1, g2, g3, fun f g μ hg hμ => ?_⟩
  have hT := (heigh size alpha' beta' g2 (by omega) (by omega)).2.2
  obtain ⟨k1, k2, k3⟩ := g5 (fun k hk => hθt.trans (g4 k hk)) _ _ hT
  have k3 := k3 g hg
  have hε0 : 0 ≤ ε := by linarith
  have hA0 : 0 < A := lt_of_lt_of_le hθ hθA
  have hω0 : 0 ≤ ω := by rw [hω]; positivity
  have hzz : 0 < z ⬝ᵥ z := by
    rw [← len_sq]
    have := len_pos hz
    positivity
  have e1 : ∑ i ∈ Finset.range size, (eigh size alpha' beta').2.getD (i * size) 0 ^ 2 * f ((eigh size alpha' beta').1.getD i 0) =
      ∑ i : Fin size, (eigh size alpha' beta').2.getD (0 + i.1 * size) 0 * (eigh size alpha' beta').2.getD (0 + i.1 * size) 0 *
        f ((eigh size alpha' beta').1.getD i.1 0) := by
    rw [Finset.sum_range]
    refine Finset.sum_congr rfl fun i _ => ?_
    rw [pow_two, zero_add]
  rw [e1]
  set w : Fin size → ℝ := fun i => (eigh size alpha' beta').2.getD (0 + i.1 * size) 0 *
    (eigh size alpha' beta').2.getD (0 + i.1 * size) 0 with hw
  set x : Fin size → ℝ := fun i => (eigh size alpha' beta').1.getD i.1 0 with hx
  have k1' : ∀ i, lo - ω * A ≤ x i ∧ x i ≤ hi + ω * A := k1
  have k2' : ∑ i, w i = 1 := k2
  have k3' : |∑ i, w i * g.eval (x i) - z ⬝ᵥ (aeval M g *ᵥ z) / (z ⬝ᵥ z)| ≤
      ω * ∑ k ∈ Finset.range (g.natDegree + 1), |g.coeff k| * ((k + 1) * (A * (1 + ω)) ^ k) := k3
  have d1 : |∑ i, w i * f (x i) - ∑ i, w i * g.eval (x i)| ≤ μ := by
    rw [← Finset.sum_sub_distrib]
    refine (Finset.abs_sum_le_sum_abs _ _).trans ?_
    calc _ ≤ ∑ i, w i * μ := Finset.sum_le_sum fun i _ => by
          rw [← mul_sub, abs_mul, abs_of_nonneg (mul_self_nonneg _)]
          exact mul_le_mul_of_nonneg_left (hμ _ (k1' i).1 (k1' i).2) (mul_self_nonneg _)
      _ = μ := by rw [← Finset.sum_mul, k2', one_mul]
  have d2 : |z ⬝ᵥ (matrixFunction f Q lam *ᵥ z) / (z ⬝ᵥ z) - z ⬝ᵥ (aeval M g *ᵥ z) / (z ⬝ᵥ z)| ≤ μ := by
    rw [← sub_div, abs_div, abs_of_pos hzz, div_le_iff₀ hzz, Lanczos.Spectral.aeval hspec, matrixFunction_form, matrixFunction_form,
      Gauss.wsum_sub]
    refine (Finset.abs_sum_le_sum_abs _ _).trans ?_
    rw [← hspec.weights_sum z, Finset.mul_sum]
    refine Finset.sum_le_sum fun i _ => ?_
    rw [abs_mul, abs_of_nonneg (weights_nonneg z i), mul_comm]
    have hωA := mul_nonneg hω0 hA0.le
    exact mul_le_mul_of_nonneg_right (hμ _ (by linarith [(hlam i).1]) (by linarith [(hlam i).2])) (weights_nonneg z i)
  rw [abs_le] at d1 d2 k3' ⊢
  constructor <;> linarith [d1.1, d1.2, d2.1, d2.2, k3'.1, k3'.2]

/-- The bound is small for a matrix of order three in double precision: for polynomials of degree at most five with coefficients of
absolute value at most one it is below one thousandth. -/
example {f : ℝ[X]} (hf : f.natDegree ≤ 5) (hc : ∀ k, |f.coeff k| ≤ 1) {ω : ℝ} (h : ω = 2688 * ((3 : ℝ) ^ 3 * (8 / 2 ^ 53) * 4) / (1 / 16)) :
    ω * ∑ k ∈ Finset.range (f.natDegree + 1), |f.coeff k| * ((k + 1) * (4 * (1 + ω)) ^ k) ≤ 1 / 10 ^ 3 := by
  have h0 : 0 ≤ ω := by rw [h]; norm_num
  have h1 : ω ≤ 1 / 10 ^ 8 := by rw [h]; norm_num
  have h2 : ∑ k ∈ Finset.range (f.natDegree + 1), |f.coeff k| * (((k : ℝ) + 1) * (4 * (1 + ω)) ^ k) ≤
      ∑ k ∈ Finset.range 6, 1 * (((k : ℝ) + 1) * 5 ^ k) := by
    refine (Finset.sum_le_sum_of_subset_of_nonneg (t := Finset.range 6) (Finset.range_subset_range.2 (by omega))
      fun k _ _ => by positivity).trans (Finset.sum_le_sum fun k _ => ?_)
    refine mul_le_mul (hc k) (mul_le_mul_of_nonneg_left (pow_le_pow_left₀ (by linarith) (by linarith) k) (by positivity))
      (by positivity) (by norm_num)
  have h3 : ∑ k ∈ Finset.range 6, 1 * (((k : ℝ) + 1) * 5 ^ k) ≤ 10 ^ 5 / 4 := by
    simp only [Finset.sum_range_succ, Finset.sum_range_zero]
    norm_num
  have h4 := mul_le_mul_of_nonneg_left (h2.trans h3) h0
  linarith

end Imate.Props
