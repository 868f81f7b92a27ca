import Verif.Props.RoundedGauss
import Verif.Props.RoundedQuadrature
import Verif.Lemmas.BackwardStable
import Verif.Lemmas.Lapack
import Verif.Spec.BackwardStable

/-!
# C107: accuracy of a sample of SLQ in floating-point arithmetic, from the start vector to the value
-/

namespace Imate.Props

open Matrix Spec Rounded Polynomial

variable {n : ℕ} {p e q : ℕ} {flD flE flL : ℝ → ℝ}

/-- A spectral decomposition bounds the quadratic form. -/
theorem spectral_form_bounds {k : ℕ} {T Q : Matrix (Fin k) (Fin k) ℝ} {lam : Fin k → ℝ} (h : Spectral T Q lam) {lo hi : ℝ}
    (hl : ∀ i, lo ≤ lam i ∧ lam i ≤ hi) {y : Fin k → ℝ} (hy : y ⬝ᵥ y = 1) : lo ≤ y ⬝ᵥ (T *ᵥ y) ∧ y ⬝ᵥ (T *ᵥ y) ≤ hi :=
  h.form_mem (fun i => ⟨(hl i).1, (hl i).2⟩) hy

/-- Eigenvalues of a perturbed matrix. -/
theorem perturbed_eigenvalues {k : ℕ} {T E Q Q' : Matrix (Fin k) (Fin k) ℝ} {lam lam' : Fin k → ℝ} (h : Spectral T Q lam)
    (h' : Spectral (T + E) Q' lam') {lo hi d : ℝ} (hl : ∀ i, lo ≤ lam i ∧ lam i ≤ hi)
    (hE : ∀ x, len (E *ᵥ x) ≤ d * len x) (i : Fin k) : lo - d ≤ lam' i ∧ lam' i ≤ hi + d := by
  obtain ⟨y, hy, e⟩ := spectral_form h' i
  have h1 := spectral_form_bounds h hl hy
  have hlen : len y = 1 := by unfold len; rw [hy, Real.sqrt_one]
  have h2 := (abs_dot_le y (E *ᵥ y)).trans (mul_le_mul_of_nonneg_left (hE y) (len_nonneg y))
  rw [hlen, mul_one, one_mul] at h2
  rw [add_mulVec, dotProduct_add] at e
  have h3 := abs_le.1 h2
  constructor <;> linarith [h1.1, h1.2, h3.1, h3.2]

/-- C107, the quadrature with the eigenvalues and eigenvectors that LAPACK computes with rounding. -/
theorem stable_quadrature (hp : 1 ≤ p) (hpe : p ≤ e) (hq : 1 ≤ q) (hD : Nearest p flD) (hE : Nearest e flE)
    (hL : Nearest q flL) {M P : Matrix (Fin n) (Fin n) ℝ} (hM : M.transpose = M) {ε : ℝ} (hε : normFactor p q n - 1 ≤ ε)
    {eDot : ℝ} (heD : 0 ≤ eDot) (heDε : eDot ≤ ε) {dot : Array ℝ → Array ℝ → Except Fault (Array ℝ)}
    (hdot : AccurateDot dot M P eDot) {A : ℝ} (hF : ∀ x : Fin n → ℝ, len (P *ᵥ fun j => |x j|) ≤ A * len x)
    {eps : ℝ} (heps0 : 0 < eps) (heps : eps ≤ 1 / 16) (hepsn : eps * Real.sqrt n ≤ 1 / 4)
    {m : ℕ} (hm : 2 ≤ m) (hmn : m ≤ n) {orth : ℤ} (ho : orth < 0 ∨ (m : ℤ) ≤ orth) {θ : ℝ} (hθ : 0 < θ) (hθA : θ ≤ A)
    (hsq : 4096 * (m ^ 2 * ε * A ^ 2) ≤ θ ^ 2) (hskip : 6000 * (m * ε * A ^ 2) ≤ θ)
    {z : Fin n → ℝ} (hz : z ≠ 0) {tol : ℝ} (htol : 0 < tol) (hθt : θ ≤ flE (tol * flE (Real.sqrt n)))
    {V0 : Array (Array ℝ)} (hV : V0.size = m) (hV' : ∀ row ∈ V0, row.size = n) {r0 alpha beta : Array ℝ} (hr0 : r0.size = n)
    (ha : alpha.size = m) (hb : beta.size = m) {ω : ℝ} (hω : ω = 2688 * (m ^ 3 * ε * A) / θ)
    {Q : Matrix (Fin n) (Fin n) ℝ} {lam : Fin n → ℝ} (hspec : Spectral M Q lam) {lo hi : ℝ} (hlam : ∀ i, lo ≤ lam i ∧ lam i ≤ hi)
    {δ η : ℝ} (hδ : 0 ≤ δ) (hη : 0 ≤ η) {eigh : Nat → Array ℝ → Array ℝ → Array ℝ × Array ℝ} (heigh : StableEigh m δ η eigh)
    {w : ℝ} (hw : w = ω * A + δ * (A * (1 + ω))) :
    ∃ size alpha' beta', lanczosOrtho flD flE flL dot eps orth n
        (Array.ofFn z) m tol V0 r0 alpha beta = .ok (size, alpha', beta') ∧ 0 < size ∧ size ≤ m ∧
      (∀ i < size, lo - w ≤ (eigh size alpha' beta').1.getD i 0 ∧ (eigh size alpha' beta').1.getD i 0 ≤ hi + w) ∧
      (∑ i : Fin size, (eigh size alpha' beta').2.getD (i.1 * size) 0 ^ 2 ≤ 1 + (2 * Real.sqrt size * η + size * η ^ 2)) ∧
      ∀ (f : ℝ → ℝ) (g : ℝ[X]) (μ F : ℝ), g.natDegree < 2 * size →
        (∀ x, lo - w ≤ x → x ≤ hi + w → |f x - g.eval x| ≤ μ ∧ |f x| ≤ F) →
        |∑ i : Fin size, (eigh size alpha' beta').2.getD (i.1 * size) 0 ^ 2 * f ((eigh size alpha' beta').1.getD i.1 0) -
            z ⬝ᵥ (matrixFunction f Q lam *ᵥ z) / (z ⬝ᵥ z)| ≤
          2 * μ + F * (2 * Real.sqrt size * η + size * η ^ 2) +
            ∑ k ∈ Finset.range (g.natDegree + 1), |g.coeff k| * (A * (1 + ω)) ^ k * ((k + 1) * ω + ((1 + δ) ^ k - 1)) := by
  have hu := (unit_pos p).le
  have hU := (unit_pos q).le
  have hform : ∀ x : Fin n → ℝ, lo * (x ⬝ᵥ x) ≤ x ⬝ᵥ (M *ᵥ x) ∧ x ⬝ᵥ (M *ᵥ x) ≤ hi * (x ⬝ᵥ x) := fun x => by
    rw [hspec.form, ← hspec.weights_sum x, ← Gauss.wsum_const (weights Q x) lam, ← Gauss.wsum_const (weights Q x) lam]
    exact ⟨Gauss.wsum_mono (weights_nonneg x) fun i => (hlam i).1, Gauss.wsum_mono (weights_nonneg x) fun i => (hlam i).2⟩
  have hnorm : ∀ x : Fin n → ℝ, |x ⬝ᵥ (M *ᵥ x)| ≤ A * (x ⬝ᵥ x) := fun x => by
    have k1 := (abs_dot_le x (M *ᵥ x)).trans (mul_le_mul_of_nonneg_left (len_mulVec_le hdot.1 hF x) (len_nonneg x))
    calc _ ≤ _ := k1
      _ = _ := by rw [← len_sq x]; ring
  obtain ⟨size, alpha', beta', g1, g2, g3, s1, s2, g4, g5⟩ := rounded_quadrature hp hpe hq hD hE hL hM hε
    heD heDε hdot hF heps0 heps hepsn hm hmn
    ho hθ hθA hsq hskip hz htol hV hV' hr0 ha hb (fun x => (hform x).1) (fun x => (hform x).2) hω
  obtain ⟨_, _, _, g1', _, -, -, -, -, g5'⟩ := rounded_quadrature hp hpe hq hD hE hL hM hε
    heD heDε hdot hF heps0 heps hepsn hm hmn
    ho hθ hθA hsq hskip hz htol hV hV' hr0 ha hb (lo := -A) (hi := A)
    (fun x => by have := neg_le_of_abs_le (hnorm x); linarith) (fun x => le_of_abs_le (hnorm x)) hω
  rw [g1] at g1'
  cases g1'
  have hε0 : 0 ≤ ε := heD.trans heDε
  have hA0 : 0 < A := lt_of_lt_of_le hθ hθA
  have hω0 : 0 ≤ ω := by rw [hω]; positivity
  have hzz : 0 < z ⬝ᵥ z := by
    rw [← len_sq]
    have := len_pos hz
    positivity
  obtain ⟨Q0, lam0, hT⟩ := Imate.Lanczos.exists_spectral (Imate.Lanczos.tridiagonal_symm (k := size) (fun i => alpha'.getD i 0) (fun i => beta'.getD i 0))
  have hgood := fun k hk => hθt.trans (g4 k hk)
  obtain ⟨k1, -, k3⟩ := g5 hgood Q0 lam0 hT
  obtain ⟨k1', -, -⟩ := g5' hgood Q0 lam0 hT
  obtain ⟨E, Z, z1, z2, z3⟩ := heigh size alpha' beta' g2 g3 (by omega) (by omega)
  set T := tridiagonal size (fun i => alpha'.getD i 0) (fun i => beta'.getD i 0) with hTdef
  set R := A * (1 + ω) with hRdef
  have hR0 : 0 ≤ R := by positivity
  have hR : ∀ i, |lam0 i| ≤ R := fun i => by
    rw [abs_le, hRdef]
    constructor <;> linarith [(k1' i).1, (k1' i).2]
  have hTlen := fun y => spectral_len hT hR0 hR y
  have hElen := z2 R hTlen
  have hrange : ∀ i : Fin size, lo - w ≤ (eigh size alpha' beta').1.getD i.1 0 ∧
      (eigh size alpha' beta').1.getD i.1 0 ≤ hi + w := fun i => by
    have := perturbed_eigenvalues hT z1 k1 hElen i
    rw [hw]
    constructor <;> linarith [this.1, this.2]
  have hsum1 : ∑ i, Z ⟨0, g2⟩ i * Z ⟨0, g2⟩ i = 1 := by
    have k1 := congrFun (congrFun z1.right ⟨0, g2⟩) ⟨0, g2⟩
    rw [Matrix.mul_apply, Matrix.one_apply_eq] at k1
    exact k1
  have hweights := weights_perturb (f := fun _ => 1) (F := 1) hη hsum1 z3 fun _ => by rw [abs_one]
  simp only [mul_one, one_mul, hsum1] at hweights
  refine ⟨size, alpha', beta', g1, g2, g3, fun i hi' => hrange ⟨i, hi'⟩, by linarith [(abs_le.1 hweights).2], fun f g μ F hg hμ => ?_⟩
  set x : Fin size → ℝ := fun i => (eigh size alpha' beta').1.getD i.1 0 with hx
  -- the weights
  have d0 := weights_perturb (f := fun i => f (x i)) hη hsum1 z3 (fun i => (hμ _ (hrange i).1 (hrange i).2).2)
  -- the function
  have d1 : |∑ i, Z ⟨0, g2⟩ i * Z ⟨0, g2⟩ i * f (x i) - ∑ i, Z ⟨0, g2⟩ i * Z ⟨0, g2⟩ i * g.eval (x i)| ≤ μ := by
    rw [← Finset.sum_sub_distrib]
    refine (Finset.abs_sum_le_sum_abs _ _).trans ?_
    calc _ ≤ ∑ i, Z ⟨0, g2⟩ i * Z ⟨0, g2⟩ i * μ := Finset.sum_le_sum fun i _ => by
          rw [← mul_sub, abs_mul, abs_of_nonneg (mul_self_nonneg _)]
          exact mul_le_mul_of_nonneg_left (hμ _ (hrange i).1 (hrange i).2).1 (mul_self_nonneg _)
      _ = μ := by rw [← Finset.sum_mul, hsum1, one_mul]
  have hw0 : 0 ≤ w := by rw [hw]; positivity
  have d2 : |z ⬝ᵥ (matrixFunction f Q lam *ᵥ z) / (z ⬝ᵥ z) - z ⬝ᵥ (aeval M g *ᵥ z) / (z ⬝ᵥ z)| ≤ μ := by
    rw [← sub_div, abs_div, abs_of_pos hzz, div_le_iff₀ hzz, Lanczos.Spectral.aeval hspec, matrixFunction_form, matrixFunction_form,
      Gauss.wsum_sub]
    refine (Finset.abs_sum_le_sum_abs _ _).trans ?_
    rw [← hspec.weights_sum z, Finset.mul_sum]
    refine Finset.sum_le_sum fun i _ => ?_
    rw [abs_mul, abs_of_nonneg (weights_nonneg z i), mul_comm]
    exact mul_le_mul_of_nonneg_right (hμ _ (by linarith [(hlam i).1]) (by linarith [(hlam i).2])).1 (weights_nonneg z i)
  -- the polynomial
  have hfc : len (firstCol size) = 1 := by
    unfold len
    rw [firstCol_dot g2, Real.sqrt_one]
  have d3 : |∑ i, Z ⟨0, g2⟩ i * Z ⟨0, g2⟩ i * g.eval (x i) - ∑ i, Q0 ⟨0, g2⟩ i * Q0 ⟨0, g2⟩ i * g.eval (lam0 i)| ≤
      ∑ k ∈ Finset.range (g.natDegree + 1), |g.coeff k| * ((R + δ * R) ^ k - R ^ k) := by
    have q1 : ∑ i, Z ⟨0, g2⟩ i * Z ⟨0, g2⟩ i * g.eval (x i) = firstCol size ⬝ᵥ (aeval (T + E) g *ᵥ firstCol size) := by
      rw [Lanczos.Spectral.aeval z1, Lanczos.quadrature_sum g2]
    have q2 : ∑ i, Q0 ⟨0, g2⟩ i * Q0 ⟨0, g2⟩ i * g.eval (lam0 i) = firstCol size ⬝ᵥ (aeval T g *ᵥ firstCol size) := by
      rw [Lanczos.Spectral.aeval hT, Lanczos.quadrature_sum g2]
    rw [q1, q2, aeval_eq_sum_range, aeval_eq_sum_range, Matrix.sum_mulVec, Matrix.sum_mulVec, dotProduct_sum, dotProduct_sum,
      ← Finset.sum_sub_distrib]
    refine (Finset.abs_sum_le_sum_abs _ _).trans (Finset.sum_le_sum fun k _ => ?_)
    rw [smul_mulVec, smul_mulVec, dotProduct_smul, dotProduct_smul, smul_eq_mul, smul_eq_mul, ← mul_sub, abs_mul,
      ← dotProduct_sub]
    refine mul_le_mul_of_nonneg_left ?_ (abs_nonneg _)
    have t1 := abs_dot_le (firstCol size) ((T + E) ^ k *ᵥ firstCol size - T ^ k *ᵥ firstCol size)
    have t2 := pow_perturb hR0 (mul_nonneg hδ hR0) hTlen hElen k (firstCol size)
    rw [hfc, one_mul] at t1
    rw [hfc, mul_one] at t2
    exact t1.trans t2
  have k3 := k3 g hg
  have e4 : ∑ k ∈ Finset.range (g.natDegree + 1), |g.coeff k| * R ^ k * ((k + 1) * ω + ((1 + δ) ^ k - 1)) =
      ω * ∑ k ∈ Finset.range (g.natDegree + 1), |g.coeff k| * ((k + 1) * R ^ k) +
        ∑ k ∈ Finset.range (g.natDegree + 1), |g.coeff k| * ((R + δ * R) ^ k - R ^ k) := by
    rw [Finset.mul_sum, ← Finset.sum_add_distrib]
    refine Finset.sum_congr rfl fun k _ => ?_
    have q3 : (R + δ * R) ^ k = R ^ k * (1 + δ) ^ k := by
      rw [← mul_pow]
      congr 1
      ring
    rw [q3]
    generalize (1 + δ) ^ k = d
    generalize R ^ k = c
    ring
  rw [e4]
  rw [abs_le] at d0 d1 d2 d3 k3 ⊢
  constructor <;> linarith [d0.1, d0.2, d1.1, d1.2, d2.1, d2.2, d3.1, d3.2, k3.1, k3.2]

/-- C107, for every routine `dot` that computes products with the matrix accurately: a sample of SLQ in floating-point arithmetic, with all its roundings: those of the products, of the Lanczos iteration with
full reorthogonalization, of LAPACK, of the powers and values of the function and of the sum.  In the result `ζ` is the error of the
eigenvectors, `γ` that of the sum, `φ` that of the values of the function, `ω` that of the iteration and `δ` that of the eigenvalues;
`μ` is the error of the best polynomial and vanishes if the function is a polynomial of degree below `2 size`. -/
theorem rounded_sample_operator (hp : 1 ≤ p) (hpe : p ≤ e) (hq : 1 ≤ q) (hD : Nearest p flD) (hE : Nearest e flE)
    (hL : Nearest q flL) {M P : Matrix (Fin n) (Fin n) ℝ} (hM : M.transpose = M) {ε : ℝ} (hε : normFactor p q n - 1 ≤ ε)
    {eDot : ℝ} (heD : 0 ≤ eDot) (heDε : eDot ≤ ε) {dot : Array ℝ → Array ℝ → Except Fault (Array ℝ)}
    (hdot : AccurateDot dot M P eDot) {A : ℝ} (hF : ∀ x : Fin n → ℝ, len (P *ᵥ fun j => |x j|) ≤ A * len x)
    {eps : ℝ} (heps0 : 0 < eps) (heps : eps ≤ 1 / 16) (hepsn : eps * Real.sqrt n ≤ 1 / 4)
    {m : ℕ} (hm : 2 ≤ m) (hmn : m ≤ n) {orth : ℤ} (ho : orth < 0 ∨ (m : ℤ) ≤ orth) {θ : ℝ} (hθ : 0 < θ) (hθA : θ ≤ A)
    (hsq : 4096 * (m ^ 2 * ε * A ^ 2) ≤ θ ^ 2) (hskip : 6000 * (m * ε * A ^ 2) ≤ θ)
    {z : Fin n → ℝ} (hz : z ≠ 0) {tol : ℝ} (htol : 0 < tol) (hθt : θ ≤ flE (tol * flE (Real.sqrt n)))
    {V0 : Array (Array ℝ)} (hV : V0.size = m) (hV' : ∀ row ∈ V0, row.size = n) {r0 alpha beta : Array ℝ} (hr0 : r0.size = n)
    (ha : alpha.size = m) (hb : beta.size = m) {ω : ℝ} (hω : ω = 2688 * (m ^ 3 * ε * A) / θ)
    {Q : Matrix (Fin n) (Fin n) ℝ} {lam : Fin n → ℝ} (hspec : Spectral M Q lam) {lo hi : ℝ} (hlam : ∀ i, lo ≤ lam i ∧ lam i ≤ hi)
    {δ η : ℝ} (hδ : 0 ≤ δ) (hη : 0 ≤ η) {eigh : Nat → Array ℝ → Array ℝ → Array ℝ × Array ℝ} (heigh : StableEigh m δ η eigh)
    {w : ℝ} (hw : w = ω * A + δ * (A * (1 + ω)))
    {qW : ℕ} (hqW : 1 ≤ qW) {flW : ℝ → ℝ} (hW : Nearest qW flW) {eLib : ℝ} (heLib : 0 ≤ eLib) {lib : Libm}
    (hlib : LibmAccurate eLib lib) (api : Functions.Api) (exponent : ℝ) {κ : ℝ → ℝ} {φ F : ℝ}
    (hfun : ∀ x, lo - w ≤ x → x ≤ hi + w → (0 ≤ κ x ∧ κ x < 1) ∧
      |lib.pow x (flD exponent) - x ^ exponent| ≤ κ x * |x ^ exponent| ∧ WellDefined (unitRoundoff p) (κ x) api (x ^ exponent) ∧
      functionError (unitRoundoff p) (unitRoundoff qW) eLib (κ x) api (x ^ exponent) ≤ φ ∧
      |exactFunction api (x ^ exponent)| ≤ F)
    {ζ γ : ℝ} (hζ : ζ = 2 * Real.sqrt m * η + m * η ^ 2) (hγ : γ = (1 + unitRoundoff p) ^ (m + 4) - 1) :
    ∃ size alpha' beta' r, lanczosOrtho flD flE flL dot eps orth n
        (Array.ofFn z) m tol V0 r0 alpha beta = .ok (size, alpha', beta') ∧ 0 < size ∧ size ≤ m ∧
      quadrature flD flW lib api exponent n (Array.ofFn fun i : Fin size => (eigh size alpha' beta').1.getD i.1 0)
        (Array.ofFn fun i : Fin size => (eigh size alpha' beta').2.getD (i.1 * size) 0) size = .ok r ∧
      ∀ (g : ℝ[X]) (μ : ℝ), g.natDegree < 2 * size →
        (∀ x, lo - w ≤ x → x ≤ hi + w → |exactFunction api (x ^ exponent) - g.eval x| ≤ μ) →
        |r - n * (z ⬝ᵥ (matrixFunction (fun x => exactFunction api (x ^ exponent)) Q lam *ᵥ z) / (z ⬝ᵥ z))| ≤
          n * ((1 + ζ) * (φ + γ * (F + φ)) + 2 * μ + F * ζ +
            ∑ k ∈ Finset.range (g.natDegree + 1), |g.coeff k| * (A * (1 + ω)) ^ k * ((k + 1) * ω + ((1 + δ) ^ k - 1))) := by
  obtain ⟨size, alpha', beta', g1, g2, g3, g4, g5, g6⟩ := stable_quadrature hp hpe hq hD hE hL hM hε heD heDε hdot hF heps0 heps hepsn hm hmn ho
    hθ hθA hsq hskip hz htol hθt hV hV' hr0 ha hb hω hspec hlam hδ hη heigh hw
  set x : Fin size → ℝ := fun i => (eigh size alpha' beta').1.getD i.1 0 with hx
  set t : Fin size → ℝ := fun i => (eigh size alpha' beta').2.getD (i.1 * size) 0 with ht
  have hx' : ∀ i, lo - w ≤ x i ∧ x i ≤ hi + w := fun i => g4 i.1 i.2
  have hf := fun i => hfun (x i) (hx' i).1 (hx' i).2
  obtain ⟨r, r1, r2⟩ := sample_accurate_partial hp hqW heLib hD hW hlib n api exponent x t (fun i => κ (x i))
    (fun i => (hf i).1) (fun i => (hf i).2.1) (fun i => (hf i).2.2.1)
  refine ⟨size, alpha', beta', r, g1, g2, g3, r1, fun g μ hg hμ => ?_⟩
  have g7 := g6 (fun x => exactFunction api (x ^ exponent)) g μ F hg
    fun y h1 h2 => ⟨hμ y h1 h2, (hfun y h1 h2).2.2.2.2⟩
  have hu := (unit_pos p).le
  have hsm : (size : ℝ) ≤ m := by exact_mod_cast g3
  have hζ' : 2 * Real.sqrt size * η + size * η ^ 2 ≤ ζ := by
    rw [hζ]
    have a1 := mul_le_mul_of_nonneg_right (Real.sqrt_le_sqrt hsm) hη
    have a2 := mul_le_mul_of_nonneg_right hsm (sq_nonneg η)
    linarith
  have hγ' : (1 + unitRoundoff p) ^ (size + 4) - 1 ≤ γ := by
    rw [hγ]
    have := pow_le_pow_right₀ (by linarith : (1 : ℝ) ≤ 1 + unitRoundoff p) (by omega : size + 4 ≤ m + 4)
    linarith
  have hγs : 0 ≤ (1 + unitRoundoff p) ^ (size + 4) - 1 := by
    have := one_le_pow₀ (by linarith : (1 : ℝ) ≤ 1 + unitRoundoff p) (n := size + 4)
    linarith
  have hF0 : 0 ≤ F := (abs_nonneg _).trans (hf ⟨0, g2⟩).2.2.2.2
  have hn0 : (0 : ℝ) ≤ n := Nat.cast_nonneg n
  -- the values of the function
  have hterm : ∀ i, functionError (unitRoundoff p) (unitRoundoff qW) eLib (κ (x i)) api (x i ^ exponent) +
      ((1 + unitRoundoff p) ^ (size + 4) - 1) * (|exactFunction api (x i ^ exponent)| +
        functionError (unitRoundoff p) (unitRoundoff qW) eLib (κ (x i)) api (x i ^ exponent)) ≤ φ + γ * (F + φ) := fun i => by
    obtain ⟨-, -, -, b1, b2⟩ := hf i
    obtain ⟨v, -, b3⟩ := matrix_function_accurate hp hqW heLib hD hW hlib (hf i).1.1 (hf i).1.2 api (hf i).2.1 (hf i).2.2.1
    have b4 := (abs_nonneg _).trans b3
    have b5 := mul_le_mul hγ' (add_le_add b2 b1) (add_nonneg (abs_nonneg _) b4) (hγs.trans hγ')
    linarith
  have hB : 0 ≤ φ + γ * (F + φ) := by
    obtain ⟨-, -, -, b1, b2⟩ := hf ⟨0, g2⟩
    obtain ⟨v, -, b3⟩ := matrix_function_accurate hp hqW heLib hD hW hlib (hf ⟨0, g2⟩).1.1 (hf ⟨0, g2⟩).1.2 api
      (hf ⟨0, g2⟩).2.1 (hf ⟨0, g2⟩).2.2.1
    have b4 := ((abs_nonneg _).trans b3).trans b1
    have := mul_nonneg (hγs.trans hγ') (add_nonneg hF0 b4)
    linarith
  have hsum : ∑ i, t i ^ 2 * (functionError (unitRoundoff p) (unitRoundoff qW) eLib (κ (x i)) api (x i ^ exponent) +
      ((1 + unitRoundoff p) ^ (size + 4) - 1) * (|exactFunction api (x i ^ exponent)| +
        functionError (unitRoundoff p) (unitRoundoff qW) eLib (κ (x i)) api (x i ^ exponent))) ≤
      (1 + ζ) * (φ + γ * (F + φ)) := by
    calc _ ≤ ∑ i, t i ^ 2 * (φ + γ * (F + φ)) := Finset.sum_le_sum fun i _ => mul_le_mul_of_nonneg_left (hterm i) (sq_nonneg _)
      _ = (∑ i, t i ^ 2) * (φ + γ * (F + φ)) := by rw [Finset.sum_mul]
      _ ≤ _ := mul_le_mul_of_nonneg_right (g5.trans (by linarith)) hB
  have c1 := r2.trans (mul_le_mul_of_nonneg_left hsum hn0)
  have c2 := mul_le_mul_of_nonneg_left g7 hn0
  have c3 := mul_le_mul_of_nonneg_left hζ' hF0
  have c4 := mul_le_mul_of_nonneg_left c3 hn0
  rw [← abs_of_nonneg hn0, ← abs_mul, mul_sub, abs_of_nonneg hn0] at c2
  rw [abs_le] at c1 c2 ⊢
  simp only [mul_add] at c1 c2 c4 ⊢
  constructor <;> linarith [c1.1, c1.2, c2.1, c2.2]

/-- C107 for `trace` with the exponent one and every accurate routine for products: the sample is the quadratic form up to rounding, however few steps are made. -/
theorem rounded_trace_sample_operator (hp : 1 ≤ p) (hpe : p ≤ e) (hq : 1 ≤ q) (hD : Nearest p flD) (hE : Nearest e flE)
    (hL : Nearest q flL) {M P : Matrix (Fin n) (Fin n) ℝ} (hM : M.transpose = M) {ε : ℝ} (hε : normFactor p q n - 1 ≤ ε)
    {eDot : ℝ} (heD : 0 ≤ eDot) (heDε : eDot ≤ ε) {dot : Array ℝ → Array ℝ → Except Fault (Array ℝ)}
    (hdot : AccurateDot dot M P eDot) {A : ℝ} (hF : ∀ x : Fin n → ℝ, len (P *ᵥ fun j => |x j|) ≤ A * len x)
    {eps : ℝ} (heps0 : 0 < eps) (heps : eps ≤ 1 / 16) (hepsn : eps * Real.sqrt n ≤ 1 / 4)
    {m : ℕ} (hm : 2 ≤ m) (hmn : m ≤ n) {orth : ℤ} (ho : orth < 0 ∨ (m : ℤ) ≤ orth) {θ : ℝ} (hθ : 0 < θ) (hθA : θ ≤ A)
    (hsq : 4096 * (m ^ 2 * ε * A ^ 2) ≤ θ ^ 2) (hskip : 6000 * (m * ε * A ^ 2) ≤ θ)
    {z : Fin n → ℝ} (hz : z ≠ 0) {tol : ℝ} (htol : 0 < tol) (hθt : θ ≤ flE (tol * flE (Real.sqrt n)))
    {V0 : Array (Array ℝ)} (hV : V0.size = m) (hV' : ∀ row ∈ V0, row.size = n) {r0 alpha beta : Array ℝ} (hr0 : r0.size = n)
    (ha : alpha.size = m) (hb : beta.size = m) {ω : ℝ} (hω : ω = 2688 * (m ^ 3 * ε * A) / θ)
    {δ η : ℝ} (hδ : 0 ≤ δ) (hη : 0 ≤ η) {eigh : Nat → Array ℝ → Array ℝ → Array ℝ × Array ℝ} (heigh : StableEigh m δ η eigh)
    {qW : ℕ} (hqW : 1 ≤ qW) {flW : ℝ → ℝ} (hW : Nearest qW flW) {eLib : ℝ} (heLib : 0 ≤ eLib) (heLib1 : eLib < 1) {lib : Libm}
    (hlib : LibmAccurate eLib lib)
    {ζ γ : ℝ} (hζ : ζ = 2 * Real.sqrt m * η + m * η ^ 2) (hγ : γ = (1 + unitRoundoff p) ^ (m + 4) - 1) :
    ∃ size alpha' beta' r, lanczosOrtho flD flE flL dot eps orth n
        (Array.ofFn z) m tol V0 r0 alpha beta = .ok (size, alpha', beta') ∧ 0 < size ∧ size ≤ m ∧
      quadrature flD flW lib .trace 1 n (Array.ofFn fun i : Fin size => (eigh size alpha' beta').1.getD i.1 0)
        (Array.ofFn fun i : Fin size => (eigh size alpha' beta').2.getD (i.1 * size) 0) size = .ok r ∧
      |r - n * (z ⬝ᵥ (M *ᵥ z) / (z ⬝ᵥ z))| ≤
        n * (A * (1 + ω) * ((1 + δ) * ((1 + ζ) * (eLib + γ * (1 + eLib)) + ζ) + 2 * ω + δ)) := by
  obtain ⟨Q, lam, hspec⟩ := Lanczos.exists_spectral (M := M) hM
  have hA0 : 0 < A := lt_of_lt_of_le hθ hθA
  have hu := (unit_pos p).le
  have hU := (unit_pos q).le
  have hε0 : 0 ≤ ε := heD.trans heDε
  have hω0 : 0 ≤ ω := by rw [hω]; positivity
  have hlam : ∀ i, -A ≤ lam i ∧ lam i ≤ A := fun i => by
    obtain ⟨y, hy, e⟩ := spectral_form hspec i
    have k1 := (abs_dot_le y (M *ᵥ y)).trans (mul_le_mul_of_nonneg_left (len_mulVec_le hdot.1 hF y) (len_nonneg y))
    have hlen : len y = 1 := by unfold len; rw [hy, Real.sqrt_one]
    rw [hlen, one_mul, mul_one, e] at k1
    exact abs_le.1 k1
  have hAw : A + (ω * A + δ * (A * (1 + ω))) = A * (1 + ω) * (1 + δ) := by ring
  have hone : Representable p 1 := ⟨1, 0, by simpa using one_lt_pow₀ (by norm_num : (1 : ℤ) < 2) (by omega : p ≠ 0), by simp⟩
  obtain ⟨size, alpha', beta', r, g1, g2, g3, g4, g5⟩ := rounded_sample_operator hp hpe hq hD hE hL hM hε heD heDε hdot hF heps0 heps hepsn hm hmn ho
    hθ hθA hsq hskip hz htol hθt hV hV' hr0 ha hb hω hspec hlam hδ hη heigh rfl hqW hW heLib hlib .trace 1 (κ := fun _ => eLib)
    (φ := eLib * (A * (1 + ω) * (1 + δ))) (F := A * (1 + ω) * (1 + δ)) (fun x h1 h2 => by
      have hx : |x| ≤ A * (1 + ω) * (1 + δ) := by
        rw [← hAw, abs_le]
        constructor <;> linarith
      refine ⟨⟨heLib, heLib1⟩, power_accurate_representable hD hlib hone (Or.inr rfl), trivial, ?_, ?_⟩
      · rw [Real.rpow_one]
        exact mul_le_mul_of_nonneg_left hx heLib
      · rw [Real.rpow_one]
        exact hx) hζ hγ
  refine ⟨size, alpha', beta', r, g1, g2, g3, g4, ?_⟩
  have hdeg : (X : ℝ[X]).natDegree = 1 := natDegree_X
  have g6 := g5 X 0 (by rw [hdeg]; omega) fun x _ _ => by simp [exactFunction]
  have hfun : matrixFunction (fun x => exactFunction .trace (x ^ (1 : ℝ))) Q lam = M := by
    have : (fun x : ℝ => exactFunction .trace (x ^ (1 : ℝ))) = id := by
      funext x
      simp [exactFunction]
    rw [this, hspec.eq]
    rfl
  rw [hfun, hdeg] at g6
  refine g6.trans (le_of_eq ?_)
  congr 1
  simp only [Finset.sum_range_succ, Finset.sum_range_zero, coeff_X]
  norm_num
  ring


/-! ### The operators -/

theorem frobenius_bound_of_abs {M P : Matrix (Fin n) (Fin n) ℝ} (hP : ∀ i j, |M i j| ≤ P i j) {A : ℝ} (hA0 : 0 ≤ A)
    (hA : ∑ i, ∑ j, P i j ^ 2 ≤ A ^ 2) (x : Fin n → ℝ) : len (P *ᵥ fun j => |x j|) ≤ A * len x := by
  have h := frobenius_bound hA0 hA x
  have : (fun i j => |P i j|) = P := by
    funext i j
    exact abs_of_nonneg ((abs_nonneg _).trans (hP i j))
  rwa [this] at h

/-- C107 for dense matrices. -/
theorem rounded_sample (hp : 1 ≤ p) (hpe : p ≤ e) (hq : 1 ≤ q) (hD : Nearest p flD) (hE : Nearest e flE)
    (hL : Nearest q flL) {D : Array ℝ} {M : Matrix (Fin n) (Fin n) ℝ} {rowMajor : Bool} (h : DenseRepr rowMajor D M)
    (hM : M.transpose = M) {ε : ℝ} (hε : normFactor p q n - 1 ≤ ε) {A : ℝ} (hA : ∑ i, ∑ j, M i j ^ 2 ≤ A ^ 2)
    {eps : ℝ} (heps0 : 0 < eps) (heps : eps ≤ 1 / 16) (hepsn : eps * Real.sqrt n ≤ 1 / 4)
    {m : ℕ} (hm : 2 ≤ m) (hmn : m ≤ n) {orth : ℤ} (ho : orth < 0 ∨ (m : ℤ) ≤ orth) {θ : ℝ} (hθ : 0 < θ) (hθA : θ ≤ A)
    (hsq : 4096 * (m ^ 2 * ε * A ^ 2) ≤ θ ^ 2) (hskip : 6000 * (m * ε * A ^ 2) ≤ θ)
    {z : Fin n → ℝ} (hz : z ≠ 0) {tol : ℝ} (htol : 0 < tol) (hθt : θ ≤ flE (tol * flE (Real.sqrt n)))
    {V0 : Array (Array ℝ)} (hV : V0.size = m) (hV' : ∀ row ∈ V0, row.size = n) {r0 alpha beta : Array ℝ} (hr0 : r0.size = n)
    (ha : alpha.size = m) (hb : beta.size = m) {ω : ℝ} (hω : ω = 2688 * (m ^ 3 * ε * A) / θ)
    {Q : Matrix (Fin n) (Fin n) ℝ} {lam : Fin n → ℝ} (hspec : Spectral M Q lam) {lo hi : ℝ} (hlam : ∀ i, lo ≤ lam i ∧ lam i ≤ hi)
    {δ η : ℝ} (hδ : 0 ≤ δ) (hη : 0 ≤ η) {eigh : Nat → Array ℝ → Array ℝ → Array ℝ × Array ℝ} (heigh : StableEigh m δ η eigh)
    {w : ℝ} (hw : w = ω * A + δ * (A * (1 + ω)))
    {qW : ℕ} (hqW : 1 ≤ qW) {flW : ℝ → ℝ} (hW : Nearest qW flW) {eLib : ℝ} (heLib : 0 ≤ eLib) {lib : Libm}
    (hlib : LibmAccurate eLib lib) (api : Functions.Api) (exponent : ℝ) {κ : ℝ → ℝ} {φ F : ℝ}
    (hfun : ∀ x, lo - w ≤ x → x ≤ hi + w → (0 ≤ κ x ∧ κ x < 1) ∧
      |lib.pow x (flD exponent) - x ^ exponent| ≤ κ x * |x ^ exponent| ∧ WellDefined (unitRoundoff p) (κ x) api (x ^ exponent) ∧
      functionError (unitRoundoff p) (unitRoundoff qW) eLib (κ x) api (x ^ exponent) ≤ φ ∧
      |exactFunction api (x ^ exponent)| ≤ F)
    {ζ γ : ℝ} (hζ : ζ = 2 * Real.sqrt m * η + m * η ^ 2) (hγ : γ = (1 + unitRoundoff p) ^ (m + 4) - 1) :
    ∃ size alpha' beta' r, lanczosOrtho flD flE flL (fun x c => Rounded.denseMatvec flD flL D x n n rowMajor c) eps orth n
        (Array.ofFn z) m tol V0 r0 alpha beta = .ok (size, alpha', beta') ∧ 0 < size ∧ size ≤ m ∧
      quadrature flD flW lib api exponent n (Array.ofFn fun i : Fin size => (eigh size alpha' beta').1.getD i.1 0)
        (Array.ofFn fun i : Fin size => (eigh size alpha' beta').2.getD (i.1 * size) 0) size = .ok r ∧
      ∀ (g : ℝ[X]) (μ : ℝ), g.natDegree < 2 * size →
        (∀ x, lo - w ≤ x → x ≤ hi + w → |exactFunction api (x ^ exponent) - g.eval x| ≤ μ) →
        |r - n * (z ⬝ᵥ (matrixFunction (fun x => exactFunction api (x ^ exponent)) Q lam *ᵥ z) / (z ⬝ᵥ z))| ≤
          n * ((1 + ζ) * (φ + γ * (F + φ)) + 2 * μ + F * ζ +
            ∑ k ∈ Finset.range (g.natDegree + 1), |g.coeff k| * (A * (1 + ω)) ^ k * ((k + 1) * ω + ((1 + δ) ^ k - 1))) := by
  have hu := (unit_pos p).le
  have hU := (unit_pos q).le
  have h6 := one_le_G hu hU 6 n
  have h7 : (1 + unitRoundoff p) ^ 6 * (1 + unitRoundoff q) ^ n ≤ normFactor p q n :=
    mul_le_mul_of_nonneg_right (pow_le_pow_right₀ (by linarith) (by norm_num)) (pow_nonneg (by linarith) n)
  exact rounded_sample_operator hp hpe hq hD hE hL hM hε (by linarith) (by linarith) (dense_accurate_dot hp hq hD hL h)
    (frobenius_bound (hθ.le.trans hθA) hA) heps0 heps hepsn hm hmn ho hθ hθA
    hsq hskip hz htol hθt hV hV' hr0 ha hb hω hspec hlam hδ hη heigh hw hqW hW heLib hlib api exponent hfun hζ hγ

/-- C107 for `trace` of dense matrices. -/
theorem rounded_trace_sample (hp : 1 ≤ p) (hpe : p ≤ e) (hq : 1 ≤ q) (hD : Nearest p flD) (hE : Nearest e flE)
    (hL : Nearest q flL) {D : Array ℝ} {M : Matrix (Fin n) (Fin n) ℝ} {rowMajor : Bool} (h : DenseRepr rowMajor D M)
    (hM : M.transpose = M) {ε : ℝ} (hε : normFactor p q n - 1 ≤ ε) {A : ℝ} (hA : ∑ i, ∑ j, M i j ^ 2 ≤ A ^ 2)
    {eps : ℝ} (heps0 : 0 < eps) (heps : eps ≤ 1 / 16) (hepsn : eps * Real.sqrt n ≤ 1 / 4)
    {m : ℕ} (hm : 2 ≤ m) (hmn : m ≤ n) {orth : ℤ} (ho : orth < 0 ∨ (m : ℤ) ≤ orth) {θ : ℝ} (hθ : 0 < θ) (hθA : θ ≤ A)
    (hsq : 4096 * (m ^ 2 * ε * A ^ 2) ≤ θ ^ 2) (hskip : 6000 * (m * ε * A ^ 2) ≤ θ)
    {z : Fin n → ℝ} (hz : z ≠ 0) {tol : ℝ} (htol : 0 < tol) (hθt : θ ≤ flE (tol * flE (Real.sqrt n)))
    {V0 : Array (Array ℝ)} (hV : V0.size = m) (hV' : ∀ row ∈ V0, row.size = n) {r0 alpha beta : Array ℝ} (hr0 : r0.size = n)
    (ha : alpha.size = m) (hb : beta.size = m) {ω : ℝ} (hω : ω = 2688 * (m ^ 3 * ε * A) / θ)
    {δ η : ℝ} (hδ : 0 ≤ δ) (hη : 0 ≤ η) {eigh : Nat → Array ℝ → Array ℝ → Array ℝ × Array ℝ} (heigh : StableEigh m δ η eigh)
    {qW : ℕ} (hqW : 1 ≤ qW) {flW : ℝ → ℝ} (hW : Nearest qW flW) {eLib : ℝ} (heLib : 0 ≤ eLib) (heLib1 : eLib < 1) {lib : Libm}
    (hlib : LibmAccurate eLib lib)
    {ζ γ : ℝ} (hζ : ζ = 2 * Real.sqrt m * η + m * η ^ 2) (hγ : γ = (1 + unitRoundoff p) ^ (m + 4) - 1) :
    ∃ size alpha' beta' r, lanczosOrtho flD flE flL (fun x c => Rounded.denseMatvec flD flL D x n n rowMajor c) eps orth n
        (Array.ofFn z) m tol V0 r0 alpha beta = .ok (size, alpha', beta') ∧ 0 < size ∧ size ≤ m ∧
      quadrature flD flW lib .trace 1 n (Array.ofFn fun i : Fin size => (eigh size alpha' beta').1.getD i.1 0)
        (Array.ofFn fun i : Fin size => (eigh size alpha' beta').2.getD (i.1 * size) 0) size = .ok r ∧
      |r - n * (z ⬝ᵥ (M *ᵥ z) / (z ⬝ᵥ z))| ≤
        n * (A * (1 + ω) * ((1 + δ) * ((1 + ζ) * (eLib + γ * (1 + eLib)) + ζ) + 2 * ω + δ)) := by
  have hu := (unit_pos p).le
  have hU := (unit_pos q).le
  have h6 := one_le_G hu hU 6 n
  have h7 : (1 + unitRoundoff p) ^ 6 * (1 + unitRoundoff q) ^ n ≤ normFactor p q n :=
    mul_le_mul_of_nonneg_right (pow_le_pow_right₀ (by linarith) (by norm_num)) (pow_nonneg (by linarith) n)
  exact rounded_trace_sample_operator hp hpe hq hD hE hL hM hε (by linarith) (by linarith) (dense_accurate_dot hp hq hD hL h)
    (frobenius_bound (hθ.le.trans hθA) hA) heps0 heps hepsn hm hmn ho hθ hθA
    hsq hskip hz htol hθt hV hV' hr0 ha hb hω hδ hη heigh hqW hW heLib heLib1 hlib hζ hγ

/-- C107 for CSR matrices with at most `width` entries in a row. -/
theorem rounded_sample_csr (hp : 1 ≤ p) (hpe : p ≤ e) (hq : 1 ≤ q) (hD : Nearest p flD) (hE : Nearest e flE)
    (hL : Nearest q flL) {data : Array ℝ} {indices ptr : Array ℕ} {M P : Matrix (Fin n) (Fin n) ℝ} (h : CSRRepr data indices ptr M)
    (hP : CSRRepr (data.map abs) indices ptr P) {width : ℕ} (hwidth : ∀ i < n, ptr.getD (i + 1) 0 - ptr.getD i 0 ≤ width)
    (hM : M.transpose = M) {ε : ℝ} (hε : normFactor p q n - 1 ≤ ε)
    (hεw : (1 + unitRoundoff p) ^ 2 * (1 + unitRoundoff q) ^ width - 1 ≤ ε) {A : ℝ} (hA : ∑ i, ∑ j, P i j ^ 2 ≤ A ^ 2)
    {eps : ℝ} (heps0 : 0 < eps) (heps : eps ≤ 1 / 16) (hepsn : eps * Real.sqrt n ≤ 1 / 4)
    {m : ℕ} (hm : 2 ≤ m) (hmn : m ≤ n) {orth : ℤ} (ho : orth < 0 ∨ (m : ℤ) ≤ orth) {θ : ℝ} (hθ : 0 < θ) (hθA : θ ≤ A)
    (hsq : 4096 * (m ^ 2 * ε * A ^ 2) ≤ θ ^ 2) (hskip : 6000 * (m * ε * A ^ 2) ≤ θ)
    {z : Fin n → ℝ} (hz : z ≠ 0) {tol : ℝ} (htol : 0 < tol) (hθt : θ ≤ flE (tol * flE (Real.sqrt n)))
    {V0 : Array (Array ℝ)} (hV : V0.size = m) (hV' : ∀ row ∈ V0, row.size = n) {r0 alpha beta : Array ℝ} (hr0 : r0.size = n)
    (ha : alpha.size = m) (hb : beta.size = m) {ω : ℝ} (hω : ω = 2688 * (m ^ 3 * ε * A) / θ)
    {Q : Matrix (Fin n) (Fin n) ℝ} {lam : Fin n → ℝ} (hspec : Spectral M Q lam) {lo hi : ℝ} (hlam : ∀ i, lo ≤ lam i ∧ lam i ≤ hi)
    {δ η : ℝ} (hδ : 0 ≤ δ) (hη : 0 ≤ η) {eigh : Nat → Array ℝ → Array ℝ → Array ℝ × Array ℝ} (heigh : StableEigh m δ η eigh)
    {w : ℝ} (hw : w = ω * A + δ * (A * (1 + ω)))
    {qW : ℕ} (hqW : 1 ≤ qW) {flW : ℝ → ℝ} (hW : Nearest qW flW) {eLib : ℝ} (heLib : 0 ≤ eLib) {lib : Libm}
    (hlib : LibmAccurate eLib lib) (api : Functions.Api) (exponent : ℝ) {κ : ℝ → ℝ} {φ F : ℝ}
    (hfun : ∀ x, lo - w ≤ x → x ≤ hi + w → (0 ≤ κ x ∧ κ x < 1) ∧
      |lib.pow x (flD exponent) - x ^ exponent| ≤ κ x * |x ^ exponent| ∧ WellDefined (unitRoundoff p) (κ x) api (x ^ exponent) ∧
      functionError (unitRoundoff p) (unitRoundoff qW) eLib (κ x) api (x ^ exponent) ≤ φ ∧
      |exactFunction api (x ^ exponent)| ≤ F)
    {ζ γ : ℝ} (hζ : ζ = 2 * Real.sqrt m * η + m * η ^ 2) (hγ : γ = (1 + unitRoundoff p) ^ (m + 4) - 1) :
    ∃ size alpha' beta' r, lanczosOrtho flD flE flL (fun x c => Rounded.csrMatvec flD flL data indices ptr x n c) eps orth n
        (Array.ofFn z) m tol V0 r0 alpha beta = .ok (size, alpha', beta') ∧ 0 < size ∧ size ≤ m ∧
      quadrature flD flW lib api exponent n (Array.ofFn fun i : Fin size => (eigh size alpha' beta').1.getD i.1 0)
        (Array.ofFn fun i : Fin size => (eigh size alpha' beta').2.getD (i.1 * size) 0) size = .ok r ∧
      ∀ (g : ℝ[X]) (μ : ℝ), g.natDegree < 2 * size →
        (∀ x, lo - w ≤ x → x ≤ hi + w → |exactFunction api (x ^ exponent) - g.eval x| ≤ μ) →
        |r - n * (z ⬝ᵥ (matrixFunction (fun x => exactFunction api (x ^ exponent)) Q lam *ᵥ z) / (z ⬝ᵥ z))| ≤
          n * ((1 + ζ) * (φ + γ * (F + φ)) + 2 * μ + F * ζ +
            ∑ k ∈ Finset.range (g.natDegree + 1), |g.coeff k| * (A * (1 + ω)) ^ k * ((k + 1) * ω + ((1 + δ) ^ k - 1))) := by
  have hu := (unit_pos p).le
  have hU := (unit_pos q).le
  have hdot := csr_accurate_dot hp hq hD hL h hP hwidth
  exact rounded_sample_operator hp hpe hq hD hE hL hM hε (by linarith [one_le_G hu hU 2 width]) hεw hdot
    (frobenius_bound_of_abs hdot.1 (hθ.le.trans hθA) hA) heps0 heps hepsn hm hmn ho hθ hθA
    hsq hskip hz htol hθt hV hV' hr0 ha hb hω hspec hlam hδ hη heigh hw hqW hW heLib hlib api exponent hfun hζ hγ

/-- C107 for CSC matrices with at most `width` entries in a row. -/
theorem rounded_sample_csc (hp : 1 ≤ p) (hpe : p ≤ e) (hq : 1 ≤ q) (hD : Nearest p flD) (hE : Nearest e flE)
    (hL : Nearest q flL) {data : Array ℝ} {indices ptr : Array ℕ} {M P : Matrix (Fin n) (Fin n) ℝ} (h : CSCRepr data indices ptr M)
    (hP : CSCRepr (data.map abs) indices ptr P) {width : ℕ}
    (hwidth : ∀ i < n, ((Finset.range indices.size).filter fun k => indices[k]? = some i).card ≤ width)
    (hM : M.transpose = M) {ε : ℝ} (hε : normFactor p q n - 1 ≤ ε)
    (hεw : (1 + unitRoundoff p) ^ (width + 1) - 1 ≤ ε) {A : ℝ} (hA : ∑ i, ∑ j, P i j ^ 2 ≤ A ^ 2)
    {eps : ℝ} (heps0 : 0 < eps) (heps : eps ≤ 1 / 16) (hepsn : eps * Real.sqrt n ≤ 1 / 4)
    {m : ℕ} (hm : 2 ≤ m) (hmn : m ≤ n) {orth : ℤ} (ho : orth < 0 ∨ (m : ℤ) ≤ orth) {θ : ℝ} (hθ : 0 < θ) (hθA : θ ≤ A)
    (hsq : 4096 * (m ^ 2 * ε * A ^ 2) ≤ θ ^ 2) (hskip : 6000 * (m * ε * A ^ 2) ≤ θ)
    {z : Fin n → ℝ} (hz : z ≠ 0) {tol : ℝ} (htol : 0 < tol) (hθt : θ ≤ flE (tol * flE (Real.sqrt n)))
    {V0 : Array (Array ℝ)} (hV : V0.size = m) (hV' : ∀ row ∈ V0, row.size = n) {r0 alpha beta : Array ℝ} (hr0 : r0.size = n)
    (ha : alpha.size = m) (hb : beta.size = m) {ω : ℝ} (hω : ω = 2688 * (m ^ 3 * ε * A) / θ)
    {Q : Matrix (Fin n) (Fin n) ℝ} {lam : Fin n → ℝ} (hspec : Spectral M Q lam) {lo hi : ℝ} (hlam : ∀ i, lo ≤ lam i ∧ lam i ≤ hi)
    {δ η : ℝ} (hδ : 0 ≤ δ) (hη : 0 ≤ η) {eigh : Nat → Array ℝ → Array ℝ → Array ℝ × Array ℝ} (heigh : StableEigh m δ η eigh)
    {w : ℝ} (hw : w = ω * A + δ * (A * (1 + ω)))
    {qW : ℕ} (hqW : 1 ≤ qW) {flW : ℝ → ℝ} (hW : Nearest qW flW) {eLib : ℝ} (heLib : 0 ≤ eLib) {lib : Libm}
    (hlib : LibmAccurate eLib lib) (api : Functions.Api) (exponent : ℝ) {κ : ℝ → ℝ} {φ F : ℝ}
    (hfun : ∀ x, lo - w ≤ x → x ≤ hi + w → (0 ≤ κ x ∧ κ x < 1) ∧
      |lib.pow x (flD exponent) - x ^ exponent| ≤ κ x * |x ^ exponent| ∧ WellDefined (unitRoundoff p) (κ x) api (x ^ exponent) ∧
      functionError (unitRoundoff p) (unitRoundoff qW) eLib (κ x) api (x ^ exponent) ≤ φ ∧
      |exactFunction api (x ^ exponent)| ≤ F)
    {ζ γ : ℝ} (hζ : ζ = 2 * Real.sqrt m * η + m * η ^ 2) (hγ : γ = (1 + unitRoundoff p) ^ (m + 4) - 1) :
    ∃ size alpha' beta' r, lanczosOrtho flD flE flL (fun x c => Rounded.cscMatvec flD data indices ptr x n n c) eps orth n
        (Array.ofFn z) m tol V0 r0 alpha beta = .ok (size, alpha', beta') ∧ 0 < size ∧ size ≤ m ∧
      quadrature flD flW lib api exponent n (Array.ofFn fun i : Fin size => (eigh size alpha' beta').1.getD i.1 0)
        (Array.ofFn fun i : Fin size => (eigh size alpha' beta').2.getD (i.1 * size) 0) size = .ok r ∧
      ∀ (g : ℝ[X]) (μ : ℝ), g.natDegree < 2 * size →
        (∀ x, lo - w ≤ x → x ≤ hi + w → |exactFunction api (x ^ exponent) - g.eval x| ≤ μ) →
        |r - n * (z ⬝ᵥ (matrixFunction (fun x => exactFunction api (x ^ exponent)) Q lam *ᵥ z) / (z ⬝ᵥ z))| ≤
          n * ((1 + ζ) * (φ + γ * (F + φ)) + 2 * μ + F * ζ +
            ∑ k ∈ Finset.range (g.natDegree + 1), |g.coeff k| * (A * (1 + ω)) ^ k * ((k + 1) * ω + ((1 + δ) ^ k - 1))) := by
  have hu := (unit_pos p).le
  have hU := (unit_pos q).le
  have hdot := csc_accurate_dot hp hD h hP hwidth
  exact rounded_sample_operator hp hpe hq hD hE hL hM hε (by linarith [one_le_pow₀ (by linarith : (1 : ℝ) ≤ 1 + unitRoundoff p) (n := width + 1)]) hεw hdot
    (frobenius_bound_of_abs hdot.1 (hθ.le.trans hθA) hA) heps0 heps hepsn hm hmn ho hθ hθA
    hsq hskip hz htol hθt hV hV' hr0 ha hb hω hspec hlam hδ hη heigh hw hqW hW heLib hlib api exponent hfun hζ hγ

/-- C107 for the dense operators `A + t B`. -/
theorem rounded_sample_affine (hp : 1 ≤ p) (hpe : p ≤ e) (hq : 1 ≤ q) (hD : Nearest p flD) (hE : Nearest e flE)
    (hL : Nearest q flL) {D E : Array ℝ} {M N : Matrix (Fin n) (Fin n) ℝ} {rowMajor rowMajorB : Bool} (h : DenseRepr rowMajor D M)
    (hN : DenseRepr rowMajorB E N) (t : ℝ)
    (hM : (M + t • N).transpose = M + t • N) {ε : ℝ} (hε : normFactor p q n - 1 ≤ ε)
    (hεw : (1 + unitRoundoff p) ^ 8 * (1 + unitRoundoff q) ^ n - 1 ≤ ε) {A : ℝ}
    (hA : ∑ i, ∑ j, (|M i j| + |t| * |N i j|) ^ 2 ≤ A ^ 2)
    {eps : ℝ} (heps0 : 0 < eps) (heps : eps ≤ 1 / 16) (hepsn : eps * Real.sqrt n ≤ 1 / 4)
    {m : ℕ} (hm : 2 ≤ m) (hmn : m ≤ n) {orth : ℤ} (ho : orth < 0 ∨ (m : ℤ) ≤ orth) {θ : ℝ} (hθ : 0 < θ) (hθA : θ ≤ A)
    (hsq : 4096 * (m ^ 2 * ε * A ^ 2) ≤ θ ^ 2) (hskip : 6000 * (m * ε * A ^ 2) ≤ θ)
    {z : Fin n → ℝ} (hz : z ≠ 0) {tol : ℝ} (htol : 0 < tol) (hθt : θ ≤ flE (tol * flE (Real.sqrt n)))
    {V0 : Array (Array ℝ)} (hV : V0.size = m) (hV' : ∀ row ∈ V0, row.size = n) {r0 alpha beta : Array ℝ} (hr0 : r0.size = n)
    (ha : alpha.size = m) (hb : beta.size = m) {ω : ℝ} (hω : ω = 2688 * (m ^ 3 * ε * A) / θ)
    {Q : Matrix (Fin n) (Fin n) ℝ} {lam : Fin n → ℝ} (hspec : Spectral (M + t • N) Q lam) {lo hi : ℝ} (hlam : ∀ i, lo ≤ lam i ∧ lam i ≤ hi)
    {δ η : ℝ} (hδ : 0 ≤ δ) (hη : 0 ≤ η) {eigh : Nat → Array ℝ → Array ℝ → Array ℝ × Array ℝ} (heigh : StableEigh m δ η eigh)
    {w : ℝ} (hw : w = ω * A + δ * (A * (1 + ω)))
    {qW : ℕ} (hqW : 1 ≤ qW) {flW : ℝ → ℝ} (hW : Nearest qW flW) {eLib : ℝ} (heLib : 0 ≤ eLib) {lib : Libm}
    (hlib : LibmAccurate eLib lib) (api : Functions.Api) (exponent : ℝ) {κ : ℝ → ℝ} {φ F : ℝ}
    (hfun : ∀ x, lo - w ≤ x → x ≤ hi + w → (0 ≤ κ x ∧ κ x < 1) ∧
      |lib.pow x (flD exponent) - x ^ exponent| ≤ κ x * |x ^ exponent| ∧ WellDefined (unitRoundoff p) (κ x) api (x ^ exponent) ∧
      functionError (unitRoundoff p) (unitRoundoff qW) eLib (κ x) api (x ^ exponent) ≤ φ ∧
      |exactFunction api (x ^ exponent)| ≤ F)
    {ζ γ : ℝ} (hζ : ζ = 2 * Real.sqrt m * η + m * η ^ 2) (hγ : γ = (1 + unitRoundoff p) ^ (m + 4) - 1) :
    ∃ size alpha' beta' r, lanczosOrtho flD flE flL (fun x c => Rounded.denseAffineDot flD flL D rowMajor (some (E, rowMajorB)) t n n x c) eps orth n
        (Array.ofFn z) m tol V0 r0 alpha beta = .ok (size, alpha', beta') ∧ 0 < size ∧ size ≤ m ∧
      quadrature flD flW lib api exponent n (Array.ofFn fun i : Fin size => (eigh size alpha' beta').1.getD i.1 0)
        (Array.ofFn fun i : Fin size => (eigh size alpha' beta').2.getD (i.1 * size) 0) size = .ok r ∧
      ∀ (g : ℝ[X]) (μ : ℝ), g.natDegree < 2 * size →
        (∀ x, lo - w ≤ x → x ≤ hi + w → |exactFunction api (x ^ exponent) - g.eval x| ≤ μ) →
        |r - n * (z ⬝ᵥ (matrixFunction (fun x => exactFunction api (x ^ exponent)) Q lam *ᵥ z) / (z ⬝ᵥ z))| ≤
          n * ((1 + ζ) * (φ + γ * (F + φ)) + 2 * μ + F * ζ +
            ∑ k ∈ Finset.range (g.natDegree + 1), |g.coeff k| * (A * (1 + ω)) ^ k * ((k + 1) * ω + ((1 + δ) ^ k - 1))) := by
  have hu := (unit_pos p).le
  have hU := (unit_pos q).le
  have hdot := affine_accurate_dot hp hq hD hL h hN t
  exact rounded_sample_operator hp hpe hq hD hE hL hM hε (by linarith [one_le_G hu hU 8 n]) hεw hdot
    (frobenius_bound_of_abs hdot.1 (hθ.le.trans hθA) hA) heps0 heps hepsn hm hmn ho hθ hθA
    hsq hskip hz htol hθt hV hV' hr0 ha hb hω hspec hlam hδ hη heigh hw hqW hW heLib hlib api exponent hfun hζ hγ

/-- A symmetric matrix in CSR (and CSC) format with a negative entry that meets the conditions on the storage. -/
example : CSRRepr (#[3, -1, -1, 3] : Array ℝ) #[0, 1, 0, 1] #[0, 2, 4] !![3, -1; -1, 3] ∧
    CSRRepr ((#[3, -1, -1, 3] : Array ℝ).map abs) #[0, 1, 0, 1] #[0, 2, 4] !![3, 1; 1, 3] ∧
    CSCRepr (#[3, -1, -1, 3] : Array ℝ) #[0, 1, 0, 1] #[0, 2, 4] !![3, -1; -1, 3] ∧
    (∀ i < 2, (#[0, 2, 4] : Array ℕ).getD (i + 1) 0 - (#[0, 2, 4] : Array ℕ).getD i 0 ≤ 2) ∧
    ∑ i, ∑ j, (!![3, 1; 1, 3] : Matrix (Fin 2) (Fin 2) ℝ) i j ^ 2 ≤ 5 ^ 2 := by
  have h1 : ∀ a b c d : ℝ, CSRRepr (#[a, b, c, d] : Array ℝ) #[0, 1, 0, 1] #[0, 2, 4] !![a, b; c, d] := fun a b c d => by
    refine ⟨rfl, rfl, fun i => ?_⟩
    fin_cases i
    · refine ⟨0, 2, rfl, rfl, by omega, by simp, fun k h1 h2 => ?_, fun j => ?_⟩
      · interval_cases k
        · exact ⟨0, by omega, rfl⟩
        · exact ⟨1, by omega, rfl⟩
      · fin_cases j <;> simp [Finset.sum_Ico_succ_top, Finset.sum_range_succ]
    · refine ⟨2, 4, rfl, rfl, by omega, by simp, fun k h1 h2 => ?_, fun j => ?_⟩
      · interval_cases k
        · exact ⟨0, by omega, rfl⟩
        · exact ⟨1, by omega, rfl⟩
      · fin_cases j <;> simp [Finset.sum_Ico_succ_top, Finset.sum_range_succ]
  refine ⟨h1 _ _ _ _, ?_, ?_, fun i hi => ?_, ?_⟩
  · have := h1 3 1 1 3
    simpa using this
  · unfold CSCRepr
    have : (!![3, -1; -1, 3] : Matrix (Fin 2) (Fin 2) ℝ)ᵀ = !![3, -1; -1, 3] := by
      ext i j
      fin_cases i <;> fin_cases j <;> rfl
    rw [this]
    exact h1 _ _ _ _
  · interval_cases i <;> simp
  · simp [Fin.sum_univ_two]
    norm_num

/-- With the errors of double precision, a matrix of norm at most four and three steps the bound for `trace` is below `10⁻⁴`. -/
example {ω δ ζ γ eLib : ℝ} (h : ω = 2688 * ((3 : ℝ) ^ 3 * (8 / 2 ^ 53) * 4) / (1 / 16)) (h1 : 0 ≤ δ) (h2 : δ ≤ 1 / 10 ^ 12) (h3 : 0 ≤ ζ)
    (h4 : ζ ≤ 1 / 10 ^ 12) (h5 : 0 ≤ γ) (h6 : γ ≤ 1 / 10 ^ 12) (h7 : 0 ≤ eLib) (h8 : eLib ≤ 1 / 10 ^ 12) :
    4 * (1 + ω) * ((1 + δ) * ((1 + ζ) * (eLib + γ * (1 + eLib)) + ζ) + 2 * ω + δ) ≤ 1 / 10 ^ 4 := by
  have h0 : 0 ≤ ω := by rw [h]; norm_num
  have h9 : ω ≤ 1 / 10 ^ 8 := by rw [h]; norm_num
  calc _ ≤ 4 * (1 + 1 / 10 ^ 8 : ℝ) * ((1 + 1 / 10 ^ 12) * ((1 + 1 / 10 ^ 12) * (1 / 10 ^ 12 + 1 / 10 ^ 12 * (1 + 1 / 10 ^ 12)) +
        1 / 10 ^ 12) + 2 * (1 / 10 ^ 8) + 1 / 10 ^ 12) := by gcongr
    _ ≤ _ := by norm_num

/-- LAPACK without rounding is stable, with the errors zero; so is every routine with larger errors allowed. -/
theorem stableEigh_satisfiable {m : ℕ} {δ η : ℝ} (hδ : 0 ≤ δ) (hη : 0 ≤ η) : ∃ eigh, StableEigh m δ η eigh := by
  obtain ⟨eigh, h⟩ := Imate.Lanczos.exists_eigh
  refine ⟨eigh, fun k alpha beta hk _ h1 h2 => ⟨0, fun i j => (eigh k alpha beta).2.getD (i.1 + j.1 * k) 0, ?_, fun B hB x => ?_,
    fun j => ?_⟩⟩
  · rw [add_zero]
    exact (h k alpha beta hk h1 h2).2.2
  · have h3 := (len_nonneg _).trans (hB x)
    rw [zero_mulVec, mul_assoc]
    have : len (0 : Fin k → ℝ) = 0 := by simp [len]
    rw [this]
    exact mul_nonneg hδ h3
  · simpa using hη

end Imate.Props
