import Verif.Props.RoundedOutliers

/-!
# C110: the estimate of SLQ as it is made by default, from the matrix to the reported trace
-/

namespace Imate.Props

open Matrix Spec Rounded Polynomial Convergence Estimator Imate.Accuracy Imate.RoundedConvergence
open Imate.Lanczos (signVector)

variable {p n s k₀ e q : ℕ} {flD flE flL : ℝ → ℝ}

/-- C110 for `trace` (SLQ of the identity function), as it runs by default: samples with all their roundings, the stopping rule and
outliers removed. -/
theorem default_trace_estimate (hp : 1 ≤ p) (hpe : p ≤ e) (hq : 1 ≤ q) (hD : Nearest p flD) (hE : Nearest e flE)
    (hL : Nearest q flL) {M P : Matrix (Fin n) (Fin n) ℝ} (hM : M.transpose = M) {ε : ℝ} (hε : normFactor p q n - 1 ≤ ε)
    {eDot : ℝ} (heD : 0 ≤ eDot) (heDε : eDot ≤ ε) {dot : Array ℝ → Array ℝ → Except Fault (Array ℝ)}
    (hdot : AccurateDot dot M P eDot) {A : ℝ} (hF : ∀ x : Fin n → ℝ, len (P *ᵥ fun j => |x j|) ≤ A * len x)
    {eps : ℝ} (heps0 : 0 < eps) (heps : eps ≤ 1 / 16) (hepsn : eps * Real.sqrt n ≤ 1 / 4)
    {m : ℕ} (hm : 2 ≤ m) (hmn : m ≤ n) {orth : ℤ} (ho : orth < 0 ∨ (m : ℤ) ≤ orth) {θ : ℝ} (hθ : 0 < θ) (hθA : θ ≤ A)
    (hsq : 4096 * (m ^ 2 * ε * A ^ 2) ≤ θ ^ 2) (hskip : 6000 * (m * ε * A ^ 2) ≤ θ)
    {tol : ℝ} (htol : 0 < tol) (hθt : θ ≤ flE (tol * flE (Real.sqrt n))) {ω : ℝ} (hω : ω = 2688 * (m ^ 3 * ε * A) / θ)
    {δ η : ℝ} (hδ : 0 ≤ δ) (hη : 0 ≤ η) {eigh : Nat → Array ℝ → Array ℝ → Array ℝ × Array ℝ} (heigh : StableEigh m δ η eigh)
    {qW : ℕ} (hqW : 1 ≤ qW) {flW : ℝ → ℝ} (hW : Nearest qW flW) {eLib : ℝ} (heLib : 0 ≤ eLib) (heLib1 : eLib < 1) {lib : Libm}
    (hlib : LibmAccurate eLib lib)
    {ζ γ : ℝ} (hζ : ζ = 2 * Real.sqrt m * η + m * η ^ 2) (hγ : γ = (1 + unitRoundoff p) ^ (m + 4) - 1)
    {B : ℝ} (hB : B = n * (A * (1 + ω) * ((1 + δ) * ((1 + ζ) * (eLib + γ * (1 + eLib)) + ζ) + 2 * ω + δ)))
    (hk₀ : 2 ≤ k₀) (hs : k₀ ≤ s) (hsp : s ≤ 2 ^ p) (order : Equiv.Perm (Fin s)) {zscore outlierZ : ℝ} (hz : 0 ≤ zscore)
    (hgap : 1 < gap p s outlierZ) {trace std : (Fin s → Fin n → Bool) → ℝ}
    (htrace : ∀ w, ∃ (cfg : Config (Fl flD)) (ts : List ℕ) (st : State (Fl flD)) (inq : Inquiry (Fl flD)) (xs : List ℝ),
      RoundedStops cfg (SlqValue flD flE flL flW lib dot eigh eps orth m tol .trace 1) k₀ w ∧
      run cfg (init cfg) ts = some st ∧ Finished cfg st ∧ (st.processed <+: List.ofFn fun i => (order i).1) ∧ st.inqs[0]? = some inq ∧
      (st.processed.take inq.numSamplesUsed).map (fun i => cfg.value i 0) = xs.map Fl.fin ∧ std w = sampleStd xs ∧
      (averaged cfg (Fl.fin zscore) (Fl.fin outlierZ) st 0).trace = Fl.fin (trace w)) {d : ℝ} (hd : 0 < d)
    [DecidablePred fun w => d + (B + ((1 + unitRoundoff p) ^ (s + 1) - 1) * (n * A + B) +
      gap p s outlierZ / (gap p s outlierZ ^ 2 - 1) * std w) ≤ |trace w - M.trace|] :
    probability (fun w => d + (B + ((1 + unitRoundoff p) ^ (s + 1) - 1) * (n * A + B) +
      gap p s outlierZ / (gap p s outlierZ ^ 2 - 1) * std w) ≤ |trace w - M.trace|) ≤
      2 * offDiagonal M / (k₀ * d ^ 2) := by
  have hn : 0 < n := by omega
  have hε0 : 0 ≤ ε := heD.trans heDε
  have hA0 : 0 < A := lt_of_lt_of_le hθ hθA
  have hω0 : 0 ≤ ω := by rw [hω]; positivity
  have hu := (unit_pos p).le
  have hζ0 : 0 ≤ ζ := by rw [hζ]; positivity
  have hγ0 : 0 ≤ γ := by
    have := one_le_pow₀ (by linarith : (1 : ℝ) ≤ 1 + unitRoundoff p) (n := m + 4)
    rw [hγ]; linarith
  have hB0 : 0 ≤ B := by rw [hB]; positivity
  refine rounded_stopped_outliers hp hD hk₀ hs hsp hM hB0 (fun b v hv => ?_) (fun b => ?_) order hz hgap htrace hd
  · obtain ⟨V0, r0, alpha, beta, hV, hV', hr0, ha, hb, hv⟩ := hv
    obtain ⟨size, alpha', beta', r, g1, g2, g3, g4, g5⟩ := rounded_trace_sample_operator hp hpe hq hD hE hL hM hε heD heDε hdot hF
      heps0 heps hepsn hm hmn ho hθ hθA hsq hskip (signVector_ne_zero b hn) htol hθt hV hV' hr0 ha hb hω hδ hη heigh hqW hW heLib
      heLib1 hlib hζ hγ
    have : v = r := by
      unfold slqSample at hv
      rw [g1] at hv
      have h2 := hv.symm.trans g4
      injection h2
    rw [this, hB]
    rwa [normalized_sign b hn] at g5
  · have k1 := (abs_dot_le (signVector b) (M *ᵥ signVector b)).trans
      (mul_le_mul_of_nonneg_left (len_mulVec_le hdot.1 hF (signVector b)) (len_nonneg _))
    refine k1.trans (le_of_eq ?_)
    rw [← signVector_sq b, ← len_sq]
    ring

/-- C110 for every function of the API, as it runs by default: `B` bounds the error of a sample for every number of steps it may take, with the best
polynomial of degree below twice that number. -/
theorem default_function_estimate (hp : 1 ≤ p) (hpe : p ≤ e) (hq : 1 ≤ q) (hD : Nearest p flD) (hE : Nearest e flE)
    (hL : Nearest q flL) {M P : Matrix (Fin n) (Fin n) ℝ} (hM : M.transpose = M) {ε : ℝ} (hε : normFactor p q n - 1 ≤ ε)
    {eDot : ℝ} (heD : 0 ≤ eDot) (heDε : eDot ≤ ε) {dot : Array ℝ → Array ℝ → Except Fault (Array ℝ)}
    (hdot : AccurateDot dot M P eDot) {A : ℝ} (hF : ∀ x : Fin n → ℝ, len (P *ᵥ fun j => |x j|) ≤ A * len x)
    {eps : ℝ} (heps0 : 0 < eps) (heps : eps ≤ 1 / 16) (hepsn : eps * Real.sqrt n ≤ 1 / 4)
    {m : ℕ} (hm : 2 ≤ m) (hmn : m ≤ n) {orth : ℤ} (ho : orth < 0 ∨ (m : ℤ) ≤ orth) {θ : ℝ} (hθ : 0 < θ) (hθA : θ ≤ A)
    (hsq : 4096 * (m ^ 2 * ε * A ^ 2) ≤ θ ^ 2) (hskip : 6000 * (m * ε * A ^ 2) ≤ θ)
    {tol : ℝ} (htol : 0 < tol) (hθt : θ ≤ flE (tol * flE (Real.sqrt n))) {ω : ℝ} (hω : ω = 2688 * (m ^ 3 * ε * A) / θ)
    {Q : Matrix (Fin n) (Fin n) ℝ} {lam : Fin n → ℝ} (hspec : Spectral M Q lam) {lo hi : ℝ} (hlam : ∀ i, lo ≤ lam i ∧ lam i ≤ hi)
    {δ η : ℝ} (hδ : 0 ≤ δ) (hη : 0 ≤ η) {eigh : Nat → Array ℝ → Array ℝ → Array ℝ × Array ℝ} (heigh : StableEigh m δ η eigh)
    {ρ : ℝ} (hρ : ρ = ω * A + δ * (A * (1 + ω)))
    {qW : ℕ} (hqW : 1 ≤ qW) {flW : ℝ → ℝ} (hW : Nearest qW flW) {eLib : ℝ} (heLib : 0 ≤ eLib) {lib : Libm}
    (hlib : LibmAccurate eLib lib) (api : Functions.Api) (exponent : ℝ) {κ : ℝ → ℝ} {φ F : ℝ}
    (hfun : ∀ x, lo - ρ ≤ x → x ≤ hi + ρ → (0 ≤ κ x ∧ κ x < 1) ∧
      |lib.pow x (flD exponent) - x ^ exponent| ≤ κ x * |x ^ exponent| ∧ WellDefined (unitRoundoff p) (κ x) api (x ^ exponent) ∧
      functionError (unitRoundoff p) (unitRoundoff qW) eLib (κ x) api (x ^ exponent) ≤ φ ∧
      |exactFunction api (x ^ exponent)| ≤ F)
    {ζ γ : ℝ} (hζ : ζ = 2 * Real.sqrt m * η + m * η ^ 2) (hγ : γ = (1 + unitRoundoff p) ^ (m + 4) - 1)
    {B : ℝ} (hB : ∀ k, 0 < k → k ≤ m → ∃ (g : ℝ[X]) (μ : ℝ), g.natDegree < 2 * k ∧
      (∀ x, lo - ρ ≤ x → x ≤ hi + ρ → |exactFunction api (x ^ exponent) - g.eval x| ≤ μ) ∧
      n * ((1 + ζ) * (φ + γ * (F + φ)) + 2 * μ + F * ζ +
        ∑ k ∈ Finset.range (g.natDegree + 1), |g.coeff k| * (A * (1 + ω)) ^ k * ((k + 1) * ω + ((1 + δ) ^ k - 1))) ≤ B)
    (hB0 : 0 ≤ B) (hk₀ : 2 ≤ k₀) (hs : k₀ ≤ s) (hsp : s ≤ 2 ^ p) (order : Equiv.Perm (Fin s)) {zscore outlierZ : ℝ} (hz : 0 ≤ zscore)
    (hgap : 1 < gap p s outlierZ) {trace std : (Fin s → Fin n → Bool) → ℝ}
    (htrace : ∀ w, ∃ (cfg : Config (Fl flD)) (ts : List ℕ) (st : State (Fl flD)) (inq : Inquiry (Fl flD)) (xs : List ℝ),
      RoundedStops cfg (SlqValue flD flE flL flW lib dot eigh eps orth m tol api exponent) k₀ w ∧
      run cfg (init cfg) ts = some st ∧ Finished cfg st ∧ (st.processed <+: List.ofFn fun i => (order i).1) ∧ st.inqs[0]? = some inq ∧
      (st.processed.take inq.numSamplesUsed).map (fun i => cfg.value i 0) = xs.map Fl.fin ∧ std w = sampleStd xs ∧
      (averaged cfg (Fl.fin zscore) (Fl.fin outlierZ) st 0).trace = Fl.fin (trace w)) {d : ℝ} (hd : 0 < d)
    [DecidablePred fun w => d + (B + ((1 + unitRoundoff p) ^ (s + 1) - 1) * (n * F + B) +
      gap p s outlierZ / (gap p s outlierZ ^ 2 - 1) * std w) ≤
      |trace w - ∑ i, exactFunction api (lam i ^ exponent)|] :
    probability (fun w => d + (B + ((1 + unitRoundoff p) ^ (s + 1) - 1) * (n * F + B) +
      gap p s outlierZ / (gap p s outlierZ ^ 2 - 1) * std w) ≤
        |trace w - ∑ i, exactFunction api (lam i ^ exponent)|) ≤
      2 * offDiagonal (matrixFunction (fun x => exactFunction api (x ^ exponent)) Q lam) / (k₀ * d ^ 2) := by
  have hn : 0 < n := by omega
  have hε0 : 0 ≤ ε := heD.trans heDε
  have hA0 : 0 < A := lt_of_lt_of_le hθ hθA
  have hω0 : 0 ≤ ω := by rw [hω]; positivity
  have hρ0 : 0 ≤ ρ := by rw [hρ]; positivity
  simp only [← trace_matrixFunction hspec fun x => exactFunction api (x ^ exponent)] at *
  refine rounded_stopped_outliers hp hD hk₀ hs hsp (matrixFunction_symm _) hB0 (fun b v hv => ?_) (fun b => ?_) order hz hgap htrace hd
  · obtain ⟨V0, r0, alpha, beta, hV, hV', hr0, ha, hb, hv⟩ := hv
    obtain ⟨size, alpha', beta', r, g1, g2, g3, g4, g5⟩ := rounded_sample_operator hp hpe hq hD hE hL hM hε heD heDε hdot hF
      heps0 heps hepsn hm hmn ho hθ hθA hsq hskip (signVector_ne_zero b hn) htol hθt hV hV' hr0 ha hb hω hspec hlam hδ hη heigh hρ
      hqW hW heLib hlib api exponent hfun hζ hγ
    have : v = r := by
      unfold slqSample at hv
      rw [g1] at hv
      have h2 := hv.symm.trans g4
      injection h2
    obtain ⟨g, μ, k1, k2, k3⟩ := hB size g2 g3
    have := g5 g μ k1 k2
    rw [normalized_sign b hn] at this
    subst v
    exact this.trans k3
  · rw [matrixFunction_form, ← signVector_sq b, ← hspec.weights_sum (signVector b), mul_comm, ← Gauss.wsum_const (weights Q _) lam]
    have hl : ∀ i, |exactFunction api (lam i ^ exponent)| ≤ F := fun i =>
      (hfun (lam i) (by linarith [(hlam i).1]) (by linarith [(hlam i).2])).2.2.2.2
    rw [abs_le]
    constructor
    · have := Gauss.wsum_mono (weights_nonneg (Q := Q) (signVector b)) (x := lam) (f := fun _ => -F)
        (g := fun x => exactFunction api (x ^ exponent)) fun i => (abs_le.1 (hl i)).1
      rw [Gauss.wsum_const] at this ⊢
      linarith
    · exact Gauss.wsum_mono (weights_nonneg _) fun i => (abs_le.1 (hl i)).2

/-- Every vector has a value, so that there are runs as the two theorems ask for (see the example in `RoundedOutliers`). -/
theorem slq_value_exists (hp : 1 ≤ p) (hpe : p ≤ e) (hq : 1 ≤ q) (hD : Nearest p flD) (hE : Nearest e flE)
    (hL : Nearest q flL) {M P : Matrix (Fin n) (Fin n) ℝ} (hM : M.transpose = M) {ε : ℝ} (hε : normFactor p q n - 1 ≤ ε)
    {eDot : ℝ} (heD : 0 ≤ eDot) (heDε : eDot ≤ ε) {dot : Array ℝ → Array ℝ → Except Fault (Array ℝ)}
    (hdot : AccurateDot dot M P eDot) {A : ℝ} (hF : ∀ x : Fin n → ℝ, len (P *ᵥ fun j => |x j|) ≤ A * len x)
    {eps : ℝ} (heps0 : 0 < eps) (heps : eps ≤ 1 / 16) (hepsn : eps * Real.sqrt n ≤ 1 / 4)
    {m : ℕ} (hm : 2 ≤ m) (hmn : m ≤ n) {orth : ℤ} (ho : orth < 0 ∨ (m : ℤ) ≤ orth) {θ : ℝ} (hθ : 0 < θ) (hθA : θ ≤ A)
    (hsq : 4096 * (m ^ 2 * ε * A ^ 2) ≤ θ ^ 2) (hskip : 6000 * (m * ε * A ^ 2) ≤ θ)
    {tol : ℝ} (htol : 0 < tol) (hθt : θ ≤ flE (tol * flE (Real.sqrt n))) {ω : ℝ} (hω : ω = 2688 * (m ^ 3 * ε * A) / θ)
    {δ η : ℝ} (hδ : 0 ≤ δ) (hη : 0 ≤ η) {eigh : Nat → Array ℝ → Array ℝ → Array ℝ × Array ℝ} (heigh : StableEigh m δ η eigh)
    {qW : ℕ} (hqW : 1 ≤ qW) {flW : ℝ → ℝ} (hW : Nearest qW flW) {eLib : ℝ} (heLib : 0 ≤ eLib) (heLib1 : eLib < 1) {lib : Libm}
    (hlib : LibmAccurate eLib lib)
    {ζ γ : ℝ} (hζ : ζ = 2 * Real.sqrt m * η + m * η ^ 2) (hγ : γ = (1 + unitRoundoff p) ^ (m + 4) - 1) (b : Fin n → Bool) :
    ∃ v, SlqValue flD flE flL flW lib dot eigh eps orth m tol .trace 1 b v := by
  have hn : 0 < n := by omega
  obtain ⟨size, alpha', beta', r, g1, g2, g3, g4, g5⟩ := rounded_trace_sample_operator hp hpe hq hD hE hL hM hε heD heDε hdot hF
    heps0 heps hepsn hm hmn ho hθ hθA hsq hskip (signVector_ne_zero b hn) htol hθt (V0 := Array.replicate m (Array.replicate n 0))
    (by simp) (fun row hrow => by rw [Array.eq_of_mem_replicate hrow]; simp) (r0 := Array.replicate n 0) (by simp)
    (alpha := Array.replicate m 0) (beta := Array.replicate m 0) (by simp) (by simp) hω hδ hη heigh hqW hW heLib heLib1 hlib hζ hγ
  refine ⟨r, Array.replicate m (Array.replicate n 0), Array.replicate n 0, Array.replicate m 0, Array.replicate m 0, by simp,
    fun row hrow => by rw [Array.eq_of_mem_replicate hrow]; simp, by simp, by simp, by simp, ?_⟩
  unfold slqSample
  rw [g1]
  exact g4

end Imate.Props
