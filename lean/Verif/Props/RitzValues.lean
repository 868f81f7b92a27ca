import Verif.Props.OrthoLanczos
import Verif.Lemmas.RitzValues
import Verif.Spec.Lapack

/-!
# C104: the nodes of the quadrature stay in the range of the spectrum, in floating-point arithmetic
-/

namespace Imate.Props

open Matrix Spec Rounded

variable {n : ℕ} {p e q : ℕ} {flD flE flL : ℝ → ℝ}

/-- C104: with full reorthogonalization and rounding, all eigenvalues of the tridiagonal matrix lie between the smallest and the
largest eigenvalue of the matrix, up to `2688 m³ ε A² / θ`, as long as all `beta` but the last are at least `θ`. -/
theorem rounded_ritz_values (hp : 1 ≤ p) (hpe : p ≤ e) (hq : 1 ≤ q) (hD : Nearest p flD) (hE : Nearest e flE)
    (hL : Nearest q flL) {M P : Matrix (Fin n) (Fin n) ℝ} (hM : M.transpose = M) {ε : ℝ} (hε : normFactor p q n - 1 ≤ ε)
    {eDot : ℝ} (heD : 0 ≤ eDot) (heDε : eDot ≤ ε) {dot : Array ℝ → Array ℝ → Except Fault (Array ℝ)}
    (hdot : AccurateDot dot M P eDot) {A : ℝ} (hA : ∀ x : Fin n → ℝ, len (P *ᵥ fun j => |x j|) ≤ A * len x)
    {eps : ℝ} (heps0 : 0 < eps) (heps : eps ≤ 1 / 16) (hepsn : eps * Real.sqrt n ≤ 1 / 4)
    {m : ℕ} (hm : 2 ≤ m) (hmn : m ≤ n) {orth : ℤ} (ho : orth < 0 ∨ (m : ℤ) ≤ orth) {θ : ℝ} (hθ : 0 < θ) (hθA : θ ≤ A)
    (hsq : 4096 * (m ^ 2 * ε * A ^ 2) ≤ θ ^ 2) (hskip : 6000 * (m * ε * A ^ 2) ≤ θ)
    {z : Fin n → ℝ} (hz : z ≠ 0) {tol : ℝ} (htol : 0 < tol) {V0 : Array (Array ℝ)} (hV : V0.size = m)
    (hV' : ∀ row ∈ V0, row.size = n) {r0 alpha beta : Array ℝ} (hr0 : r0.size = n) (ha : alpha.size = m)
    (hb : beta.size = m) {lo hi : ℝ}
    (hlo : ∀ x : Fin n → ℝ, lo * (x ⬝ᵥ x) ≤ x ⬝ᵥ (M *ᵥ x)) (hhi : ∀ x : Fin n → ℝ, x ⬝ᵥ (M *ᵥ x) ≤ hi * (x ⬝ᵥ x)) :
    ∃ size alpha' beta', lanczosOrtho flD flE flL dot eps orth n (Array.ofFn z) m tol V0 r0 alpha beta =
        .ok (size, alpha', beta') ∧ 0 < size ∧ size ≤ m ∧ alpha'.size = m ∧ beta'.size = m ∧
      (∀ k, k + 1 < size → flE (tol * flE (Real.sqrt n)) ≤ beta'.getD k 0) ∧
      ((∀ k, k + 1 < size → θ ≤ beta'.getD k 0) → ∀ (Q : Matrix (Fin size) (Fin size) ℝ) (lam : Fin size → ℝ),
        Spectral (tridiagonal size (fun k => alpha'.getD k 0) (fun k => beta'.getD k 0)) Q lam → ∀ i,
          lo - 2688 * (m ^ 3 * ε * A ^ 2) / θ ≤ lam i ∧ lam i ≤ hi + 2688 * (m ^ 3 * ε * A ^ 2) / θ) := by
  have hε0 : 0 ≤ ε := heD.trans heDε
  have hm1 : (1 : ℝ) ≤ m := by exact_mod_cast (by omega : 1 ≤ m)
  obtain ⟨size, alpha', beta', v, g1, g2, g3, s1, s2, -, g5, g6, g7⟩ := rounded_lanczos_orthogonal hp hpe hq hD hE hL hM hε heD heDε
    hdot hA heps0 heps hepsn hm hmn ho hθ hθA hsq hskip hz htol hV hV' hr0 ha hb
  refine ⟨size, alpha', beta', g1, g2, g3, s1, s2, g5, fun hgood Q lam hspec i => ?_⟩
  obtain ⟨hO, hbd⟩ := g7 hgood
  obtain ⟨η, hη⟩ : ∃ η, η = 128 * (m * ε * A) / θ := ⟨_, rfl⟩
  have hs : Small m ε A θ η := ⟨hm1, hε0, hθ, hθA, by rw [hη]; field_simp, by linarith, by linarith⟩
  have hApos := hs.A_pos
  have hη0 := hs.η_nonneg
  have e1 : 1792 * (m ^ 2 * ε * A ^ 2) / θ = 14 * (m * (A * η)) := by rw [hη]; field_simp; ring
  have e2 : 2688 * (m ^ 3 * ε * A ^ 2) / θ = 21 * (m * m * (A * η)) := by rw [hη]; field_simp; ring
  rw [e1, ← hη] at hO
  have hAl : 5 / 2 * (ε * A) ≤ 20 * (m * (A * η)) := by
    have k1 := hs.mεA
    have k2 := hs.εA
    have k3 : A * η ≤ m * (A * η) := le_mul_of_one_le_left (mul_nonneg hApos.le hη0) hm1
    linarith [hs.mεA_nonneg]
  have hbound : ∀ x : Fin n → ℝ, |x ⬝ᵥ (M *ᵥ x)| ≤ A * (x ⬝ᵥ x) := by
    intro x
    refine (abs_dot_le _ _).trans ?_
    have k1 := mul_le_mul_of_nonneg_left (len_mulVec_le hdot.1 hA x) (len_nonneg x)
    rw [← len_sq x]
    linarith
  have hzz : 0 < z ⬝ᵥ z := by
    rw [← len_sq]
    have := len_pos hz
    positivity
  have hloA : lo ≤ A := by
    have k1 := (hlo z).trans ((le_abs_self _).trans (hbound z))
    exact le_of_mul_le_mul_right k1 hzz
  have hhiA : -A ≤ hi := by
    have k1 := (neg_le_of_abs_le (hbound z)).trans (hhi z)
    rw [← neg_mul] at k1
    exact le_of_mul_le_mul_right k1 hzz
  obtain ⟨y, hy1, hy2⟩ := spectral_form hspec i
  rw [e2]
  constructor
  · have k := tridiagonal_form hs hM g3 hAl le_rfl g6 hO (fun k hk => (hbd k hk).1) (fun k hk => (hbd k hk).2)
      (c := max lo (-A)) (abs_le.2 ⟨le_max_right _ _, max_le hloA (by linarith)⟩) (fun x => by
        have hx : 0 ≤ x ⬝ᵥ x := Finset.sum_nonneg fun i _ => mul_self_nonneg _
        rcases max_choice lo (-A) with h | h
        · rw [h]; exact hlo x
        · rw [h, neg_mul]; exact neg_le_of_abs_le (hbound x)) y
    rw [hy1, hy2, mul_one] at k
    exact le_trans (by linarith [le_max_left lo (-A)]) k
  · have k := tridiagonal_form_le hs hM g3 hAl le_rfl g6 hO (fun k hk => (hbd k hk).1) (fun k hk => (hbd k hk).2)
      (c := min hi A) (abs_le.2 ⟨le_min hhiA (by linarith), min_le_right _ _⟩) (fun x => by
        rcases min_choice hi A with h | h
        · rw [h]; exact hhi x
        · rw [h]; exact (le_abs_self _).trans (hbound x)) y
    rw [hy1, hy2, mul_one] at k
    exact k.trans (by linarith [min_le_left hi A])

/-- C104 for positive definite dense matrices: with a tolerance that is not too small, the nodes that the diagonalization returns
are positive, so that logarithms and inverses of them exist. -/
theorem rounded_ritz_positive (hp : 1 ≤ p) (hpe : p ≤ e) (hq : 1 ≤ q) (hD : Nearest p flD) (hE : Nearest e flE)
    (hL : Nearest q flL) {D : Array ℝ} {M : Matrix (Fin n) (Fin n) ℝ} {rowMajor : Bool} (h : DenseRepr rowMajor D M)
    (hM : M.transpose = M) {ε : ℝ} (hε : normFactor p q n - 1 ≤ ε) {A : ℝ} (hA : ∑ i, ∑ j, M i j ^ 2 ≤ A ^ 2)
    {eps : ℝ} (heps0 : 0 < eps) (heps : eps ≤ 1 / 16) (hepsn : eps * Real.sqrt n ≤ 1 / 4)
    {m : ℕ} (hm : 2 ≤ m) (hmn : m ≤ n) {orth : ℤ} (ho : orth < 0 ∨ (m : ℤ) ≤ orth) {θ : ℝ} (hθ : 0 < θ) (hθA : θ ≤ A)
    (hsq : 4096 * (m ^ 2 * ε * A ^ 2) ≤ θ ^ 2) (hskip : 6000 * (m * ε * A ^ 2) ≤ θ)
    {z : Fin n → ℝ} (hz : z ≠ 0) {tol : ℝ} (htol : 0 < tol) (hθt : θ ≤ flE (tol * flE (Real.sqrt n)))
    {V0 : Array (Array ℝ)} (hV : V0.size = m) (hV' : ∀ row ∈ V0, row.size = n) {r0 alpha beta : Array ℝ} (hr0 : r0.size = n)
    (ha : alpha.size = m) (hb : beta.size = m) {lo : ℝ} (hlo : ∀ x : Fin n → ℝ, lo * (x ⬝ᵥ x) ≤ x ⬝ᵥ (M *ᵥ x))
    (hpos : 2688 * (m ^ 3 * ε * A ^ 2) < lo * θ)
    {eigh : Nat → Array ℝ → Array ℝ → Array ℝ × Array ℝ} (heigh : EighSpec eigh) :
    ∃ size alpha' beta', lanczosOrtho flD flE flL (fun x c => Rounded.denseMatvec flD flL D x n n rowMajor c) eps orth n
        (Array.ofFn z) m tol V0 r0 alpha beta = .ok (size, alpha', beta') ∧
      ∀ i < size, 0 < (eigh size alpha' beta').1.getD i 0 := by
  have hu := (unit_pos p).le
  have hU := (unit_pos q).le
  have h6 := one_le_G hu hU 6 n
  have h7 : (1 + unitRoundoff p) ^ 6 * (1 + unitRoundoff q) ^ n ≤ normFactor p q n :=
    mul_le_mul_of_nonneg_right (pow_le_pow_right₀ (by linarith) (by norm_num)) (pow_nonneg (by linarith) n)
  have hF := frobenius_bound (hθ.le.trans hθA) hA
  have hdot := dense_accurate_dot hp hq hD hL h
  obtain ⟨size, alpha', beta', g1, g2, g3, s1, s2, g4, g5⟩ := rounded_ritz_values hp hpe hq hD hE hL hM hε
    (by linarith) (by linarith) hdot hF heps0 heps hepsn hm hmn
    ho hθ hθA hsq hskip hz htol hV hV' hr0 ha hb hlo (hi := A) (fun x => by
      refine (le_abs_self _).trans ((abs_dot_le _ _).trans ?_)
      have k1 := mul_le_mul_of_nonneg_left (len_mulVec_le hdot.1 hF x) (len_nonneg x)
      rw [← len_sq x]
      linarith)
  refine ⟨size, alpha', beta', g1, fun i hi => ?_⟩
  have hspec := (heigh size alpha' beta' g2 (by omega) (by omega)).2.2
  have k := (g5 (fun k hk => hθt.trans (g4 k hk)) _ _ hspec ⟨i, hi⟩).1
  have k2 : 2688 * (m ^ 3 * ε * A ^ 2) / θ < lo := by rwa [div_lt_iff₀ hθ]
  exact lt_of_lt_of_le (by linarith) k

/-- The conditions hold for a matrix of order three in double precision. -/
example : (∀ x : Fin 3 → ℝ, (1 / 2) * (x ⬝ᵥ x) ≤ x ⬝ᵥ ((!![2, 1, 0; 1, 2, 1; 0, 1, 2] : Matrix (Fin 3) (Fin 3) ℝ) *ᵥ x)) ∧
    (∑ i, ∑ j, (!![2, 1, 0; 1, 2, 1; 0, 1, 2] : Matrix (Fin 3) (Fin 3) ℝ) i j ^ 2 ≤ 4 ^ 2) ∧
    4096 * ((3 : ℝ) ^ 2 * (8 / 2 ^ 53) * 4 ^ 2) ≤ (1 / 16) ^ 2 ∧ 6000 * (3 * (8 / 2 ^ 53) * 4 ^ 2) ≤ (1 : ℝ) / 16 ∧
    2688 * ((3 : ℝ) ^ 3 * (8 / 2 ^ 53) * 4 ^ 2) < 1 / 2 * (1 / 16) := by
  refine ⟨fun x => ?_, by simp [Fin.sum_univ_three]; norm_num, by norm_num, by norm_num, by norm_num⟩
  simp [dotProduct, mulVec, Fin.sum_univ_three]
  nlinarith [sq_nonneg (x 0 + x 1 - 0), sq_nonneg (3 * x 0 + 2 * x 1), sq_nonneg (3 * x 2 + 2 * x 1), sq_nonneg (x 1 + x 2)]

end Imate.Props
