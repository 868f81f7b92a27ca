import Verif.Lemmas.SlqConvergence
import Verif.Props.Slq

/-!
# C77: the SLQ estimates converge when the Lanczos degree grows and the tolerance shrinks

All theorems are about whole samples (`slqSample`), with or without `gram`, for any number of inquiries that are
iterated on their own; for `A + t I` also when one iteration serves all inquiries.  The iteration may stop early because of the tolerance.
-/

namespace Imate.Props

open Matrix Imate.Lanczos Imate.Spec Imate.Gauss Polynomial

variable {n : Nat} {z : Fin n → ℝ} {ext : External ℝ} {opt : Options ℝ} {op : Operator ℝ n}
  {parameters junkAlpha junkBeta estimate : Array ℝ} {converged : Array Bool} {num : Nat}
  {f : ℝ → ℝ} {M : ℝ → Matrix (Fin n) (Fin n) ℝ}

/-- **C77 (`traceinv`).**  Every sample for the inverse of a matrix with eigenvalues in `[a, b]`, `a > 0`, is at most
`zᵀ A⁻¹ z`.  The difference decreases geometrically with the degree, by the factor `((√b - √a) / (√b + √a))²` per
step, unless the iteration stops early; then it is at most the square of the tolerance times a constant. -/
theorem slq_traceinv_bounds (hr : ExactRun ext opt op M parameters) (hop : op.relationKnown = false ∨ num = 1) (hn : 0 < n)
    (hz : Rademacher z)
    (hpar : parameters.size = num) (hconv : converged.size = num) (hest : estimate.size = num)
    (hja : junkAlpha.size = opt.degree) (hjb : junkBeta.size = opt.degree)
    (hf : ∀ x, 0 < x → f (ext.pow x opt.exponent) = x⁻¹) :
    ∃ e, slqSample ext opt op f parameters num z junkAlpha junkBeta converged estimate =
        .ok (converged, e) ∧ e.size = num ∧
      ∀ j < num, ∀ t, parameters[j]? = some t →
        (converged[j]? = some true → e[j]? = estimate[j]?) ∧
        (converged[j]? = some false → ∃ value, e[j]? = some value ∧
          ∀ Q lam a b, Spectral (target opt.gram (M t)) Q lam → 0 < a → (∀ i, a ≤ lam i ∧ lam i ≤ b) →
          value ≤ z ⬝ᵥ ((target opt.gram (M t))⁻¹ *ᵥ z) ∧ z ⬝ᵥ ((target opt.gram (M t))⁻¹ *ᵥ z) - value ≤
            max (4 * ((√b - √a) / (√b + √a)) ^ (2 * opt.degree) * z ⬝ᵥ ((target opt.gram (M t))⁻¹ *ᵥ z))
              (n * stopped n opt.gram opt.tol b / a ^ 3)) := by
  obtain ⟨e, h1, h2, h3⟩ := slqSample_rule (f := f) hr hop hn hz hpar hconv hest hja hjb
  refine ⟨e, h1, h2, fun j hj t ht => ⟨(h3 j hj t ht).1, fun hc => ?_⟩⟩
  obtain ⟨value, hv, hrule⟩ := (h3 j hj t ht).2 hc
  refine ⟨value, hv, fun Q lam a b hQ ha hl => ?_⟩
  have h4 := hrule.inverse hQ ha hl hf
  rwa [rademacher_dot hz] at h4

/-- **C77 (`logdet`).**  Every sample for `q log` of a matrix with eigenvalues in `[a, b]`, `a > 0`, is at least
`q zᵀ log(A) z`.  The difference decreases geometrically with the degree, unless the iteration stops early; then it is
at most the square of the tolerance times a constant. -/
theorem slq_logdet_bounds (hr : ExactRun ext opt op M parameters) (hop : op.relationKnown = false ∨ num = 1) (hn : 0 < n)
    (hz : Rademacher z)
    (hpar : parameters.size = num) (hconv : converged.size = num) (hest : estimate.size = num)
    (hja : junkAlpha.size = opt.degree) (hjb : junkBeta.size = opt.degree) {q : ℝ} (hq : 0 ≤ q)
    (hf : ∀ x, 0 < x → f (ext.pow x opt.exponent) = q * Real.log x) :
    ∃ e, slqSample ext opt op f parameters num z junkAlpha junkBeta converged estimate =
        .ok (converged, e) ∧ e.size = num ∧
      ∀ j < num, ∀ t, parameters[j]? = some t →
        (converged[j]? = some true → e[j]? = estimate[j]?) ∧
        (converged[j]? = some false → ∃ value, e[j]? = some value ∧
          ∀ Q lam a b, Spectral (target opt.gram (M t)) Q lam → 0 < a → (∀ i, a ≤ lam i ∧ lam i ≤ b) →
          q * z ⬝ᵥ (matrixFunction Real.log Q lam *ᵥ z) ≤ value ∧
          value - q * z ⬝ᵥ (matrixFunction Real.log Q lam *ᵥ z) ≤
            q * (n * max (2 * √(b / a) / opt.degree * ((√b - √a) / (√b + √a)) ^ (2 * opt.degree))
              (stopped n opt.gram opt.tol b / (2 * a ^ 2)))) := by
  obtain ⟨e, h1, h2, h3⟩ := slqSample_rule (f := f) hr hop hn hz hpar hconv hest hja hjb
  refine ⟨e, h1, h2, fun j hj t ht => ⟨(h3 j hj t ht).1, fun hc => ?_⟩⟩
  obtain ⟨value, hv, hrule⟩ := (h3 j hj t ht).2 hc
  refine ⟨value, hv, fun Q lam a b hQ ha hl => ?_⟩
  have h4 := hrule.logarithm hQ ha hl hq hf
  rwa [rademacher_dot hz] at h4

/-- **C77 (`trexp`).**  The error of every sample for `exp(c A)` is at most the tail of the exponential series, and a
multiple of the tolerance. -/
theorem slq_trexp_bounds (hr : ExactRun ext opt op M parameters) (hop : op.relationKnown = false ∨ num = 1) (hn : 0 < n)
    (hz : Rademacher z)
    (hpar : parameters.size = num) (hconv : converged.size = num) (hest : estimate.size = num)
    (hja : junkAlpha.size = opt.degree) (hjb : junkBeta.size = opt.degree) {c : ℝ}
    (hf : ∀ x, f (ext.pow x opt.exponent) = Real.exp (c * x)) :
    ∃ e, slqSample ext opt op f parameters num z junkAlpha junkBeta converged estimate =
        .ok (converged, e) ∧ e.size = num ∧
      ∀ j < num, ∀ t, parameters[j]? = some t →
        (converged[j]? = some true → e[j]? = estimate[j]?) ∧
        (converged[j]? = some false → ∃ value, e[j]? = some value ∧
          ∀ Q lam R, Spectral (target opt.gram (M t)) Q lam → 1 ≤ R → (∀ i, |lam i| ≤ R) →
          |value - z ⬝ᵥ (matrixFunction (fun x => Real.exp (c * x)) Q lam *ᵥ z)| ≤ n *
            (2 * (Real.exp (|c| * R) - ∑ j ∈ Finset.range (2 * opt.degree), (|c| * R) ^ j / j.factorial) +
              |c| * R * Real.exp (|c| * R) * √(stopped n opt.gram opt.tol R))) := by
  obtain ⟨e, h1, h2, h3⟩ := slqSample_rule (f := f) hr hop hn hz hpar hconv hest hja hjb
  refine ⟨e, h1, h2, fun j hj t ht => ⟨(h3 j hj t ht).1, fun hc => ?_⟩⟩
  obtain ⟨value, hv, hrule⟩ := (h3 j hj t ht).2 hc
  refine ⟨value, hv, fun Q lam R hQ hR hl => ?_⟩
  have h4 := hrule.exponential hQ hr.degree hR (fun i => abs_le.1 (hl i)) hf
  rwa [rademacher_dot hz] at h4

/-- **C77 (any continuous function).**  For every interval, function that is continuous on it and `e > 0` there are a
degree and a bound of the tolerance such that every sample for every matrix with eigenvalues in the interval, of any
size, and every Rademacher vector is within `n e` of `zᵀ f(A) z`. -/
theorem slq_converges {a b : ℝ} {g : ℝ → ℝ} (hg : ContinuousOn g (Set.Icc a b)) {e : ℝ} (he : 0 < e) :
    ∃ m0 : ℕ, ∃ d : ℝ, 0 < d ∧ ∀ {n : Nat} {z : Fin n → ℝ} {ext : External ℝ} {opt : Options ℝ} {op : Operator ℝ n}
      {parameters junkAlpha junkBeta estimate : Array ℝ} {converged : Array Bool} {num : Nat} {f : ℝ → ℝ}
      {M : ℝ → Matrix (Fin n) (Fin n) ℝ}, ExactRun ext opt op M parameters →
      (op.relationKnown = false ∨ num = 1) → 0 < n → Rademacher z → parameters.size = num → converged.size = num →
      estimate.size = num → junkAlpha.size = opt.degree → junkBeta.size = opt.degree →
      m0 ≤ opt.degree → opt.tol * √n ≤ d →
      (∀ x ∈ Set.Icc a b, f (ext.pow x opt.exponent) = g x) →
      (∀ t ∈ parameters, ∃ Q lam, Spectral (target opt.gram (M t)) Q lam ∧ ∀ i, a ≤ lam i ∧ lam i ≤ b) →
      ∃ est, slqSample ext opt op f parameters num z junkAlpha junkBeta converged estimate =
        .ok (converged, est) ∧ est.size = num ∧
      ∀ j < num, ∀ t, parameters[j]? = some t → converged[j]? = some false → ∃ value, est[j]? = some value ∧
        ∀ Q lam, Spectral (target opt.gram (M t)) Q lam →
          |value - z ⬝ᵥ (matrixFunction g Q lam *ᵥ z)| ≤ n * e := by
  obtain ⟨p, hp⟩ := exists_polynomial_near_of_continuousOn a b g hg (e / 4) (by positivity)
  set R := max 1 (max |a| |b|) with hR
  have hR1 : 1 ≤ R := le_max_left _ _
  have haR : -R ≤ a := by
    have : |a| ≤ R := (le_max_left _ _).trans (le_max_right _ _)
    exact (abs_le.1 this).1
  have hbR : b ≤ R := by
    have : |b| ≤ R := (le_max_right _ _).trans (le_max_right _ _)
    exact (abs_le.1 this).2
  have hs := polySlope_nonneg p (by linarith : 0 ≤ R)
  refine ⟨p.natDegree + 1, e / (2 * (polySlope p R + 1) * R), by positivity, ?_⟩
  intro n z ext opt op parameters junkAlpha junkBeta estimate converged num f M hr hop hn hz hpar hconv hest hja hjb hm0
    hd hf hspec
  obtain ⟨est, h1, h2, h3⟩ := slqSample_rule (f := f) hr hop hn hz hpar hconv hest hja hjb
  refine ⟨est, h1, h2, fun j hj t ht hc => ?_⟩
  obtain ⟨value, hv, hrule⟩ := (h3 j hj t ht).2 hc
  refine ⟨value, hv, fun Q lam hQ => ?_⟩
  obtain ⟨Q', lam', hQ', hl'⟩ := hspec t (Array.mem_of_getElem? ht)
  rw [matrixFunction_unique hQ hQ' g]
  have hgf : matrixFunction g Q' lam' = matrixFunction (fun x => f (ext.pow x opt.exponent)) Q' lam' := by
    unfold matrixFunction
    congr 3
    funext i
    exact (hf _ (hl' i)).symm
  rw [hgf]
  have h4 := hrule.near (a := a) (b := b) hQ' hl' (p := p) (R := R) (e := e / 4) (by omega) hR1 haR hbR fun x hx => by
    rw [hf x hx, abs_sub_comm]; exact (hp x hx).le
  rw [rademacher_dot hz] at h4
  refine h4.trans (mul_le_mul_of_nonneg_left ?_ (Nat.cast_nonneg n))
  have htn : 0 ≤ opt.tol * √n := mul_nonneg hr.tol.le (Real.sqrt_nonneg _)
  have h5 : √(stopped n opt.gram opt.tol b) ≤ R * (opt.tol * √n) := by
    apply Real.sqrt_le_left (by positivity) |>.2 
    have e1 : (R * (opt.tol * √n)) ^ 2 = R ^ 2 * (opt.tol ^ 2 * n) := by
      rw [mul_pow, mul_pow, Real.sq_sqrt (Nat.cast_nonneg n)]
    rw [e1, stopped]
    have h6 : 0 ≤ opt.tol ^ 2 * (n : ℝ) := by positivity
    have h7 : R ≤ R ^ 2 := by nlinarith
    split
    · exact mul_le_mul_of_nonneg_right (hbR.trans h7) h6
    · calc opt.tol ^ 2 * (n : ℝ) = 1 * (opt.tol ^ 2 * n) := (one_mul _).symm
        _ ≤ _ := mul_le_mul_of_nonneg_right (hR1.trans h7) h6
  have h8 : polySlope p R * √(stopped n opt.gram opt.tol b) ≤ e / 2 := by
    calc _ ≤ (polySlope p R + 1) * (R * (e / (2 * (polySlope p R + 1) * R))) := by
          refine mul_le_mul (by linarith) (h5.trans (mul_le_mul_of_nonneg_left hd (by linarith))) (Real.sqrt_nonneg _)
            (by linarith)
      _ = e / 2 := by
          have : polySlope p R + 1 ≠ 0 := by linarith
          have : R ≠ 0 := by linarith
          field_simp
  linarith

/-- **C77 (negative powers).**  Every sample for `A ^ (-q)` of a positive definite matrix is at most `zᵀ A ^ (-q) z`,
for every degree and tolerance. -/
theorem slq_negative_power_le (hr : ExactRun ext opt op M parameters) (hop : op.relationKnown = false ∨ num = 1)
    (hn : 0 < n) (hz : Rademacher z)
    (hpar : parameters.size = num) (hconv : converged.size = num) (hest : estimate.size = num)
    (hja : junkAlpha.size = opt.degree) (hjb : junkBeta.size = opt.degree) {q : ℕ}
    (hf : ∀ x, 0 < x → f (ext.pow x opt.exponent) = (x ^ q)⁻¹) :
    ∃ e, slqSample ext opt op f parameters num z junkAlpha junkBeta converged estimate =
        .ok (converged, e) ∧ e.size = num ∧
      ∀ j < num, ∀ t, parameters[j]? = some t → converged[j]? = some false → ∃ value, e[j]? = some value ∧
        ∀ Q lam, Spectral (target opt.gram (M t)) Q lam → (∀ i, 0 < lam i) →
          value ≤ z ⬝ᵥ (((target opt.gram (M t)) ^ q)⁻¹ *ᵥ z) := by
  obtain ⟨e, h1, h2, h3⟩ := slqSample_rule (f := f) hr hop hn hz hpar hconv hest hja hjb
  refine ⟨e, h1, h2, fun j hj t ht hc => ?_⟩
  obtain ⟨value, hv, hrule⟩ := (h3 j hj t ht).2 hc
  refine ⟨value, hv, fun Q lam hQ hl => ?_⟩
  haveI : Nonempty (Fin n) := ⟨⟨0, hn⟩⟩
  obtain ⟨i0, hi0⟩ := Finite.exists_min lam
  obtain ⟨i1, hi1⟩ := Finite.exists_max lam
  have hI : ∀ x ∈ Set.Icc (lam i0) (lam i1), 0 < x := fun x hx => (hl i0).trans_le hx.1
  have h4 := hrule.lower (a := lam i0) (b := lam i1) hQ (fun i => ⟨hi0 i, hi1 i⟩) (F := negPow q)
    (fun x hx => by rw [hf x (hI x hx)]; simp [negPow]) (fun k x hx => negPow_deriv q k (hI x hx).ne')
    fun k x hx => negPow_nonneg q k (hI x hx).le
  convert h4 using 3
  have e1 : matrixFunction (fun x => f (ext.pow x opt.exponent)) Q lam = matrixFunction (fun x => (x ^ q)⁻¹) Q lam := by
    unfold matrixFunction
    congr 3
    funext i
    exact hf _ (hl i)
  rw [e1]
  apply Matrix.inv_eq_right_inv
  have e2 : target opt.gram (M t) ^ q = matrixFunction (fun x => x ^ q) Q lam := by
    rw [matrixFunction_poly hQ (p := X ^ q) (f := fun x => x ^ q) fun i => by simp]
    simp
  rw [e2, matrixFunction_mul hQ.orthogonal_left]
  have e3 : matrixFunction (fun x => x ^ q * (x ^ q)⁻¹) Q lam = matrixFunction (fun _ => 1) Q lam := by
    unfold matrixFunction
    congr 3
    funext i
    exact mul_inv_cancel₀ (pow_pos (hl i) q).ne'
  rw [e3, matrixFunction_poly hQ (p := 1) (f := fun _ => 1) fun i => by simp]
  simp

/-! ### The average over all Rademacher vectors -/

theorem sample_values {t : ℝ} {P : (Fin n → Bool) → ℝ → Prop} {e0 : ℝ}
    (h : ∀ s : Fin n → Bool, ∃ e, slqSample ext opt op f #[t] 1 (signVector s) junkAlpha junkBeta #[false] #[e0] =
        .ok (#[false], e) ∧ e.size = 1 ∧ ∃ value, e[0]? = some value ∧ P s value) :
    ∃ value : (Fin n → Bool) → ℝ, ∀ s,
      slqSample ext opt op f #[t] 1 (signVector s) junkAlpha junkBeta #[false] #[e0] = .ok (#[false], #[value s]) ∧
      P s (value s) := by
  choose e h1 h2 value h3 h4 using h
  refine ⟨value, fun s => ⟨?_, h4 s⟩⟩
  rw [h1 s]
  congr 2
  have := h2 s
  have h5 := h3 s
  apply Array.ext (by simpa using this)
  intro i hi _
  have : i = 0 := by omega
  subst this
  rw [Array.getElem?_eq_getElem hi] at h5
  simpa using h5

/-- **C77 (`traceinv`, on average).**  The expectation of the estimate of `tr A⁻¹` is at most `tr A⁻¹`; the bias
decreases geometrically with the degree down to a multiple of the square of the tolerance. -/
theorem slq_traceinv_bias {t : ℝ} (hr : ExactRun ext opt op M #[t]) (hn : 0 < n) (e0 : ℝ)
    (hja : junkAlpha.size = opt.degree) (hjb : junkBeta.size = opt.degree)
    (hf : ∀ x, 0 < x → f (ext.pow x opt.exponent) = x⁻¹) :
    ∃ value : (Fin n → Bool) → ℝ, (∀ s, slqSample ext opt op f #[t] 1 (signVector s) junkAlpha junkBeta #[false] #[e0] =
        .ok (#[false], #[value s])) ∧
      ∀ Q lam a b, Spectral (target opt.gram (M t)) Q lam → 0 < a → (∀ i, a ≤ lam i ∧ lam i ≤ b) →
        (∑ s, value s) / 2 ^ n ≤ ((target opt.gram (M t))⁻¹).trace ∧
        ((target opt.gram (M t))⁻¹).trace - (∑ s, value s) / 2 ^ n ≤
          4 * ((√b - √a) / (√b + √a)) ^ (2 * opt.degree) * ((target opt.gram (M t))⁻¹).trace +
            n * stopped n opt.gram opt.tol b / a ^ 3 := by
  obtain ⟨value, h⟩ := sample_values (ext := ext) (opt := opt) (op := op) (f := f) (junkAlpha := junkAlpha)
    (junkBeta := junkBeta) (t := t) (e0 := e0) fun s => by
      obtain ⟨e, h1, h2, h3⟩ := slq_traceinv_bounds (z := signVector s) (converged := #[false]) (estimate := #[e0])
        (num := 1) hr (Or.inr rfl) hn (signVector_rademacher s) rfl rfl rfl hja hjb hf
      exact ⟨e, h1, h2, (h3 0 (by omega) t rfl).2 rfl⟩
  refine ⟨value, fun s => (h s).1, fun Q lam a b hQ ha hl => ?_⟩
  set N := target opt.gram (M t)
  have h2n : (0 : ℝ) < 2 ^ n := by positivity
  have hav := rademacher_average N⁻¹
  rw [← hav]
  have hb : a ≤ b := (hl ⟨0, hn⟩).1.trans (hl ⟨0, hn⟩).2
  set r := ((√b - √a) / (√b + √a)) ^ (2 * opt.degree)
  have hr0 : 0 ≤ r := Even.pow_nonneg (even_two_mul _) _
  have hst : 0 ≤ n * stopped n opt.gram opt.tol b / a ^ 3 := by
    have : 0 ≤ stopped n opt.gram opt.tol b := by
      unfold stopped
      have : 0 ≤ b := by linarith
      split <;> positivity
    positivity
  have hle : ∀ s : Fin n → Bool, value s ≤ signVector s ⬝ᵥ (N⁻¹ *ᵥ signVector s) := fun s =>
    ((h s).2 Q lam a b hQ ha hl).1
  have hinv : N⁻¹ = matrixFunction (fun x => x⁻¹) Q lam :=
    Matrix.inv_eq_right_inv (hQ.mul_inv fun i => (ha.trans_le (hl i).1).ne')
  have hpos : ∀ s : Fin n → Bool, 0 ≤ signVector s ⬝ᵥ (N⁻¹ *ᵥ signVector s) := fun s => by
    rw [hinv, matrixFunction_form]
    exact Finset.sum_nonneg fun i _ => mul_nonneg (weights_nonneg _ _) (inv_nonneg.2 (ha.le.trans (hl i).1))
  have hge : ∀ s : Fin n → Bool, signVector s ⬝ᵥ (N⁻¹ *ᵥ signVector s) - value s ≤
      4 * r * signVector s ⬝ᵥ (N⁻¹ *ᵥ signVector s) + n * stopped n opt.gram opt.tol b / a ^ 3 := fun s => by
    refine ((h s).2 Q lam a b hQ ha hl).2.trans (max_le ?_ ?_)
    · linarith
    · have := mul_nonneg (mul_nonneg (by norm_num : (0 : ℝ) ≤ 4) hr0) (hpos s)
      linarith
  refine ⟨div_le_div_of_nonneg_right (Finset.sum_le_sum fun s _ => hle s) h2n.le, ?_⟩
  have h5 := Finset.sum_le_sum fun s (_ : s ∈ Finset.univ) => hge s
  rw [Finset.sum_sub_distrib, Finset.sum_add_distrib, ← Finset.mul_sum, Finset.sum_const, Finset.card_univ,
    Fintype.card_fun, Fintype.card_bool, Fintype.card_fin, nsmul_eq_mul, Nat.cast_pow, Nat.cast_ofNat] at h5
  rw [← sub_div, div_le_iff₀ h2n]
  refine h5.trans (le_of_eq ?_)
  field_simp

/-- **C77 (`logdet`, on average).**  The expectation of the estimate of `q log det A` is at least `q log det A`; the bias
decreases geometrically with the degree down to a multiple of the square of the tolerance. -/
theorem slq_logdet_bias {t : ℝ} (hr : ExactRun ext opt op M #[t]) (hn : 0 < n) (e0 : ℝ)
    (hja : junkAlpha.size = opt.degree) (hjb : junkBeta.size = opt.degree) {q : ℝ} (hq : 0 ≤ q)
    (hf : ∀ x, 0 < x → f (ext.pow x opt.exponent) = q * Real.log x) :
    ∃ value : (Fin n → Bool) → ℝ, (∀ s, slqSample ext opt op f #[t] 1 (signVector s) junkAlpha junkBeta #[false] #[e0] =
        .ok (#[false], #[value s])) ∧
      ∀ Q lam a b, Spectral (target opt.gram (M t)) Q lam → 0 < a → (∀ i, a ≤ lam i ∧ lam i ≤ b) →
        q * Real.log (target opt.gram (M t)).det ≤ (∑ s, value s) / 2 ^ n ∧
        (∑ s, value s) / 2 ^ n - q * Real.log (target opt.gram (M t)).det ≤
          q * (n * max (2 * √(b / a) / opt.degree * ((√b - √a) / (√b + √a)) ^ (2 * opt.degree))
              (stopped n opt.gram opt.tol b / (2 * a ^ 2))) := by
  obtain ⟨value, h⟩ := sample_values (ext := ext) (opt := opt) (op := op) (f := f) (junkAlpha := junkAlpha)
    (junkBeta := junkBeta) (t := t) (e0 := e0) fun s => by
      obtain ⟨e, h1, h2, h3⟩ := slq_logdet_bounds (z := signVector s) (converged := #[false]) (estimate := #[e0])
        (num := 1) hr (Or.inr rfl) hn (signVector_rademacher s) rfl rfl rfl hja hjb hq hf
      exact ⟨e, h1, h2, (h3 0 (by omega) t rfl).2 rfl⟩
  refine ⟨value, fun s => (h s).1, fun Q lam a b hQ ha hl => ?_⟩
  have h2n : (0 : ℝ) < 2 ^ n := by positivity
  rw [hQ.log_det fun i => ha.trans_le (hl i).1]
  have hav := rademacher_average (matrixFunction Real.log Q lam)
  rw [← hav]
  set B := q * (n * max (2 * √(b / a) / opt.degree * ((√b - √a) / (√b + √a)) ^ (2 * opt.degree))
              (stopped n opt.gram opt.tol b / (2 * a ^ 2)))
  have h4 := Finset.sum_le_sum fun s (_ : s ∈ Finset.univ) => ((h s).2 Q lam a b hQ ha hl).1
  have h5 := Finset.sum_le_sum fun s (_ : s ∈ Finset.univ) => ((h s).2 Q lam a b hQ ha hl).2
  rw [← Finset.mul_sum] at h4
  rw [Finset.sum_sub_distrib, ← Finset.mul_sum, Finset.sum_const, Finset.card_univ,
    Fintype.card_fun, Fintype.card_bool, Fintype.card_fin, nsmul_eq_mul, Nat.cast_pow, Nat.cast_ofNat] at h5
  rw [← mul_div_assoc]
  refine ⟨div_le_div_of_nonneg_right h4 h2n.le, ?_⟩
  rw [← sub_div, div_le_iff₀ h2n]
  linarith

/-! ### Non-vacuity -/

/-! ### One iteration for all parameters -/

/-- Samples for `A + t I` in which one iteration serves all parameters. -/
theorem slqSample_shared_rule {A : Matrix (Fin n) (Fin n) ℝ} (hop : AffineIdentity op A)
    (hA : A.IsSymm) (hsqrt : ext.sqrt = Real.sqrt) (heig : EighSpec ext.eigh)
    (hgram : opt.gram = false) (hnum : 1 < num)
    (htol : 0 < opt.tol) (hm : 1 ≤ opt.degree) (hn : 0 < n) (hz : Rademacher z)
    (hpar : parameters.size = num) (hconv : converged.size = num) (hest : estimate.size = num)
    (hja : junkAlpha.size = opt.degree) (hjb : junkBeta.size = opt.degree) :
    ∃ e, slqSample ext opt op f parameters num z junkAlpha junkBeta converged estimate =
        .ok (Array.replicate num false, e) ∧ e.size = num ∧
      ∀ j < num, ∀ t, parameters[j]? = some t → ∃ value, e[j]? = some value ∧
        SampleRule (A + t • (1 : Matrix (Fin n) (Fin n) ℝ)) z opt.degree (stopped n false opt.tol)
          (fun x => f (ext.pow x opt.exponent)) value := by
  obtain ⟨e, h1, h2, h3⟩ := shared_run_equals_separate_partial (f := f) hop hA hsqrt heig hgram hnum htol hm
    (rademacher_ne_zero hz hn) hpar hconv hest hja hjb
  refine ⟨e, h1, h2, fun j hj t ht => ?_⟩
  obtain ⟨e', h4, h5, _⟩ := h3 j hj t ht (Array.replicate opt.degree 0) (Array.replicate opt.degree 0) 0 (by simp) (by simp)
  have hr : ExactRun ext opt op (fun t => A + t • (1 : Matrix (Fin n) (Fin n) ℝ)) #[t] :=
    ⟨hsqrt, hop.dot, hop.tdot, fun _ => ⟨heig, fun t => by
      rw [Matrix.IsSymm, transpose_add, transpose_smul, transpose_one, hA.eq]⟩,
      fun h => absurd h (by simp [hgram]), htol, hm⟩
  obtain ⟨e'', h6, _, h7⟩ := slqSample_rule (f := f) (num := 1) (converged := #[false]) (estimate := #[0])
    (junkAlpha := Array.replicate opt.degree 0) (junkBeta := Array.replicate opt.degree 0) hr (Or.inr rfl) hn hz rfl rfl
    rfl (by simp) (by simp)
  obtain rfl : e' = e'' := by
    have := h4.symm.trans h6
    simpa using this
  obtain ⟨value, hv, hrule⟩ := (h7 0 (by norm_num) t rfl).2 rfl
  refine ⟨value, by rw [h5, hv], ?_⟩
  rw [hgram] at hrule
  exact hrule

/-- **C77 (`traceinv` of `A + t I`, one iteration for all `t`).**  The bounds are those of a separate iteration for each
parameter; `a` and `b` bound the eigenvalues of `A + t I`. -/
theorem slq_shared_traceinv_bounds {A : Matrix (Fin n) (Fin n) ℝ} (hop : AffineIdentity op A)
    (hA : A.IsSymm) (hsqrt : ext.sqrt = Real.sqrt) (heig : EighSpec ext.eigh)
    (hgram : opt.gram = false) (hnum : 1 < num)
    (htol : 0 < opt.tol) (hm : 1 ≤ opt.degree) (hn : 0 < n) (hz : Rademacher z)
    (hpar : parameters.size = num) (hconv : converged.size = num) (hest : estimate.size = num)
    (hja : junkAlpha.size = opt.degree) (hjb : junkBeta.size = opt.degree)
    (hf : ∀ x, 0 < x → f (ext.pow x opt.exponent) = x⁻¹) :
    ∃ e, slqSample ext opt op f parameters num z junkAlpha junkBeta converged estimate =
        .ok (Array.replicate num false, e) ∧ e.size = num ∧
      ∀ j < num, ∀ t, parameters[j]? = some t → ∃ value, e[j]? = some value ∧
        ∀ Q lam a b, Spectral (A + t • (1 : Matrix (Fin n) (Fin n) ℝ)) Q lam → 0 < a → (∀ i, a ≤ lam i ∧ lam i ≤ b) →
          value ≤ z ⬝ᵥ ((A + t • (1 : Matrix (Fin n) (Fin n) ℝ))⁻¹ *ᵥ z) ∧
          z ⬝ᵥ ((A + t • (1 : Matrix (Fin n) (Fin n) ℝ))⁻¹ *ᵥ z) - value ≤
            max (4 * ((√b - √a) / (√b + √a)) ^ (2 * opt.degree) *
              z ⬝ᵥ ((A + t • (1 : Matrix (Fin n) (Fin n) ℝ))⁻¹ *ᵥ z)) (n * (opt.tol ^ 2 * n) / a ^ 3) := by
  obtain ⟨e, h1, h2, h3⟩ := slqSample_shared_rule (f := f) hop hA hsqrt heig hgram hnum htol hm hn hz hpar hconv hest
    hja hjb
  refine ⟨e, h1, h2, fun j hj t ht => ?_⟩
  obtain ⟨value, hv, hrule⟩ := h3 j hj t ht
  refine ⟨value, hv, fun Q lam a b hQ ha hl => ?_⟩
  have h4 := hrule.inverse hQ ha hl hf
  rw [rademacher_dot hz] at h4
  exact h4

/-- **C77 (`logdet` of `A + t I`, one iteration for all `t`).** -/
theorem slq_shared_logdet_bounds {A : Matrix (Fin n) (Fin n) ℝ} (hop : AffineIdentity op A)
    (hA : A.IsSymm) (hsqrt : ext.sqrt = Real.sqrt) (heig : EighSpec ext.eigh)
    (hgram : opt.gram = false) (hnum : 1 < num)
    (htol : 0 < opt.tol) (hm : 1 ≤ opt.degree) (hn : 0 < n) (hz : Rademacher z)
    (hpar : parameters.size = num) (hconv : converged.size = num) (hest : estimate.size = num)
    (hja : junkAlpha.size = opt.degree) (hjb : junkBeta.size = opt.degree) {q : ℝ} (hq : 0 ≤ q)
    (hf : ∀ x, 0 < x → f (ext.pow x opt.exponent) = q * Real.log x) :
    ∃ e, slqSample ext opt op f parameters num z junkAlpha junkBeta converged estimate =
        .ok (Array.replicate num false, e) ∧ e.size = num ∧
      ∀ j < num, ∀ t, parameters[j]? = some t → ∃ value, e[j]? = some value ∧
        ∀ Q lam a b, Spectral (A + t • (1 : Matrix (Fin n) (Fin n) ℝ)) Q lam → 0 < a → (∀ i, a ≤ lam i ∧ lam i ≤ b) →
          q * z ⬝ᵥ (matrixFunction Real.log Q lam *ᵥ z) ≤ value ∧
          value - q * z ⬝ᵥ (matrixFunction Real.log Q lam *ᵥ z) ≤
            q * (n * max (2 * √(b / a) / opt.degree * ((√b - √a) / (√b + √a)) ^ (2 * opt.degree))
              (opt.tol ^ 2 * n / (2 * a ^ 2))) := by
  obtain ⟨e, h1, h2, h3⟩ := slqSample_shared_rule (f := f) hop hA hsqrt heig hgram hnum htol hm hn hz hpar hconv hest
    hja hjb
  refine ⟨e, h1, h2, fun j hj t ht => ?_⟩
  obtain ⟨value, hv, hrule⟩ := h3 j hj t ht
  refine ⟨value, hv, fun Q lam a b hQ ha hl => ?_⟩
  have h4 := hrule.logarithm hQ ha hl hq hf
  rw [rademacher_dot hz] at h4
  exact h4

/-- The matrix `diag(1, c)`. -/
noncomputable def oneAnd (c : ℝ) : Matrix (Fin 2) (Fin 2) ℝ := Matrix.diagonal ![1, c]

/-- Products with `diag(1, c)`. -/
noncomputable def oneAndOp (c : ℝ) : Operator ℝ 2 :=
  ⟨false, fun _ x => .ok (oneAnd c *ᵥ x), fun _ x => .ok ((oneAnd c)ᵀ *ᵥ x), fun _ _ _ => 0⟩

theorem oneAnd_run (c : ℝ) : ExactRun someExternal ⟨false, 1, 2, 3, 1/100⟩ (oneAndOp c) (fun _ => oneAnd c) #[0] where
  sqrt := rfl
  dot := fun _ _ => rfl
  transposeDot := fun _ _ => rfl
  symmetric := fun _ => ⟨exists_eigh.choose_spec, fun _ => Matrix.diagonal_transpose _⟩
  invertible := fun h => absurd h (by simp)
  tol := by norm_num
  degree := by norm_num

theorem oneAnd_gram_run {c : ℝ} (hc : 0 < c) :
    ExactRun someExternal ⟨true, 1, 2, 3, 1/100⟩ (oneAndOp c) (fun _ => oneAnd c) #[0] where
  sqrt := rfl
  dot := fun _ _ => rfl
  transposeDot := fun _ _ => rfl
  symmetric := fun h => absurd h (by simp)
  invertible := fun _ => ⟨exists_svd.choose_spec, fun _ _ => Matrix.mulVec_injective_iff_isUnit.2 (by
    rw [Matrix.isUnit_iff_isUnit_det, oneAnd, Matrix.det_diagonal]
    simp [Fin.prod_univ_two, hc.ne'])⟩
  tol := by norm_num
  degree := by norm_num

theorem oneAnd_spectral (c : ℝ) : Spectral (oneAnd c) 1 ![1, c] := ⟨by simp, by simp, by simp [oneAnd]⟩

theorem oneAnd_gram (c : ℝ) : target true (oneAnd c) = oneAnd (c ^ 2) := by
  unfold target oneAnd
  rw [if_pos rfl, Matrix.diagonal_transpose, Matrix.diagonal_mul_diagonal]
  congr 1
  funext i
  fin_cases i <;> simp [sq]

theorem oneAnd_inv_form : (![1, -1] : Fin 2 → ℝ) ⬝ᵥ ((oneAnd 4)⁻¹ *ᵥ ![1, -1]) = 5 / 4 := by
  have h : (oneAnd 4)⁻¹ = Matrix.diagonal ![1, 4⁻¹] := by
    apply Matrix.inv_eq_right_inv
    rw [oneAnd, Matrix.diagonal_mul_diagonal, ← Matrix.diagonal_one]
    congr 1
    funext i
    fin_cases i <;> simp
  rw [h]
  simp [Matrix.mulVec_diagonal, dotProduct, Fin.sum_univ_two]
  norm_num

theorem sqrt_four : √(4 : ℝ) = 2 := by
  rw [show (4 : ℝ) = 2 ^ 2 by norm_num]
  exact Real.sqrt_sq (by norm_num)

/-- `tr A⁻¹` of `diag(1, 4)` with three steps: the sample is within `5 / 729` below `5 / 4`. -/
example : ∃ e value, slqSample someExternal ⟨false, 1, 2, 3, 1/100⟩ (oneAndOp 4) (fun x => x⁻¹) #[0] 1 ![1, -1]
      (Array.replicate 3 0) (Array.replicate 3 0) #[false] #[0] = .ok (#[false], e) ∧ e[0]? = some value ∧
      value ≤ 5 / 4 ∧ 5 / 4 - 5 / 729 ≤ value := by
  obtain ⟨e, h1, _, h3⟩ := slq_traceinv_bounds (z := ![1, -1]) (oneAnd_run 4) (Or.inl rfl) (by norm_num)
    (by intro i; fin_cases i <;> simp) (num := 1) (converged := #[false]) (estimate := #[0])
    (junkAlpha := Array.replicate 3 0) (junkBeta := Array.replicate 3 0) rfl rfl rfl (by simp) (by simp)
    (f := fun x => x⁻¹) (fun x _ => by simp [someExternal])
  obtain ⟨value, hv, h4⟩ := (h3 0 (by norm_num) 0 rfl).2 rfl
  refine ⟨e, value, h1, hv, ?_⟩
  have h5 := h4 1 ![1, 4] 1 4 (oneAnd_spectral 4) (by norm_num) (by intro i; fin_cases i <;> norm_num)
  rw [show target false (oneAnd 4) = oneAnd 4 from rfl, oneAnd_inv_form, sqrt_four, Real.sqrt_one] at h5
  refine ⟨h5.1, ?_⟩
  have h6 := h5.2
  simp only [stopped, Bool.false_eq_true, if_false] at h6
  norm_num at h6 ⊢
  linarith

/-- `tr A⁻¹` of `AᵀA = diag(1, 4)`. -/
example : ∃ e value, slqSample someExternal ⟨true, 1, 2, 3, 1/100⟩ (oneAndOp 2) (fun x => x⁻¹) #[0] 1 ![1, -1]
      (Array.replicate 3 0) (Array.replicate 3 0) #[false] #[0] = .ok (#[false], e) ∧ e[0]? = some value ∧
      value ≤ 5 / 4 ∧ 5 / 4 - 5 / 729 ≤ value := by
  obtain ⟨e, h1, _, h3⟩ := slq_traceinv_bounds (z := ![1, -1]) (oneAnd_gram_run (c := 2) (by norm_num)) (Or.inl rfl)
    (by norm_num)
    (by intro i; fin_cases i <;> simp) (num := 1) (converged := #[false]) (estimate := #[0])
    (junkAlpha := Array.replicate 3 0) (junkBeta := Array.replicate 3 0) rfl rfl rfl (by simp) (by simp)
    (f := fun x => x⁻¹) (fun x _ => by simp [someExternal])
  obtain ⟨value, hv, h4⟩ := (h3 0 (by norm_num) 0 rfl).2 rfl
  refine ⟨e, value, h1, hv, ?_⟩
  have he : target true (oneAnd 2) = oneAnd 4 := by rw [oneAnd_gram]; norm_num
  have h5 := h4 1 ![1, 4] 1 4 (he ▸ oneAnd_spectral 4) (by norm_num) (by intro i; fin_cases i <;> norm_num)
  simp only [he] at h5
  rw [oneAnd_inv_form, sqrt_four, Real.sqrt_one] at h5
  refine ⟨h5.1, ?_⟩
  have h6 := h5.2
  simp only [stopped, if_true] at h6
  norm_num at h6 ⊢
  linarith

/-- `log det` of `diag(1, 4)` on average over the four Rademacher vectors. -/
example : ∃ value : (Fin 2 → Bool) → ℝ, (∀ s, slqSample someExternal ⟨false, 1, 2, 3, 1/100⟩ (oneAndOp 4) Real.log #[0] 1
      (signVector s) (Array.replicate 3 0) (Array.replicate 3 0) #[false] #[0] = .ok (#[false], #[value s])) ∧
      Real.log 4 ≤ (∑ s, value s) / 2 ^ 2 ∧ (∑ s, value s) / 2 ^ 2 ≤ Real.log 4 + 8 / 2187 := by
  obtain ⟨value, h1, h2⟩ := slq_logdet_bias (oneAnd_run 4) (by norm_num) 0 (f := Real.log)
    (junkAlpha := Array.replicate 3 0) (junkBeta := Array.replicate 3 0) (by simp) (by simp) (q := 1) (by norm_num)
    (fun x _ => by simp [someExternal])
  refine ⟨value, h1, ?_⟩
  have h5 := h2 1 ![1, 4] 1 4 (oneAnd_spectral 4) (by norm_num) (by intro i; fin_cases i <;> norm_num)
  have hd : (oneAnd 4).det = 4 := by simp [oneAnd, Matrix.det_diagonal, Fin.prod_univ_two]
  rw [show target false (oneAnd 4) = oneAnd 4 from rfl, hd, one_mul, div_one, sqrt_four, Real.sqrt_one] at h5
  refine ⟨h5.1, ?_⟩
  have h6 := h5.2
  simp only [stopped, Bool.false_eq_true, if_false] at h6
  norm_num at h6 ⊢
  linarith

/-- `tr (A + t I)⁻¹` of `A = diag(1, 4)` for `t = 3` and `t = 0` with one iteration: the second sample is within `5 / 729`
below `5 / 4`. -/
example : ∃ e value, slqSample someExternal ⟨false, 1, 2, 3, 1/100⟩ (affineIdentity (oneAnd 4)) (fun x => x⁻¹) #[3, 0] 2
      ![1, -1] (Array.replicate 3 0) (Array.replicate 3 0) #[false, false] #[0, 0] = .ok (Array.replicate 2 false, e) ∧
      e[1]? = some value ∧ value ≤ 5 / 4 ∧ 5 / 4 - 5 / 729 ≤ value := by
  obtain ⟨e, h1, _, h3⟩ := slq_shared_traceinv_bounds (z := ![1, -1]) (affineIdentity_spec (oneAnd 4))
    (Matrix.diagonal_transpose _) (ext := someExternal) (opt := ⟨false, 1, 2, 3, 1/100⟩) rfl exists_eigh.choose_spec rfl
    (num := 2) (by norm_num) (by norm_num) (by norm_num) (by norm_num)
    (by intro i; fin_cases i <;> simp) (parameters := #[3, 0]) (converged := #[false, false]) (estimate := #[0, 0])
    (junkAlpha := Array.replicate 3 0) (junkBeta := Array.replicate 3 0) rfl rfl rfl (by simp) (by simp)
    (f := fun x => x⁻¹) (fun x _ => by simp [someExternal])
  obtain ⟨value, hv, h4⟩ := h3 1 (by norm_num) 0 rfl
  refine ⟨e, value, h1, hv, ?_⟩
  rw [zero_smul, add_zero] at h4
  have h5 := h4 1 ![1, 4] 1 4 (oneAnd_spectral 4) (by norm_num) (by intro i; fin_cases i <;> norm_num)
  rw [oneAnd_inv_form, sqrt_four, Real.sqrt_one] at h5
  refine ⟨h5.1, ?_⟩
  have h6 := h5.2
  norm_num at h6 ⊢
  linarith

/-- Convergence for a function that is not a polynomial: `√x` of `diag(1, 4)`; the hypotheses about the sample are met. -/
example (e : ℝ) (he : 0 < e) : ∃ m0 : ℕ, ∀ m, m0 ≤ m → 1 ≤ m → ∃ tol > 0, ∃ est value,
    slqSample someExternal ⟨false, 1, 2, m, tol⟩ (oneAndOp 4) Real.sqrt #[0] 1 ![1, -1]
      (Array.replicate m 0) (Array.replicate m 0) #[false] #[0] = .ok (#[false], est) ∧ est[0]? = some value ∧
      |value - 3| ≤ 2 * e := by
  obtain ⟨m0, d, hd, h⟩ := slq_converges (a := 1) (b := 4) (g := Real.sqrt) Real.continuous_sqrt.continuousOn he
  refine ⟨m0, fun m hm hm1 => ⟨d / √2, by positivity, ?_⟩⟩
  obtain ⟨est, h1, _, h3⟩ := h (z := ![1, -1]) (ext := someExternal) (opt := ⟨false, 1, 2, m, d / √2⟩) (op := oneAndOp 4)
    (parameters := #[0]) (junkAlpha := Array.replicate m 0) (junkBeta := Array.replicate m 0) (estimate := #[0])
    (converged := #[false]) (num := 1) (f := Real.sqrt) (M := fun _ => oneAnd 4)
    ⟨rfl, fun _ _ => rfl, fun _ _ => rfl, fun _ => ⟨exists_eigh.choose_spec, fun _ => Matrix.diagonal_transpose _⟩,
      fun h => absurd h (by simp), by positivity, hm1⟩
    (Or.inl rfl) (by norm_num) (by intro i; fin_cases i <;> simp) rfl rfl rfl (by simp) (by simp) hm
    (by simp) (fun x _ => by simp [someExternal])
    (fun t _ => ⟨1, ![1, 4], oneAnd_spectral 4, by intro i; fin_cases i <;> norm_num⟩)
  obtain ⟨value, hv, h4⟩ := h3 0 (by norm_num) 0 rfl rfl
  refine ⟨est, value, h1, hv, ?_⟩
  have h5 := h4 1 ![1, 4] (oneAnd_spectral 4)
  rw [matrixFunction_form] at h5
  simpa [Gauss.wsum, weights, Fin.sum_univ_two, sqrt_four, show (1 : ℝ) + 2 = 3 by norm_num] using h5

end Imate.Props
