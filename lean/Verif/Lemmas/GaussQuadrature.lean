import Verif.Lemmas.Gauss
import Mathlib.Algebra.Order.BigOperators.Group.Finset
import Mathlib.Analysis.SpecialFunctions.Log.Deriv
import Mathlib.Analysis.SpecialFunctions.Sqrt
import Mathlib.Analysis.SpecialFunctions.Trigonometric.Chebyshev.RootsExtrema
import Mathlib.Analysis.Calculus.Deriv.MeanValue
import Mathlib.Topology.ContinuousMap.Weierstrass

/-!
# Gauss quadrature of a discrete measure

Two weighted sets of points that agree on polynomials of degree below twice the number of points of the first.
-/

namespace Imate.Gauss

open Polynomial Finset

variable {n s : ℕ}

/-- `∑ w_i f(x_i)` -/
def wsum (w x : Fin n → ℝ) (f : ℝ → ℝ) : ℝ := ∑ i, w i * f (x i)

theorem wsum_mono {w x : Fin n → ℝ} (hw : ∀ i, 0 ≤ w i) {f g : ℝ → ℝ} (h : ∀ i, f (x i) ≤ g (x i)) :
    wsum w x f ≤ wsum w x g := sum_le_sum fun i _ => mul_le_mul_of_nonneg_left (h i) (hw i)

theorem wsum_congr {w x : Fin n → ℝ} {f g : ℝ → ℝ} (h : ∀ i, w i ≠ 0 → f (x i) = g (x i)) : wsum w x f = wsum w x g := by
  refine sum_congr rfl fun i _ => ?_
  by_cases hw : w i = 0
  · rw [hw, zero_mul, zero_mul]
  · rw [h i hw]

theorem wsum_sub (w x : Fin n → ℝ) (f g : ℝ → ℝ) : wsum w x f - wsum w x g = wsum w x fun y => f y - g y := by
  unfold wsum
  rw [← sum_sub_distrib]
  exact sum_congr rfl fun i _ => by ring

theorem wsum_add (w x : Fin n → ℝ) (f g : ℝ → ℝ) : wsum w x f + wsum w x g = wsum w x fun y => f y + g y := by
  unfold wsum
  rw [← sum_add_distrib]
  exact sum_congr rfl fun i _ => by ring

theorem wsum_mul (w x : Fin n → ℝ) (c : ℝ) (f : ℝ → ℝ) : wsum w x (fun y => c * f y) = c * wsum w x f := by
  unfold wsum
  rw [mul_sum]
  exact sum_congr rfl fun i _ => by ring

theorem wsum_const (w x : Fin n → ℝ) (c : ℝ) : wsum w x (fun _ => c) = c * ∑ i, w i := by
  unfold wsum
  rw [mul_sum]
  exact sum_congr rfl fun i _ => by ring

theorem wsum_nonneg {w x : Fin n → ℝ} (hw : ∀ i, 0 ≤ w i) {f : ℝ → ℝ} (h : ∀ i, 0 ≤ f (x i)) : 0 ≤ wsum w x f :=
  sum_nonneg fun i _ => mul_nonneg (hw i) (h i)

theorem wsum_abs_le {w x : Fin n → ℝ} (hw : ∀ i, 0 ≤ w i) {f : ℝ → ℝ} {c : ℝ} (h : ∀ i, |f (x i)| ≤ c) :
    |wsum w x f| ≤ c * ∑ i, w i := by
  unfold wsum
  refine (abs_sum_le_sum_abs _ _).trans ?_
  rw [mul_sum]
  refine sum_le_sum fun i _ => ?_
  rw [abs_mul, abs_of_nonneg (hw i), mul_comm]
  exact mul_le_mul_of_nonneg_right (h i) (hw i)

/-- The points `th` with the weights `tau` form a Gauss rule with `s` points of the discrete measure with the weights
`w` at `lam`, and all the points lie in `[a, b]`. -/
structure Rule (a b : ℝ) (th tau : Fin s → ℝ) (lam w : Fin n → ℝ) : Prop where
  exact : ∀ p : ℝ[X], p.natDegree < 2 * s → wsum tau th (fun x => p.eval x) = wsum w lam fun x => p.eval x
  tau_nonneg : ∀ i, 0 ≤ tau i
  w_nonneg : ∀ i, 0 ≤ w i
  th_mem : ∀ i, th i ∈ Set.Icc a b
  lam_mem : ∀ i, lam i ∈ Set.Icc a b
  pos : 0 < s

variable {a b : ℝ} {th tau : Fin s → ℝ} {lam w : Fin n → ℝ}

theorem Rule.mass (h : Rule a b th tau lam w) : ∑ i, tau i = ∑ i, w i := by
  have := h.exact 1 (by have := h.pos; rw [natDegree_one]; omega)
  simpa [wsum] using this

theorem Rule.shift (h : Rule a b th tau lam w) (t : ℝ) :
    Rule (a + t) (b + t) (fun i => th i + t) tau (fun i => lam i + t) w := by
  refine ⟨fun p hp => ?_, h.tau_nonneg, h.w_nonneg, fun i => ?_, fun i => ?_, h.pos⟩
  · have := h.exact (p.comp (X + C t)) (by rwa [natDegree_comp, natDegree_X_add_C, mul_one])
    simpa [wsum] using this
  · exact ⟨by linarith [(h.th_mem i).1], by linarith [(h.th_mem i).2]⟩
  · exact ⟨by linarith [(h.lam_mem i).1], by linarith [(h.lam_mem i).2]⟩

/-- The error is at most twice the error of the best approximation by a polynomial of degree below `2 s`. -/
theorem Rule.best (h : Rule a b th tau lam w) {f : ℝ → ℝ} {p : ℝ[X]} (hp : p.natDegree < 2 * s) {e : ℝ}
    (he : ∀ x ∈ Set.Icc a b, |f x - p.eval x| ≤ e) :
    |wsum tau th f - wsum w lam f| ≤ 2 * e * ∑ i, w i := by
  have e1 : wsum tau th f - wsum w lam f =
      wsum tau th (fun x => f x - p.eval x) - wsum w lam (fun x => f x - p.eval x) := by
    rw [← wsum_sub, ← wsum_sub, h.exact p hp]
    ring
  have h1 := wsum_abs_le h.tau_nonneg (f := fun x => f x - p.eval x) (x := th) fun i => he _ (h.th_mem i)
  have h2 := wsum_abs_le h.w_nonneg (f := fun x => f x - p.eval x) (x := lam) fun i => he _ (h.lam_mem i)
  rw [h.mass] at h1
  rw [e1]
  refine (abs_sub _ _).trans ?_
  linarith

/-- Convergence for every continuous function, uniformly over all measures and rules on the interval. -/
theorem exists_points {a b : ℝ} {f : ℝ → ℝ} (hf : ContinuousOn f (Set.Icc a b)) {e : ℝ} (he : 0 < e) :
    ∃ m : ℕ, ∀ {n s : ℕ}, m ≤ s → ∀ {th tau : Fin s → ℝ} {lam w : Fin n → ℝ}, Rule a b th tau lam w →
      |wsum tau th f - wsum w lam f| ≤ e * ∑ i, w i := by
  obtain ⟨p, hp⟩ := exists_polynomial_near_of_continuousOn a b f hf (e / 2) (by positivity)
  refine ⟨p.natDegree + 1, fun {n s} hs th tau lam w h => ?_⟩
  have := h.best (f := f) (p := p) (by omega) (e := e / 2) fun x hx => by
    rw [abs_sub_comm]; exact (hp x hx).le
  have e1 : 2 * (e / 2) = e := by ring
  rwa [e1] at this

/-! ## Functions whose derivative of order `2 s` has a sign or is bounded -/

/-- The nodes do not repeat, or the rule is exact for every function. -/
theorem Rule.injective_or_exact (h : Rule a b th tau lam w) :
    (univ.image th).card = s ∨ ∀ f, wsum tau th f = wsum w lam f := by
  set T := univ.image th with hT
  have hle : T.card ≤ s := by
    have := card_image_le (s := univ) (f := th)
    simpa using this
  rcases hle.eq_or_lt with h1 | h1
  · exact Or.inl h1
  right
  have hsq : wsum w lam (fun x => (nodePoly T ^ 2).eval x) = 0 := by
    rw [← h.exact _ (by rw [(nodePoly_monic T).natDegree_pow, nodePoly_natDegree]; omega)]
    refine sum_eq_zero fun i _ => ?_
    beta_reduce
    rw [eval_pow, nodePoly_zero (mem_image_of_mem th (mem_univ i))]
    ring
  have hmem : ∀ i, w i ≠ 0 → lam i ∈ T := by
    intro i hi
    by_contra hn
    have h2 := (sum_eq_zero_iff_of_nonneg (fun i _ => mul_nonneg (h.w_nonneg i)
      (by beta_reduce; rw [eval_pow]; positivity))).1 hsq i (mem_univ i)
    beta_reduce at h2
    rw [eval_pow] at h2
    rcases mul_eq_zero.1 h2 with h3 | h3
    · exact hi h3
    · exact nodePoly_ne_zero hn (pow_eq_zero_iff (two_ne_zero) |>.1 h3)
  intro f
  obtain ⟨p, hp, hpe⟩ := exists_interpolant T f
  have hp' : p.natDegree < 2 * s := by
    by_cases hp0 : p = 0
    · rw [hp0, natDegree_zero]; have := h.pos; omega
    · rw [degree_eq_natDegree hp0] at hp
      have : p.natDegree < T.card := by exact_mod_cast hp
      omega
  rw [wsum_congr (g := fun x => p.eval x) fun i _ => (hpe _ (mem_image_of_mem th (mem_univ i))).symm,
    h.exact p hp', wsum_congr fun i hi => hpe _ (hmem i hi)]

/-- The remainder of a Gauss rule. -/
theorem Rule.remainder (h : Rule a b th tau lam w) (hT : (univ.image th).card = s) {F : ℕ → ℝ → ℝ}
    (hF : ∀ k < 2 * s, ∀ x ∈ Set.Icc a b, HasDerivAt (F k) (F (k + 1) x) x) :
    ∃ xi : Fin n → ℝ, (∀ i, xi i ∈ Set.Icc a b) ∧ wsum w lam (F 0) - wsum tau th (F 0) =
      ∑ i, w i * (F (2 * s) (xi i) / (2 * s).factorial * (nodePoly (univ.image th)).eval (lam i) ^ 2) := by
  have hpos := h.pos
  obtain ⟨p, hp, hp0, hp1⟩ := exists_hermite (univ.image th) (F 0) (F 1)
  have hmemT : ∀ t ∈ univ.image th, t ∈ Set.Icc a b := by
    intro t ht
    obtain ⟨i, -, rfl⟩ := mem_image.1 ht
    exact h.th_mem i
  have hne : (univ.image th).Nonempty := Finset.card_pos.1 (by omega)
  have hex : ∀ i, ∃ x ∈ Set.Icc a b, F 0 (lam i) - p.eval (lam i) =
      F (2 * s) x / (2 * s).factorial * (nodePoly (univ.image th)).eval (lam i) ^ 2 := by
    intro i
    have := hermite_remainder (a := a) (b := b) hne hmemT (F := F) (by rw [hT]; exact hF) hp hp0 hp1 (h.lam_mem i)
    rwa [hT] at this
  choose xi hxi hxe using hex
  refine ⟨xi, hxi, ?_⟩
  have hp' : p.natDegree < 2 * s := by
    by_cases hp00 : p = 0
    · rw [hp00, natDegree_zero]; omega
    · rw [degree_eq_natDegree hp00, hT] at hp
      exact_mod_cast hp
  rw [wsum_congr (w := tau) (x := th) (g := fun x => p.eval x) fun i _ => (hp0 _ (mem_image_of_mem th (mem_univ i))).symm,
    h.exact p hp', wsum_sub]
  exact sum_congr rfl fun i _ => by beta_reduce; rw [hxe i]

/-- If the derivative of order `2 s` is not negative, the rule does not exceed the measure. -/
theorem Rule.le_of_deriv (h : Rule a b th tau lam w) {F : ℕ → ℝ → ℝ}
    (hF : ∀ k < 2 * s, ∀ x ∈ Set.Icc a b, HasDerivAt (F k) (F (k + 1) x) x)
    (h0 : ∀ x ∈ Set.Icc a b, 0 ≤ F (2 * s) x) : wsum tau th (F 0) ≤ wsum w lam (F 0) := by
  rcases h.injective_or_exact with hT | he
  · obtain ⟨xi, h1, h2⟩ := h.remainder hT hF
    have h3 : 0 ≤ wsum w lam (F 0) - wsum tau th (F 0) := by
      rw [h2]
      exact sum_nonneg fun i _ => mul_nonneg (h.w_nonneg i)
        (mul_nonneg (div_nonneg (h0 _ (h1 i)) (by positivity)) (sq_nonneg _))
    linarith
  · exact (he _).le

/-- Among the monic polynomials of degree `s`, the node polynomial has the least norm. -/
theorem Rule.nodePoly_min (h : Rule a b th tau lam w) (hT : (univ.image th).card = s) {q : ℝ[X]} (hq : q.Monic)
    (hd : q.natDegree = s) :
    wsum w lam (fun x => (nodePoly (univ.image th)).eval x ^ 2) ≤ wsum w lam fun x => q.eval x ^ 2 := by
  set N := nodePoly (univ.image th) with hN
  have hNm : N.Monic := nodePoly_monic _
  have hNd : N.natDegree = s := by rw [hN, nodePoly_natDegree, hT]
  have hpos := h.pos
  have hr : (q - N).natDegree < s := by
    by_cases h0 : q - N = 0
    · rw [h0, natDegree_zero]; exact hpos
    · have h1 : (q - N).degree < q.degree := by
        apply degree_sub_lt
        · rw [degree_eq_natDegree hq.ne_zero, degree_eq_natDegree hNm.ne_zero, hd, hNd]
        · exact hq.ne_zero
        · rw [hq.leadingCoeff, hNm.leadingCoeff]
      rw [degree_eq_natDegree h0, degree_eq_natDegree hq.ne_zero, hd] at h1
      exact_mod_cast h1
  have hcross : wsum w lam (fun x => (N * (q - N)).eval x) = 0 := by
    rw [← h.exact _ (by
      refine lt_of_le_of_lt natDegree_mul_le ?_
      omega)]
    refine sum_eq_zero fun i _ => ?_
    beta_reduce
    rw [eval_mul, hN, nodePoly_zero (mem_image_of_mem th (mem_univ i))]
    ring
  have e1 : wsum w lam (fun x => q.eval x ^ 2) = wsum w lam (fun x => N.eval x ^ 2) +
      2 * wsum w lam (fun x => (N * (q - N)).eval x) + wsum w lam fun x => (q.eval x - N.eval x) ^ 2 := by
    rw [← wsum_mul, wsum_add, wsum_add]
    refine wsum_congr fun i _ => ?_
    rw [eval_mul, eval_sub]
    ring
  have h2 : 0 ≤ wsum w lam fun x => (q.eval x - N.eval x) ^ 2 := wsum_nonneg h.w_nonneg fun i => sq_nonneg _
  rw [e1, hcross]
  linarith

/-- A bound of the derivative of order `2 s` bounds the error. -/
theorem Rule.abs_le_of_deriv (h : Rule a b th tau lam w) {F : ℕ → ℝ → ℝ}
    (hF : ∀ k < 2 * s, ∀ x ∈ Set.Icc a b, HasDerivAt (F k) (F (k + 1) x) x) {c : ℝ}
    (hc : ∀ x ∈ Set.Icc a b, |F (2 * s) x| ≤ c) :
    |wsum tau th (F 0) - wsum w lam (F 0)| ≤ c / (2 * s).factorial * ((b - a) / 2) ^ (2 * s) * ∑ i, w i := by
  have hW : 0 ≤ ∑ i, w i := sum_nonneg fun i _ => h.w_nonneg i
  have hab : a ≤ b := (h.th_mem ⟨0, h.pos⟩).1.trans (h.th_mem ⟨0, h.pos⟩).2
  have hc0 : 0 ≤ c := (abs_nonneg _).trans (hc a ⟨le_refl a, hab⟩)
  have hba : 0 ≤ (b - a) / 2 := by linarith
  rcases h.injective_or_exact with hT | he
  · obtain ⟨xi, h1, h2⟩ := h.remainder hT hF
    rw [abs_sub_comm, h2]
    refine (abs_sum_le_sum_abs _ _).trans ?_
    have h3 : ∀ i ∈ univ, |w i * (F (2 * s) (xi i) / (2 * s).factorial * (nodePoly (univ.image th)).eval (lam i) ^ 2)| ≤
        c / (2 * s).factorial * (w i * (nodePoly (univ.image th)).eval (lam i) ^ 2) := by
      intro i _
      rw [abs_mul, abs_mul, abs_div, abs_of_nonneg (h.w_nonneg i), abs_of_nonneg (sq_nonneg ((nodePoly (univ.image th)).eval (lam i))),
        abs_of_nonneg (Nat.cast_nonneg (α := ℝ) (2 * s).factorial)]
      have h4 : |F (2 * s) (xi i)| / (2 * s).factorial ≤ c / (2 * s).factorial :=
        div_le_div_of_nonneg_right (hc _ (h1 i)) (Nat.cast_nonneg _)
      have h5 : 0 ≤ w i * (nodePoly (univ.image th)).eval (lam i) ^ 2 := mul_nonneg (h.w_nonneg i) (sq_nonneg _)
      calc w i * (|F (2 * s) (xi i)| / (2 * s).factorial * (nodePoly (univ.image th)).eval (lam i) ^ 2)
          = |F (2 * s) (xi i)| / (2 * s).factorial * (w i * (nodePoly (univ.image th)).eval (lam i) ^ 2) := by ring
        _ ≤ _ := mul_le_mul_of_nonneg_right h4 h5
    refine (sum_le_sum h3).trans ?_
    rw [← mul_sum, mul_assoc]
    refine mul_le_mul_of_nonneg_left ?_ (div_nonneg hc0 (Nat.cast_nonneg _))
    have hmon : ((X - C ((a + b) / 2)) ^ s : ℝ[X]).Monic := (monic_X_sub_C _).pow s
    refine (h.nodePoly_min hT hmon (by rw [(monic_X_sub_C _).natDegree_pow, natDegree_X_sub_C, mul_one])).trans ?_
    rw [← wsum_const w lam]
    refine wsum_mono h.w_nonneg fun i => ?_
    rw [eval_pow, ← pow_mul, mul_comm s 2, eval_sub, eval_X, eval_C, pow_mul, pow_mul]
    refine pow_le_pow_left₀ (sq_nonneg _) ?_ s
    have h6 := (h.lam_mem i).1
    have h7 := (h.lam_mem i).2
    rw [sq_le_sq, abs_of_nonneg hba]
    exact abs_le.2 ⟨by linarith, by linarith⟩
  · rw [he, sub_self, abs_zero]
    positivity

/-! ## The inverse -/

theorem natDegree_C_mul_X_le' (c : ℝ) : (C c * X : ℝ[X]).natDegree ≤ 1 := (natDegree_C_mul_le _ _).trans natDegree_X_le

/-- `wsum` of `1/x` through a polynomial that is one at zero. -/
theorem Rule.inv_eq (h : Rule a b th tau lam w) (ha : 0 < a) {q : ℝ[X]} (hq : q.eval 0 = 1) (hd : q.natDegree ≤ s) :
    wsum w lam (fun x => x⁻¹) - wsum tau th (fun x => x⁻¹) =
      wsum w lam (fun x => q.eval x ^ 2 / x) - wsum tau th fun x => q.eval x ^ 2 / x := by
  obtain ⟨p, hp⟩ : (X : ℝ[X]) ∣ 1 - q ^ 2 := by
    rw [X_dvd_iff, coeff_zero_eq_eval_zero, eval_sub, eval_one, eval_pow, hq]
    ring
  have hpd : p.natDegree < 2 * s := by
    have hpos := h.pos
    by_cases hp0 : p = 0
    · rw [hp0, natDegree_zero]; omega
    · have h1 : (1 - q ^ 2).natDegree = p.natDegree + 1 := by rw [hp, natDegree_X_mul hp0]
      have h2 : (1 - q ^ 2 : ℝ[X]).natDegree ≤ 2 * s := by
        refine (natDegree_sub_le _ _).trans ?_
        rw [natDegree_one]
        have := natDegree_pow_le (p := q) (n := 2)
        omega
      omega
  have hval : ∀ x, 0 < x → p.eval x = x⁻¹ - q.eval x ^ 2 / x := by
    intro x hx
    have h1 := congrArg (fun r => r.eval x) hp
    simp only [eval_sub, eval_one, eval_pow, eval_mul, eval_X] at h1
    field_simp
    linarith
  have h1 := h.exact p hpd
  rw [wsum_congr (w := tau) (x := th) (f := fun x => p.eval x) (g := fun x => x⁻¹ - q.eval x ^ 2 / x)
    fun i _ => hval _ (ha.trans_le (h.th_mem i).1),
    wsum_congr (w := w) (x := lam) (f := fun x => p.eval x) (g := fun x => x⁻¹ - q.eval x ^ 2 / x)
    fun i _ => hval _ (ha.trans_le (h.lam_mem i).1), ← wsum_sub, ← wsum_sub] at h1
  linarith

/-- The rule does not exceed the measure for the inverse. -/
theorem Rule.inv_le (h : Rule a b th tau lam w) (ha : 0 < a) :
    wsum tau th (fun x => x⁻¹) ≤ wsum w lam fun x => x⁻¹ := by
  have hne : ∀ i, th i ≠ 0 := fun i => (ha.trans_le (h.th_mem i).1).ne'
  have h1 := h.inv_eq ha (q := ∏ i, (1 - C (th i)⁻¹ * X)) (by rw [eval_prod]; simp) (by
    refine (natDegree_prod_le _ _).trans ?_
    refine (sum_le_card_nsmul univ _ 1 fun i _ => ?_).trans (by simp)
    refine (natDegree_sub_le _ _).trans ?_
    rw [natDegree_one]
    exact max_le (by omega) (natDegree_C_mul_X_le' _))
  have h2 : wsum tau th (fun x => (∏ i, (1 - C (th i)⁻¹ * X)).eval x ^ 2 / x) = 0 := by
    refine sum_eq_zero fun i _ => ?_
    beta_reduce
    rw [eval_prod, prod_eq_zero (mem_univ i) (by simp [hne i])]
    simp
  have h3 : 0 ≤ wsum w lam fun x => (∏ i, (1 - C (th i)⁻¹ * X)).eval x ^ 2 / x :=
    wsum_nonneg h.w_nonneg fun i => div_nonneg (sq_nonneg _) (ha.le.trans (h.lam_mem i).1)
  rw [h2] at h1
  linarith

/-- The reduction of the error of one step: `(√b - √a) / (√b + √a)`. -/
noncomputable def rate (a b : ℝ) : ℝ := (√b - √a) / (√b + √a)

theorem rate_nonneg (a b : ℝ) (hab : a ≤ b) : 0 ≤ rate a b :=
  div_nonneg (sub_nonneg.2 (Real.sqrt_le_sqrt hab)) (add_nonneg (Real.sqrt_nonneg b) (Real.sqrt_nonneg a))

theorem rate_lt_one {a b : ℝ} (ha : 0 < a) : rate a b < 1 := by
  have h1 := Real.sqrt_pos.2 ha
  have h2 := Real.sqrt_nonneg b
  rw [rate, div_lt_one (by linarith)]
  linarith

/-- A polynomial that is one at zero and small on the interval. -/
theorem exists_small (ha : 0 < a) (hab : a ≤ b) (hs : 0 < s) : ∃ q : ℝ[X], q.eval 0 = 1 ∧ q.natDegree ≤ s ∧
    ∀ x ∈ Set.Icc a b, q.eval x ^ 2 ≤ 4 * rate a b ^ (2 * s) := by
  rcases hab.eq_or_lt with rfl | hlt
  · refine ⟨1 - C a⁻¹ * X, by simp, ?_, fun x hx => ?_⟩
    · refine (natDegree_sub_le _ _).trans ?_
      rw [natDegree_one]
      exact (max_le (by omega) (natDegree_C_mul_X_le' _)).trans hs
    · obtain rfl : x = a := le_antisymm hx.2 hx.1
      have : rate x x = 0 := by simp [rate]
      rw [this]
      simp [ha.ne']
  have hb : 0 < b := ha.trans hlt
  have hsa := Real.sqrt_pos.2 ha
  have hsb := Real.sqrt_pos.2 hb
  have hsab : √a < √b := Real.sqrt_lt_sqrt ha.le hlt
  have hsqa := Real.sq_sqrt ha.le
  have hsqb := Real.sq_sqrt hb.le
  have hba : 0 < b - a := by linarith
  have hr : 0 < rate a b := div_pos (by linarith) (by linarith)
  set c := (b + a) / (b - a) with hc
  set L : ℝ[X] := C c - C (2 / (b - a)) * X with hL
  set T : ℝ[X] := (Chebyshev.T ℝ s) with hT
  have hcosh : c = Real.cosh (-Real.log (rate a b)) := by
    rw [Real.cosh_neg, Real.cosh_eq, Real.exp_neg, Real.exp_log hr, hc, rate]
    have h1 : √b - √a ≠ 0 := by linarith
    have h2 : √b + √a ≠ 0 := by linarith
    have h3 : b - a = (√b - √a) * (√b + √a) := by ring_nf; rw [hsqa, hsqb]
    have h4 : b + a = ((√b - √a) ^ 2 + (√b + √a) ^ 2) / 2 := by ring_nf; rw [hsqa, hsqb]
    rw [h3, h4]
    field_simp
  have hval : T.eval c = Real.cosh (s * -Real.log (rate a b)) := by
    rw [hcosh, hT, Chebyshev.T_real_cosh]
    norm_cast
  have hge : (rate a b ^ s)⁻¹ / 2 ≤ T.eval c := by
    rw [hval, Real.cosh_eq]
    have h1 : Real.exp (s * -Real.log (rate a b)) = (rate a b ^ s)⁻¹ := by
      rw [Real.exp_nat_mul, Real.exp_neg, Real.exp_log hr, inv_pow]
    rw [h1]
    have := Real.exp_pos (-(s * -Real.log (rate a b)))
    linarith
  have hrs : 0 < rate a b ^ s := pow_pos hr s
  have hTpos : 0 < T.eval c := lt_of_lt_of_le (by positivity) hge
  refine ⟨C (T.eval c)⁻¹ * T.comp L, ?_, ?_, fun x hx => ?_⟩
  · rw [eval_mul, eval_C, eval_comp, hL]
    simp [hTpos.ne']
  · refine (natDegree_C_mul_le _ _).trans ?_
    rw [natDegree_comp]
    have h1 : L.natDegree ≤ 1 := by
      rw [hL]
      refine (natDegree_sub_le _ _).trans ?_
      rw [natDegree_C]
      exact max_le (by omega) (natDegree_C_mul_X_le' _)
    have h2 : T.natDegree ≤ s := by
      rw [hT, Chebyshev.natDegree_T]
      simp
    calc T.natDegree * L.natDegree ≤ s * 1 := Nat.mul_le_mul h2 h1
      _ = s := mul_one s
  · rw [eval_mul, eval_C, eval_comp]
    have h1 : |L.eval x| ≤ 1 := by
      rw [hL, hc]
      simp only [eval_sub, eval_C, eval_mul, eval_X]
      have e1 : (b + a) / (b - a) - 2 / (b - a) * x = (b + a - 2 * x) / (b - a) := by ring
      rw [e1, abs_div, abs_of_pos hba, div_le_one hba]
      exact abs_le.2 ⟨by linarith [hx.2], by linarith [hx.1]⟩
    have h2 := Chebyshev.abs_eval_T_real_le_one s h1
    have h3 : (T.eval c)⁻¹ ≤ 2 * rate a b ^ s := by
      rw [inv_le_comm₀ hTpos (by positivity)]
      refine le_trans (le_of_eq ?_) hge
      rw [mul_inv]
      ring
    have h4 : |(T.eval c)⁻¹ * T.eval (L.eval x)| ≤ 2 * rate a b ^ s := by
      rw [abs_mul, abs_of_pos (inv_pos.2 hTpos)]
      calc (T.eval c)⁻¹ * |T.eval (L.eval x)| ≤ (2 * rate a b ^ s) * 1 :=
            mul_le_mul h3 h2 (abs_nonneg _) (by positivity)
        _ = _ := mul_one _
    have h5 : ((T.eval c)⁻¹ * T.eval (L.eval x)) ^ 2 ≤ (2 * rate a b ^ s) ^ 2 := by
      rw [sq_le_sq, abs_of_pos (by positivity : 0 < 2 * rate a b ^ s)]
      exact h4
    calc _ ≤ (2 * rate a b ^ s) ^ 2 := h5
      _ = 4 * rate a b ^ (2 * s) := by rw [mul_pow, ← pow_mul, mul_comm s 2]; norm_num

/-- The error for the inverse decreases geometrically. -/
theorem Rule.inv_sub_le (h : Rule a b th tau lam w) (ha : 0 < a) :
    wsum w lam (fun x => x⁻¹) - wsum tau th (fun x => x⁻¹) ≤ 4 * rate a b ^ (2 * s) * wsum w lam fun x => x⁻¹ := by
  have hab : a ≤ b := (h.th_mem ⟨0, h.pos⟩).1.trans (h.th_mem ⟨0, h.pos⟩).2
  obtain ⟨q, h1, h2, h3⟩ := exists_small ha hab h.pos
  rw [h.inv_eq ha h1 h2]
  have h4 : 0 ≤ wsum tau th fun x => q.eval x ^ 2 / x :=
    wsum_nonneg h.tau_nonneg fun i => div_nonneg (sq_nonneg _) (ha.le.trans (h.th_mem i).1)
  have h5 : wsum w lam (fun x => q.eval x ^ 2 / x) ≤ 4 * rate a b ^ (2 * s) * wsum w lam fun x => x⁻¹ := by
    rw [← wsum_mul]
    refine wsum_mono h.w_nonneg fun i => ?_
    rw [div_eq_mul_inv]
    exact mul_le_mul_of_nonneg_right (h3 _ (h.lam_mem i)) (inv_nonneg.2 (ha.le.trans (h.lam_mem i).1))
  linarith

/-! ## The logarithm -/

theorem nonpos_of_le_div {y c : ℝ} (hc : 0 ≤ c) (ha : 0 < a) (h : ∀ t, 0 ≤ t → y ≤ c / (a + t)) : y ≤ 0 := by
  by_contra hy
  have hy : 0 < y := not_le.1 hy
  have h1 := h (c / y) (by positivity)
  rw [le_div_iff₀ (by positivity)] at h1
  have h2 : y * (c / y) = c := by field_simp
  nlinarith [mul_pos hy ha]

theorem wsum_log_deriv {w lam : Fin n → ℝ} {t : ℝ} (h : ∀ i, 0 < lam i + t) :
    HasDerivAt (fun t => wsum w lam fun x => Real.log (x + t)) (wsum w (fun i => lam i + t) fun x => x⁻¹) t := by
  unfold wsum
  refine HasDerivAt.fun_sum fun i _ => ?_
  have h1 : HasDerivAt (fun t => lam i + t) 1 t := (hasDerivAt_id t).const_add (lam i)
  have h2 := (h1.log (h i).ne').const_mul (w i)
  rwa [one_div] at h2

/-- The difference of the sums of logarithms vanishes at infinity. -/
theorem Rule.log_abs_le (h : Rule a b th tau lam w) (ha : 0 < a) :
    |wsum w lam (fun x => Real.log x) - wsum tau th fun x => Real.log x| ≤ (b - a) * (∑ i, w i) / a := by
  have hW : 0 ≤ ∑ i, w i := sum_nonneg fun i _ => h.w_nonneg i
  have hab : a ≤ b := (h.th_mem ⟨0, h.pos⟩).1.trans (h.th_mem ⟨0, h.pos⟩).2
  have hlog : Real.log b - Real.log a ≤ (b - a) / a := by
    rw [← Real.log_div (by linarith) ha.ne']
    refine (Real.log_le_sub_one_of_pos (div_pos (by linarith) ha)).trans (le_of_eq ?_)
    field_simp
  have hlo : ∀ (k : ℕ) (v x : Fin k → ℝ), (∀ i, 0 ≤ v i) → (∀ i, x i ∈ Set.Icc a b) →
      Real.log a * ∑ i, v i ≤ wsum v x (fun x => Real.log x) ∧
      wsum v x (fun x => Real.log x) ≤ Real.log b * ∑ i, v i := by
    intro k v x hv hx
    rw [← wsum_const v x, ← wsum_const v x]
    exact ⟨wsum_mono hv fun i => Real.log_le_log ha (hx i).1,
      wsum_mono hv fun i => Real.log_le_log (ha.trans_le (hx i).1) (hx i).2⟩
  obtain ⟨g1, g2⟩ := hlo _ w lam h.w_nonneg h.lam_mem
  obtain ⟨g3, g4⟩ := hlo _ tau th h.tau_nonneg h.th_mem
  rw [h.mass] at g3 g4
  have h5 : (Real.log b - Real.log a) * ∑ i, w i ≤ (b - a) * (∑ i, w i) / a := by
    calc _ ≤ (b - a) / a * ∑ i, w i := mul_le_mul_of_nonneg_right hlog hW
      _ = _ := by ring
  rw [abs_le]
  constructor <;> linarith

/-- The gap of the inverse after a shift by `t`. -/
noncomputable def gap (th tau : Fin s → ℝ) (lam w : Fin n → ℝ) (t : ℝ) : ℝ :=
  wsum w (fun i => lam i + t) (fun x => x⁻¹) - wsum tau (fun i => th i + t) fun x => x⁻¹

theorem Rule.log_deriv (h : Rule a b th tau lam w) (ha : 0 < a) {t : ℝ} (ht : 0 ≤ t) :
    HasDerivAt (fun t => wsum w lam (fun x => Real.log (x + t)) - wsum tau th fun x => Real.log (x + t))
      (gap th tau lam w t) t :=
  (wsum_log_deriv fun i => by linarith [(h.lam_mem i).1]).sub
    (wsum_log_deriv fun i => by linarith [(h.th_mem i).1])

/-- The rule is not below the measure for the logarithm. -/
theorem Rule.log_le (h : Rule a b th tau lam w) (ha : 0 < a) :
    wsum w lam (fun x => Real.log x) ≤ wsum tau th fun x => Real.log x := by
  set F := fun t => wsum w lam (fun x => Real.log (x + t)) - wsum tau th fun x => Real.log (x + t) with hF
  have hW : 0 ≤ ∑ i, w i := sum_nonneg fun i _ => h.w_nonneg i
  have hab : a ≤ b := (h.th_mem ⟨0, h.pos⟩).1.trans (h.th_mem ⟨0, h.pos⟩).2
  have hmono : MonotoneOn F (Set.Ici 0) := by
    refine monotoneOn_of_deriv_nonneg (convex_Ici 0)
      (fun t ht => (h.log_deriv ha ht).continuousAt.continuousWithinAt) (fun t ht => ?_) fun t ht => ?_
    · rw [interior_Ici] at ht
      exact (h.log_deriv ha (le_of_lt ht)).differentiableAt.differentiableWithinAt
    · rw [interior_Ici] at ht
      rw [(h.log_deriv ha (le_of_lt ht)).deriv]
      exact sub_nonneg.2 ((h.shift t).inv_le (add_pos ha ht))
  have hF0 : F 0 = wsum w lam (fun x => Real.log x) - wsum tau th fun x => Real.log x := by simp [hF]
  have := nonpos_of_le_div (y := F 0) (mul_nonneg (sub_nonneg.2 hab) hW) ha fun t ht => by
    refine (hmono (Set.mem_Ici.2 le_rfl) ht ht).trans ((le_abs_self _).trans ?_)
    have h1 := (h.shift t).log_abs_le (by linarith)
    rwa [add_sub_add_right_eq_sub] at h1
  linarith

/-- A bound of the gap of the inverse for all shifts bounds the error of the logarithm. -/
theorem Rule.log_sub_le (h : Rule a b th tau lam w) (ha : 0 < a) {G g : ℝ → ℝ}
    (hG : ∀ t, 0 ≤ t → HasDerivAt G (g t) t) (hG0 : ∀ t, 0 ≤ t → 0 ≤ G t)
    (hg : ∀ t, 0 ≤ t → gap th tau lam w t ≤ -g t) :
    wsum tau th (fun x => Real.log x) - wsum w lam (fun x => Real.log x) ≤ G 0 := by
  set F := fun t => wsum w lam (fun x => Real.log (x + t)) - wsum tau th fun x => Real.log (x + t) with hF
  have hW : 0 ≤ ∑ i, w i := sum_nonneg fun i _ => h.w_nonneg i
  have hab : a ≤ b := (h.th_mem ⟨0, h.pos⟩).1.trans (h.th_mem ⟨0, h.pos⟩).2
  have hd : ∀ t, 0 ≤ t → HasDerivAt (fun t => F t + G t) (gap th tau lam w t + g t) t := fun t ht =>
    (h.log_deriv ha ht).add (hG t ht)
  have hanti : AntitoneOn (fun t => F t + G t) (Set.Ici 0) := by
    refine antitoneOn_of_deriv_nonpos (convex_Ici 0)
      (fun t ht => (hd t ht).continuousAt.continuousWithinAt) (fun t ht => ?_) fun t ht => ?_
    · rw [interior_Ici] at ht
      exact (hd t (le_of_lt ht)).differentiableAt.differentiableWithinAt
    · rw [interior_Ici] at ht
      rw [(hd t (le_of_lt ht)).deriv]
      linarith [hg t (le_of_lt ht)]
  have hF0 : F 0 = wsum w lam (fun x => Real.log x) - wsum tau th fun x => Real.log x := by simp [hF]
  have := nonpos_of_le_div (y := -(F 0 + G 0)) (mul_nonneg (sub_nonneg.2 hab) hW) ha fun t ht => by
    have h1 := (h.shift t).log_abs_le (by linarith)
    rw [add_sub_add_right_eq_sub] at h1
    have h2 := hanti (Set.mem_Ici.2 le_rfl) ht ht
    have h3 := hG0 t ht
    have h4 := (abs_le.1 h1).1
    have h5 : F t = wsum w (fun i => lam i + t) (fun x => Real.log x) -
      wsum tau (fun i => th i + t) fun x => Real.log x := rfl
    simp only at h2
    linarith
  linarith

theorem rate_deriv {t : ℝ} (ha : 0 < a + t) (hb : 0 < b + t) :
    HasDerivAt (fun t => rate (a + t) (b + t)) (-(rate (a + t) (b + t) / (√(a + t) * √(b + t)))) t := by
  have hu := Real.sqrt_pos.2 ha
  have hv := Real.sqrt_pos.2 hb
  have h1 : HasDerivAt (fun t => √(a + t)) (1 / (2 * √(a + t))) t :=
    ((hasDerivAt_id t).const_add a).sqrt ha.ne'
  have h2 : HasDerivAt (fun t => √(b + t)) (1 / (2 * √(b + t))) t :=
    ((hasDerivAt_id t).const_add b).sqrt hb.ne'
  have h3 := (h2.fun_sub h1).fun_div (h2.fun_add h1) (by positivity)
  refine h3.congr_deriv ?_
  unfold rate
  field_simp
  ring

/-- The error for the logarithm decreases geometrically. -/
theorem Rule.log_rate (h : Rule a b th tau lam w) (ha : 0 < a) :
    wsum tau th (fun x => Real.log x) - wsum w lam (fun x => Real.log x) ≤
      2 * √(b / a) / s * rate a b ^ (2 * s) * ∑ i, w i := by
  have hW : 0 ≤ ∑ i, w i := sum_nonneg fun i _ => h.w_nonneg i
  have hab : a ≤ b := (h.th_mem ⟨0, h.pos⟩).1.trans (h.th_mem ⟨0, h.pos⟩).2
  have hs : (0 : ℝ) < s := by exact_mod_cast h.pos
  have hb : 0 < b := by linarith
  set W := ∑ i, w i with hWd
  have key := h.log_sub_le ha (G := fun t => 2 * √(b / a) / s * W * rate (a + t) (b + t) ^ (2 * s))
    (g := fun t => 2 * √(b / a) / s * W * ((2 * s : ℕ) * rate (a + t) (b + t) ^ (2 * s - 1) *
      -(rate (a + t) (b + t) / (√(a + t) * √(b + t)))))
    (fun t ht => ((rate_deriv (by linarith) (by linarith)).fun_pow (2 * s)).const_mul _)
    (fun t ht => by
      have := rate_nonneg (a + t) (b + t) (by linarith)
      positivity) ?_
  · simp only [add_zero] at key
    refine key.trans (le_of_eq ?_)
    ring
  · intro t ht
    have hat : 0 < a + t := by linarith
    have hbt : 0 < b + t := by linarith
    have hr := rate_nonneg (a + t) (b + t) (by linarith)
    have hu := Real.sqrt_pos.2 hat
    have hv := Real.sqrt_pos.2 hbt
    have h1 : gap th tau lam w t ≤ 4 * rate (a + t) (b + t) ^ (2 * s) * (W / (a + t)) := by
      refine ((h.shift t).inv_sub_le hat).trans ?_
      refine mul_le_mul_of_nonneg_left ?_ (by positivity)
      rw [div_eq_inv_mul, hWd, ← wsum_const w (fun i => lam i + t)]
      refine wsum_mono h.w_nonneg fun i => ?_
      exact inv_anti₀ hat (by linarith [(h.lam_mem i).1])
    have hpow : rate (a + t) (b + t) ^ (2 * s) = rate (a + t) (b + t) ^ (2 * s - 1) * rate (a + t) (b + t) := by
      rw [← pow_succ, Nat.sub_add_cancel (by have := h.pos; omega)]
    have h2 : -(2 * √(b / a) / s * W * ((2 * s : ℕ) * rate (a + t) (b + t) ^ (2 * s - 1) *
        -(rate (a + t) (b + t) / (√(a + t) * √(b + t))))) =
        4 * rate (a + t) (b + t) ^ (2 * s) * (W * (√(b / a) / (√(a + t) * √(b + t)))) := by
      rw [hpow]
      push_cast
      field_simp
      ring
    show _ ≤ -(2 * √(b / a) / s * W * ((2 * s : ℕ) * rate (a + t) (b + t) ^ (2 * s - 1) *
        -(rate (a + t) (b + t) / (√(a + t) * √(b + t)))))
    rw [h2]
    refine h1.trans (mul_le_mul_of_nonneg_left ?_ (by positivity))
    rw [div_eq_mul_inv]
    refine mul_le_mul_of_nonneg_left ?_ hW
    have h3 : √((b + t) / (a + t)) ≤ √(b / a) := by
      refine Real.sqrt_le_sqrt ?_
      rw [div_le_div_iff₀ hat ha]
      nlinarith
    rw [Real.sqrt_div' _ hat.le] at h3
    rw [inv_eq_one_div, div_le_div_iff₀ hat (by positivity), one_mul]
    have h4 : √(a + t) * √(a + t) = a + t := Real.mul_self_sqrt hat.le
    rw [div_le_iff₀ hu] at h3
    calc √(a + t) * √(b + t) ≤ √(a + t) * (√(b / a) * √(a + t)) := mul_le_mul_of_nonneg_left h3 hu.le
      _ = √(b / a) * (√(a + t) * √(a + t)) := by ring
      _ = _ := by rw [h4]

end Imate.Gauss
