import Verif.Lemmas.Rounded
import Verif.Spec.RoundedQuadrature
import Mathlib.Analysis.SpecialFunctions.Exp
import Mathlib.Analysis.SpecialFunctions.Log.Basic
import Mathlib.Analysis.SpecialFunctions.Pow.Real

/-!
# Rounding errors of the matrix functions and of the quadrature
-/

namespace Imate.Rounded

open Finset Spec

theorem Approx.one_le {G s T y : ℝ} (h : Approx G s T y) (hT : 0 < T) : 1 ≤ G := by
  have h1 := (abs_nonneg _).trans h.2
  by_contra hc
  nlinarith

theorem Approx.size {G s T y : ℝ} (h : Approx G s T y) : |y| ≤ G * T := by
  have h1 := abs_sub_abs_le_abs_sub y s
  have h2 := h.1
  have h3 := h.2
  linarith

/-- One more relative error. -/
theorem Approx.perturb {G s T y y' e : ℝ} (he : 0 ≤ e) (h : Approx G s T y) (hy : |y' - y| ≤ e * |y|) :
    Approx (G * (1 + e)) s T y' := by
  refine ⟨h.1, ?_⟩
  have h1 : |y' - s| ≤ |y' - y| + |y - s| := abs_sub_le _ _ _
  have h2 := h.2
  have h3 := mul_le_mul_of_nonneg_left h.size he
  nlinarith

theorem approx_of_rel {x y e : ℝ} (hy : |y - x| ≤ e * |x|) : Approx (1 + e) x |x| y :=
  ⟨le_rfl, by simpa using hy⟩

theorem Approx.mul {G H s T y s' T' y' : ℝ} (hG : 1 ≤ G) (h : Approx G s T y) (h' : Approx H s' T' y') :
    Approx (G * H) (s * s') (T * T') (y * y') := by
  have hT := h.nonneg
  have hT' := h'.nonneg
  refine ⟨by rw [abs_mul]; exact mul_le_mul h.1 h'.1 (abs_nonneg _) hT, ?_⟩
  have e : y * y' - s * s' = (y - s) * y' + s * (y' - s') := by ring
  rw [e]
  refine (abs_add_le _ _).trans ?_
  rw [abs_mul, abs_mul]
  have h1 := mul_le_mul h.2 h'.size (abs_nonneg _) (mul_nonneg (by linarith) hT)
  have h2 := mul_le_mul h.1 h'.2 (abs_nonneg _) hT
  nlinarith

theorem Approx.scale {G s T y : ℝ} (c : ℝ) (h : Approx G s T y) : Approx G (c * s) (|c| * T) (c * y) := by
  refine ⟨by rw [abs_mul]; exact mul_le_mul_of_nonneg_left h.1 (abs_nonneg c), ?_⟩
  rw [← mul_sub, abs_mul]
  have := mul_le_mul_of_nonneg_left h.2 (abs_nonneg c)
  linarith

theorem approx_inv {k y y' : ℝ} (hk1 : k < 1) (hy : y ≠ 0) (h : |y' - y| ≤ k * |y|) :
    y' ≠ 0 ∧ Approx (1 / (1 - k)) (1 / y) |1 / y| (1 / y') := by
  have hy0 : 0 < |y| := abs_pos.2 hy
  have hlow : (1 - k) * |y| ≤ |y'| := by
    have := abs_sub_abs_le_abs_sub y y'
    rw [abs_sub_comm] at this
    linarith
  have hpos : 0 < |y'| := lt_of_lt_of_le (mul_pos (by linarith) hy0) hlow
  have hy' : y' ≠ 0 := abs_pos.1 hpos
  refine ⟨hy', le_rfl, ?_⟩
  have hk : 0 ≤ k := by
    have := (abs_nonneg _).trans h
    by_contra hc
    nlinarith
  have e : 1 / y' - 1 / y = (y - y') / (y' * y) := by field_simp
  rw [e, abs_div, abs_mul, abs_sub_comm, abs_div, abs_one]
  have h1k : 0 < 1 - k := by linarith
  calc |y' - y| / (|y'| * |y|) ≤ (k * |y|) / (((1 - k) * |y|) * |y|) := by
        apply div_le_div₀ (by positivity) h (by positivity)
        exact mul_le_mul_of_nonneg_right hlow hy0.le
    _ = (1 / (1 - k) - 1) * (1 / |y|) := by
        field_simp
        ring

theorem abs_exp_sub_one (t : ℝ) : |Real.exp t - 1| ≤ Real.exp |t| - 1 := by
  rcases le_total 0 t with h | h
  · rw [abs_of_nonneg h, abs_of_nonneg]
    have := Real.add_one_le_exp t
    linarith
  · rw [abs_of_nonpos h, abs_of_nonpos (by have := Real.exp_le_one_iff.2 h; linarith)]
    have h1 := Real.add_one_le_exp t
    have h2 := Real.add_one_le_exp (-t)
    linarith

theorem approx_exp {z z' d : ℝ} (h : |z' - z| ≤ d) : Approx (Real.exp d) (Real.exp z) (Real.exp z) (Real.exp z') := by
  refine ⟨by rw [abs_of_pos (Real.exp_pos z)], ?_⟩
  have e : Real.exp z' - Real.exp z = (Real.exp (z' - z) - 1) * Real.exp z := by
    rw [sub_mul, ← Real.exp_add]
    ring_nf
  rw [e, abs_mul, abs_of_pos (Real.exp_pos z)]
  refine mul_le_mul_of_nonneg_right ((abs_exp_sub_one _).trans ?_) (Real.exp_pos z).le
  have := Real.exp_le_exp.2 h
  linarith

theorem log_approx {k y y' : ℝ} (hk1 : k < 1) (hy : 0 < y) (h : |y' - y| ≤ k * |y|) :
    0 < y' ∧ |Real.log y' - Real.log y| ≤ k / (1 - k) := by
  rw [abs_of_pos hy] at h
  have hb := abs_le.1 h
  have h1k : 0 < 1 - k := by linarith
  have hlow : (1 - k) * y ≤ y' := by linarith
  have hpos : 0 < y' := lt_of_lt_of_le (mul_pos h1k hy) hlow
  have hk : 0 ≤ k := by
    have := (abs_nonneg _).trans h
    by_contra hc
    nlinarith
  have hkk : k ≤ k / (1 - k) := by
    rw [le_div_iff₀ h1k]
    nlinarith
  refine ⟨hpos, ?_⟩
  rw [abs_le]
  constructor
  · have h1 := Real.log_le_sub_one_of_pos (div_pos hy hpos)
    rw [Real.log_div hy.ne' hpos.ne'] at h1
    have h2 : y / y' - 1 ≤ k / (1 - k) := by
      have : y / y' ≤ y / ((1 - k) * y) := div_le_div_of_nonneg_left hy.le (mul_pos h1k hy) hlow
      have e : y / ((1 - k) * y) = k / (1 - k) + 1 := by
        field_simp
        ring
      linarith
    linarith
  · have h1 := Real.log_le_sub_one_of_pos (div_pos hpos hy)
    rw [Real.log_div hpos.ne' hy.ne'] at h1
    have h2 : y' / y - 1 ≤ k := by
      rw [div_sub_one hy.ne', div_le_iff₀ hy]
      linarith
    linarith

/-- The computed power. -/
theorem pow_approx {u e p pf theta : ℝ} {lib : Libm} (he : 0 ≤ e) (hl : LibmAccurate e lib)
    (hp : |pf - p| ≤ u * |p|) (ht : 0 < theta) :
    |lib.pow theta pf - theta ^ p| ≤ powerError u e p theta * |theta ^ p| := by
  have h1 : Approx (Real.exp (u * |p * Real.log theta|)) (Real.exp (Real.log theta * p)) (Real.exp (Real.log theta * p))
      (Real.exp (Real.log theta * pf)) := by
    apply approx_exp
    rw [← mul_sub, abs_mul, abs_mul]
    nlinarith [abs_nonneg (Real.log theta)]
  rw [← Real.rpow_def_of_pos ht, ← Real.rpow_def_of_pos ht] at h1
  have h2 := h1.perturb he (hl.pow theta pf (Or.inl ht))
  have h3 := h2.2
  rw [abs_of_pos (Real.rpow_pos_of_pos ht p)]
  refine h3.trans (le_of_eq ?_)
  unfold powerError
  ring

section

variable {u w e k : ℝ} {flD flW : ℝ → ℝ} {lib : Libm}

/-- A linear expression `a*y + b`. -/
theorem linear_approx (hu : 0 ≤ u) (hk : 0 ≤ k) (hD : Rel u flD) {y y' : ℝ} (hy : |y' - y| ≤ k * |y|) (a b : ℝ) :
    Approx (1 + sumError u k) (a * y + b) (|a * y| + |b|) (flD (flD (flD a * y') + flD b)) := by
  have ha : Approx (1 + u) a |a| (flD a) := approx_of_rel (hD a)
  have hb : Approx (1 + u) b |b| (flD b) := approx_of_rel (hD b)
  have hy' : Approx (1 + k) y |y| y' := approx_of_rel hy
  have h1 := (ha.mul (by linarith) hy').round hu hD
  have h2 : Approx ((1 + u) * (1 + k) * (1 + u)) b |b| (flD b) := by
    refine hb.weaken ?_
    have : 0 ≤ (1 + u) * ((1 + k) * (1 + u) - 1) := mul_nonneg (by linarith) (by nlinarith)
    nlinarith
  have h3 := (h1.add h2).round hu hD
  have e : (1 + u) * (1 + k) * (1 + u) * (1 + u) = 1 + sumError u k := by
    unfold sumError
    ring
  rw [e, ← abs_mul] at h3
  exact h3

theorem sqrt_constants : 1 / 2 * Functions.sqrtHalf * Functions.twoOverSqrtPi = 1 / Real.sqrt (2 * Real.pi) := by
  unfold Functions.sqrtHalf Functions.twoOverSqrtPi
  rw [Real.sqrt_mul (by norm_num)]
  have h1 : Real.sqrt 2 ≠ 0 := by positivity
  have h2 : Real.sqrt Real.pi ≠ 0 := by positivity
  field_simp

theorem gaussian_exponent (hw : 0 ≤ w) (hW : Rel w flW) {x x' t : ℝ} (hxx : |x' - x| ≤ scoreError u k * t) :
    |flW (flW (-(1 / 2) * x') * x') - -x ^ 2 / 2| ≤ gaussianExponentError u w k x t := by
  have a1 : Approx (1 + w) (-(1 / 2) * x') |-(1 / 2) * x'| (flW (-(1 / 2) * x')) := approx_of_rel (hW _)
  have a2 := (a1.mul (by linarith) (approx_self (G := 1) (x := x') le_rfl)).round hw hW
  have a3 := a2.2
  have e1 : |-(1 / 2) * x'| * |x'| = x' ^ 2 / 2 := by
    rw [abs_mul, mul_assoc, abs_mul_abs_self]
    norm_num
    ring
  rw [e1] at a3
  have e2 : flW (flW (-(1 / 2) * x') * x') - -x ^ 2 / 2 =
      (flW (flW (-(1 / 2) * x') * x') - -(1 / 2) * x' * x') - (x' - x) * (x' + x) / 2 := by ring
  have hle : |x'| ≤ |x| + scoreError u k * t := by
    have := abs_sub_abs_le_abs_sub x' x
    linarith
  have hsq : x' ^ 2 ≤ (|x| + scoreError u k * t) ^ 2 := by
    rw [← sq_abs x']
    exact pow_le_pow_left₀ (abs_nonneg _) hle 2
  have hxx0 : 0 ≤ scoreError u k * t := (abs_nonneg _).trans hxx
  have hprod : |(x' - x) * (x' + x) / 2| ≤ scoreError u k * t * (2 * |x| + scoreError u k * t) / 2 := by
    rw [abs_div, abs_mul, abs_two]
    have h3 : |x' + x| ≤ 2 * |x| + scoreError u k * t := by
      have := abs_add_le x' x
      linarith
    have := mul_le_mul hxx h3 (abs_nonneg _) hxx0
    linarith
  rw [e2]
  refine (abs_sub _ _).trans ?_
  unfold gaussianExponentError
  have hw2 : 0 ≤ (1 + w) ^ 2 - 1 := by nlinarith
  have h4 : ((1 + w) * 1 * (1 + w) - 1) * (x' ^ 2 / 2) ≤ ((1 + w) ^ 2 - 1) * ((|x| + scoreError u k * t) ^ 2 / 2) := by
    have e3 : (1 + w) * 1 * (1 + w) - 1 = (1 + w) ^ 2 - 1 := by ring
    rw [e3]
    exact mul_le_mul_of_nonneg_left (by linarith) hw2
  have h5 : (|x|) ^ 2 = x ^ 2 := sq_abs x
  nlinarith

theorem gaussian_approx (hu : 0 ≤ u) (hu1 : u < 1) (hw : 0 ≤ w) (he : 0 ≤ e) (hk : 0 ≤ k) (hD : Rel u flD)
    (hW : Rel w flW) (hl : LibmAccurate e lib) {y y' : ℝ} (hy : |y' - y| ≤ k * |y|) (mu : ℝ) {sigma : ℝ} (hs : 0 < sigma) :
    ∃ r, gaussian flD flW lib mu sigma y' = .ok r ∧
      |r - exactFunction (.density mu sigma) y| ≤ functionError u w e k (.density mu sigma) y := by
  have hsig : |flD sigma - sigma| ≤ u * |sigma| := hD sigma
  obtain ⟨hs0, hinv⟩ := approx_inv hu1 hs.ne' hsig
  have h1u : 0 < 1 - u := by linarith
  have hG : 1 ≤ 1 / (1 - u) := by rw [le_div_iff₀ h1u]; linarith
  -- the score
  have hy' : Approx ((1 + k) * (1 + u)) y |y| y' :=
    (approx_of_rel hy).weaken (by nlinarith)
  have hmu : Approx ((1 + k) * (1 + u)) (-mu) |mu| (-flD mu) := by
    have h := (approx_of_rel (hD mu)).scale (-1)
    simp only [abs_neg, abs_one, one_mul, neg_mul] at h
    exact h.weaken (by nlinarith)
  have hdiff := (hy'.add hmu).round hu hD
  have hquot := (hdiff.mul (one_le_mul_of_one_le_of_one_le (one_le_mul_of_one_le_of_one_le (by linarith) (by linarith))
    (by linarith)) hinv).round hu hD
  have ex : flD (flD (y' + -flD mu) * (1 / flD sigma)) = flD (flD (y' - flD mu) / flD sigma) := by
    rw [← sub_eq_add_neg, mul_one_div]
  have es : (y + -mu) * (1 / sigma) = (y - mu) / sigma := by rw [← sub_eq_add_neg, mul_one_div]
  have et : (|y| + |mu|) * |1 / sigma| = (|y| + |mu|) / sigma := by
    rw [abs_of_pos (by positivity : (0 : ℝ) < 1 / sigma), mul_one_div]
  have eG : (1 + k) * (1 + u) * (1 + u) * (1 / (1 - u)) * (1 + u) = 1 + scoreError u k := by
    unfold scoreError
    field_simp
    ring
  rw [ex, es, et, eG] at hquot
  generalize hx' : flD (flD (y' - flD mu) / flD sigma) = x' at hquot
  generalize hx : (y - mu) / sigma = x at hquot
  generalize ht : (|y| + |mu|) / sigma = t at hquot
  have hxx : |x' - x| ≤ scoreError u k * t := by simpa using hquot.2
  -- the exponent
  have hexp := gaussian_exponent (u := u) (k := k) hw hW hxx
  have hE := (approx_exp hexp).perturb he (by rw [abs_of_pos (Real.exp_pos _)]; exact hl.exp _)
  -- the factor
  have c1 : Approx (1 + w) Functions.sqrtHalf |Functions.sqrtHalf| (flW Functions.sqrtHalf) := approx_of_rel (hW _)
  have c2 := (c1.scale (1 / 2)).round hw hW
  have c3 : Approx (1 + w) Functions.twoOverSqrtPi |Functions.twoOverSqrtPi| (flW Functions.twoOverSqrtPi) :=
    approx_of_rel (hW _)
  have h1w : 1 ≤ 1 + w := by linarith
  have hg : 1 ≤ (1 + w) * (1 + w) := one_le_mul_of_one_le_of_one_le h1w h1w
  have c4 := (c2.mul hg c3).round hw hW
  have hg2 : 1 ≤ (1 + w) * (1 + w) * (1 + w) * (1 + w) :=
    one_le_mul_of_one_le_of_one_le (one_le_mul_of_one_le_of_one_le hg h1w) h1w
  have c5 := (c4.mul hg2 hinv).round hw hW
  have hg3 : 1 ≤ (1 + w) * (1 + w) * (1 + w) * (1 + w) * (1 / (1 - u)) * (1 + w) :=
    one_le_mul_of_one_le_of_one_le (one_le_mul_of_one_le_of_one_le hg2 hG) h1w
  have c6 := ((c5.mul hg3 hE).round hw hW).round hu hD
  refine ⟨_, by simp only [gaussian]; rw [if_neg hs0], ?_⟩
  have hval : 1 / 2 * Functions.sqrtHalf * Functions.twoOverSqrtPi * (1 / sigma) * Real.exp (-x ^ 2 / 2) =
      exactFunction (.density mu sigma) y := by
    rw [sqrt_constants]
    simp only [exactFunction, hx]
    congr 1
    have : Real.sqrt (2 * Real.pi) ≠ 0 := by positivity
    field_simp
  have hT : |1 / 2| * |Functions.sqrtHalf| * |Functions.twoOverSqrtPi| * |1 / sigma| * Real.exp (-x ^ 2 / 2) =
      exactFunction (.density mu sigma) y := by
    rw [← hval]
    have p1 : 0 ≤ Functions.sqrtHalf := by unfold Functions.sqrtHalf; positivity
    have p2 : 0 ≤ Functions.twoOverSqrtPi := by unfold Functions.twoOverSqrtPi; positivity
    rw [abs_of_nonneg p1, abs_of_nonneg p2, abs_of_pos (by positivity : (0 : ℝ) < 1 / sigma)]
    norm_num
  have c7 := c6.2
  rw [hval, hT] at c7
  rw [hx', ← mul_one_div (flW (flW (1 / 2 * flW Functions.sqrtHalf) * flW Functions.twoOverSqrtPi))]
  refine c7.trans (le_of_eq ?_)
  simp only [functionError]
  rw [hx, ht]
  congr 2
  ring

/-- The computed value of a matrix function. -/
theorem function_approx (hu : 0 ≤ u) (hu1 : u < 1) (hw : 0 ≤ w) (he : 0 ≤ e) (hk : 0 ≤ k) (hk1 : k < 1) (hD : Rel u flD)
    (hW : Rel w flW) (hl : LibmAccurate e lib) (api : Functions.Api) {y y' : ℝ} (hy : |y' - y| ≤ k * |y|)
    (hdef : WellDefined u k api y) :
    ∃ r, function flD flW lib api y' = .ok r ∧ |r - exactFunction api y| ≤ functionError u w e k api y := by
  cases api with
  | trace => exact ⟨y', rfl, hy⟩
  | traceinv =>
    obtain ⟨h0, hinv⟩ := approx_inv hk1 hdef hy
    refine ⟨flD (flW (1 / y')), by simp [function, inverse, h0], ?_⟩
    have := ((hinv.round hw hW).round hu hD).2
    simp only [exactFunction, functionError]
    refine this.trans (le_of_eq ?_)
    congr 1
    ring
  | logdet =>
    obtain ⟨h0, hlog⟩ := log_approx hk1 hdef hy
    refine ⟨lib.log y', by simp [function, logarithm, h0], ?_⟩
    simp only [exactFunction, functionError]
    have h1 := hl.log y' h0
    have h2 : |lib.log y' - Real.log y| ≤ |lib.log y' - Real.log y'| + |Real.log y' - Real.log y| := abs_sub_le _ _ _
    have h3 := abs_sub_abs_le_abs_sub (Real.log y') (Real.log y)
    have h4 : e * |Real.log y'| ≤ e * (|Real.log y| + k / (1 - k)) := mul_le_mul_of_nonneg_left (by linarith) he
    linarith
  | trexp c =>
    refine ⟨_, rfl, ?_⟩
    simp only [exactFunction, functionError]
    have h1 : Approx (1 + k) y |y| y' := approx_of_rel hy
    have h2 := (h1.mul (by linarith) (approx_of_rel (hD c))).round hu hD
    have h3 : |flD (y' * flD c) - c * y| ≤ ((1 + k) * (1 + u) ^ 2 - 1) * |c * y| := by
      have := h2.2
      rw [← abs_mul, mul_comm y c] at this
      refine this.trans (le_of_eq ?_)
      ring
    have h4 := ((approx_exp h3).perturb he (by rw [abs_of_pos (Real.exp_pos _)]; exact hl.exp _)).2
    refine h4.trans (le_of_eq ?_)
    ring
  | trlinfrac a b c d =>
    have hn := linear_approx hu hk hD hy a b
    have hd := linear_approx hu hk hD hy c d
    simp only [WellDefined] at hdef
    generalize hN' : flD (flD (flD a * y') + flD b) = N' at hn
    generalize hD' : flD (flD (flD c * y') + flD d) = D' at hd
    have hN := hn.2
    have hDd := hd.2
    simp only [add_sub_cancel_left] at hN hDd
    simp only [exactFunction, functionError]
    generalize a * y + b = N at *
    generalize c * y + d = Q at *
    generalize sumError u k * (|a * y| + |b|) = P at *
    generalize sumError u k * (|c * y| + |d|) = R at *
    have hR : 0 ≤ R := (abs_nonneg _).trans hDd
    have hP : 0 ≤ P := (abs_nonneg _).trans hN
    have hQ : 0 < |Q| := lt_of_le_of_lt hR hdef
    have hlow : |Q| - R ≤ |D'| := by
      have := abs_sub_abs_le_abs_sub Q D'
      rw [abs_sub_comm] at this
      linarith
    have hpos : 0 < |Q| - R := by linarith
    have hD0 : 0 < |D'| := lt_of_lt_of_le hpos hlow
    have hup : |N'| ≤ |N| + P := by
      have := abs_sub_abs_le_abs_sub N' N
      linarith
    refine ⟨flD (N' / D'), by simp only [function, homographic]; rw [hN', hD', if_neg (abs_pos.1 hD0)], ?_⟩
    have h1 : |flD (N' / D') - N' / D'| ≤ u * ((|N| + P) / (|Q| - R)) := by
      refine (hD _).trans (mul_le_mul_of_nonneg_left ?_ hu)
      rw [abs_div]
      exact div_le_div₀ (by positivity) hup hpos hlow
    have h2 : |N' / D' - N / Q| ≤ (|N| + P) / (|Q| - R) - |N| / |Q| := by
      have e1 : N' / D' - N / Q = ((N' - N) * Q + N * (Q - D')) / (D' * Q) := by
        have := abs_pos.1 hD0
        have := abs_pos.1 hQ
        field_simp
        ring
      have e2 : (|N| + P) / (|Q| - R) - |N| / |Q| = (P * |Q| + |N| * R) / ((|Q| - R) * |Q|) := by
        field_simp
        ring
      rw [e1, e2, abs_div, abs_mul]
      apply div_le_div₀ (by positivity) _ (by positivity) (mul_le_mul_of_nonneg_right hlow hQ.le)
      refine (abs_add_le _ _).trans ?_
      rw [abs_mul, abs_mul]
      rw [abs_sub_comm Q D']
      exact add_le_add (mul_le_mul_of_nonneg_right hN (abs_nonneg _)) (mul_le_mul_of_nonneg_left hDd (abs_nonneg _))
    have h3 : |flD (N' / D') - N / Q| ≤ |flD (N' / D') - N' / D'| + |N' / D' - N / Q| := abs_sub_le _ _ _
    linarith
  | eigencount lo hi =>
    simp only [WellDefined] at hdef
    refine ⟨if y' < lo ∨ hi < y' then 0 else 1, by simp only [function, indicator]; split <;> simp_all, ?_⟩
    simp only [exactFunction, functionError]
    have key : (y' < lo ∨ hi < y') ↔ ¬ (lo ≤ y ∧ y ≤ hi) := by
      rcases hdef with h0 | ⟨h1, h2⟩
      · rw [h0, zero_mul] at hy
        have : y' = y := by
          have := abs_nonpos_iff.1 hy
          linarith
        rw [this, not_and_or, not_le, not_le]
      · have hb := abs_le.1 hy
        rw [not_and_or, not_le, not_le]
        have l1 : y' < lo ↔ y < lo := by
          constructor
          · intro h
            by_contra hc
            rw [abs_of_nonneg (by linarith : 0 ≤ y - lo)] at h1
            linarith
          · intro h
            rw [abs_of_neg (by linarith : y - lo < 0)] at h1
            linarith
        have l2 : hi < y' ↔ hi < y := by
          constructor
          · intro h
            by_contra hc
            rw [abs_of_nonpos (by linarith : y - hi ≤ 0)] at h2
            linarith
          · intro h
            rw [abs_of_pos (by linarith : 0 < y - hi)] at h2
            linarith
        rw [l1, l2]
    by_cases h : lo ≤ y ∧ y ≤ hi
    · rw [if_pos h, if_neg (fun h' => key.1 h' h)]
      simp
    · rw [if_neg h, if_pos (key.2 h)]
      simp
  | density mu sigma => exact gaussian_approx hu hu1 hw he hk hD hW hl hy mu hdef

/-- The sum over the nodes, given the computed values of the function. -/
theorem quadrature_approx (hu : 0 ≤ u) (hD : Rel u flD) {m : ℕ} (api : Functions.Api) (exponent : ℝ) (n : ℕ)
    (theta tau f : Fin m → ℝ) (hf : ∀ i, nodeValue flD flW lib api exponent (theta i) = .ok (f i)) :
    ∃ r, quadrature flD flW lib api exponent n (Array.ofFn theta) (Array.ofFn tau) m = .ok r ∧
      Approx ((1 + u) ^ (m + 4)) (n * ∑ i, tau i ^ 2 * f i) (n * ∑ i, tau i ^ 2 * |f i|) r := by
  set F : ℕ → ℝ := fun i => if h : i < m then f ⟨i, h⟩ else 0 with hF
  set T : ℕ → ℝ := fun i => if h : i < m then tau ⟨i, h⟩ else 0 with hT
  have hone : ∀ j : ℕ, (1 : ℝ) ≤ (1 + u) ^ j := fun j => one_le_pow₀ (by linarith)
  obtain ⟨s, h1, h2⟩ : ∃ s, forRange 0 m (fun i s => do
      let f ← nodeValue flD flW lib api exponent (← rd (Array.ofFn theta) i)
      let t ← rd (Array.ofFn tau) i
      .ok (flD (s + flD (flD (t * t) * f)))) 0 = .ok s ∧
      Approx ((1 + u) ^ (m + 2)) (∑ i ∈ range m, T i ^ 2 * F i) (∑ i ∈ range m, T i ^ 2 * |F i|) s := by
    refine forRange_inv (fun j s => Approx ((1 + u) ^ (j + 2)) (∑ i ∈ range j, T i ^ 2 * F i)
      (∑ i ∈ range j, T i ^ 2 * |F i|) s) (Nat.zero_le m) 0 (by simpa using approx_zero) ?_
    intro j _ hj s hs
    have r1 := rd_ofFn theta ⟨j, hj⟩
    have r2 := rd_ofFn tau ⟨j, hj⟩
    simp only at r1 r2
    refine ⟨flD (s + flD (flD (tau ⟨j, hj⟩ * tau ⟨j, hj⟩) * f ⟨j, hj⟩)), ?_, ?_⟩
    · rw [r1, r2]
      simp only [Except.ok_bind', hf]
    · have a1 : Approx (1 + u) (tau ⟨j, hj⟩ * tau ⟨j, hj⟩) |tau ⟨j, hj⟩ * tau ⟨j, hj⟩|
          (flD (tau ⟨j, hj⟩ * tau ⟨j, hj⟩)) := approx_of_rel (hD _)
      have a2 := (a1.mul (by linarith) (approx_self (G := 1) (x := f ⟨j, hj⟩) le_rfl)).round hu hD
      have a3 : Approx ((1 + u) ^ (j + 2)) (T j ^ 2 * F j) (T j ^ 2 * |F j|)
          (flD (flD (tau ⟨j, hj⟩ * tau ⟨j, hj⟩) * f ⟨j, hj⟩)) := by
        have e1 : T j = tau ⟨j, hj⟩ := by simp [hT, hj]
        have e2 : F j = f ⟨j, hj⟩ := by simp [hF, hj]
        rw [abs_mul_self] at a2
        rw [e1, e2, pow_two]
        refine a2.weaken ?_
        have := hone j
        have e3 : (1 + u) ^ (j + 2) = (1 + u) ^ j * ((1 + u) * 1 * (1 + u)) := by ring
        rw [e3]
        exact le_mul_of_one_le_left (by nlinarith) this
      have a4 := (hs.add a3).round hu hD
      rw [sum_range_succ, sum_range_succ]
      rwa [← pow_succ, show j + 2 + 1 = j + 1 + 2 by ring] at a4
  have e1 : ∑ i ∈ range m, T i ^ 2 * F i = ∑ i, tau i ^ 2 * f i := by
    rw [← Fin.sum_univ_eq_sum_range (fun i => T i ^ 2 * F i)]
    refine sum_congr rfl fun i _ => ?_
    simp [hT, hF]
  have e2 : ∑ i ∈ range m, T i ^ 2 * |F i| = ∑ i, tau i ^ 2 * |f i| := by
    rw [← Fin.sum_univ_eq_sum_range (fun i => T i ^ 2 * |F i|)]
    refine sum_congr rfl fun i _ => ?_
    simp [hT, hF]
  rw [e1, e2] at h2
  refine ⟨flD (flD n * s), by unfold quadrature; rw [h1]; rfl, ?_⟩
  have b1 : Approx (1 + u) (n : ℝ) |(n : ℝ)| (flD n) := approx_of_rel (hD _)
  have b2 := (b1.mul (by linarith) h2).round hu hD
  rw [Nat.abs_cast] at b2
  rwa [show (1 + u) * (1 + u) ^ (m + 2) * (1 + u) = (1 + u) ^ (m + 4) by ring] at b2

end

end Imate.Rounded
