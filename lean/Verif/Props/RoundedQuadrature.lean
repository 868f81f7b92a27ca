import Verif.Lemmas.RoundedQuadrature
import Verif.Props.Rounded

/-!
# C97: accuracy of the value of one sample in floating-point arithmetic

`flD` rounds to the type of the data, with `p` bits, `flW` to the wider one of it and `double`, with `q` bits; the functions
of the C library have relative error `e`.  `theta` and `tau` are the Ritz values and the weights that the decomposition gave.
-/

namespace Imate.Props

open Matrix Spec Rounded

private theorem unit_nonneg (p : ℕ) : 0 ≤ unitRoundoff p := by unfold unitRoundoff; positivity

private theorem unit_lt_one {p : ℕ} (hp : 1 ≤ p) : unitRoundoff p < 1 := by
  unfold unitRoundoff
  rw [zpow_neg, zpow_natCast]
  exact inv_lt_one_of_one_lt₀ (one_lt_pow₀ (by norm_num) (by omega))

theorem nearest_fixed {p : ℕ} {fl : ℝ → ℝ} (h : Nearest p fl) {x : ℝ} (hx : Representable p x) : fl x = x := by
  have := (h x).2 x hx
  rw [sub_self, abs_zero] at this
  have := abs_nonpos_iff.1 this
  linarith

theorem nearest_one {p : ℕ} (hp : 1 ≤ p) {fl : ℝ → ℝ} (h : Nearest p fl) : fl 1 = 1 :=
  nearest_fixed h ⟨1, 0, by simpa using one_lt_pow₀ (by norm_num : (1 : ℤ) < 2) (by omega : p ≠ 0), by simp⟩

section

variable {p q : ℕ} {e : ℝ} {flD flW : ℝ → ℝ} {lib : Libm}

/-- C97: the power of a Ritz value.  The exponent is converted to the type of the data, which the exponential factor
accounts for. -/
theorem power_accurate (hp : 1 ≤ p) (he : 0 ≤ e) (hD : Nearest p flD) (hl : LibmAccurate e lib) (exponent : ℝ)
    {theta : ℝ} (ht : 0 < theta) :
    |lib.pow theta (flD exponent) - theta ^ exponent| ≤
      powerError (unitRoundoff p) e exponent theta * |theta ^ exponent| :=
  pow_approx he hl (nearest_rel hp hD exponent) ht

/-- C97: if the exponent is a number of the type of the data, the power has the error of the library; with the exponent one
this holds for Ritz values of any sign. -/
theorem power_accurate_representable (hD : Nearest p flD) (hl : LibmAccurate e lib) {exponent : ℝ}
    (hx : Representable p exponent) {theta : ℝ} (ht : 0 < theta ∨ exponent = 1) :
    |lib.pow theta (flD exponent) - theta ^ exponent| ≤ e * |theta ^ exponent| := by
  rw [nearest_fixed hD hx]
  exact hl.pow theta exponent ht

/-- C97: the computed value of each of the seven matrix functions, at a number that itself has the relative error `k`, is
within `functionError` of the exact value. -/
theorem matrix_function_accurate (hp : 1 ≤ p) (hq : 1 ≤ q) (he : 0 ≤ e) (hD : Nearest p flD) (hW : Nearest q flW)
    (hl : LibmAccurate e lib) {k : ℝ} (hk : 0 ≤ k) (hk1 : k < 1) (api : Functions.Api) {y y' : ℝ}
    (hy : |y' - y| ≤ k * |y|) (hdef : WellDefined (unitRoundoff p) k api y) :
    ∃ r, function flD flW lib api y' = .ok r ∧
      |r - exactFunction api y| ≤ functionError (unitRoundoff p) (unitRoundoff q) e k api y :=
  function_approx (unit_nonneg p) (unit_lt_one hp) (unit_nonneg q) he hk hk1 (nearest_rel hp hD) (nearest_rel hq hW) hl api
    hy hdef

/-- C97: the value of a sample.  `k i` bounds the relative error of the power of the `i`-th Ritz value.  The error has two
parts: that of the values of the function, and `m + 4` roundings. -/
theorem sample_accurate_partial (hp : 1 ≤ p) (hq : 1 ≤ q) (he : 0 ≤ e) (hD : Nearest p flD) (hW : Nearest q flW)
    (hl : LibmAccurate e lib) {m : ℕ} (n : ℕ) (api : Functions.Api) (exponent : ℝ) (theta tau k : Fin m → ℝ)
    (hk : ∀ i, 0 ≤ k i ∧ k i < 1)
    (hpow : ∀ i, |lib.pow (theta i) (flD exponent) - theta i ^ exponent| ≤ k i * |theta i ^ exponent|)
    (hdef : ∀ i, WellDefined (unitRoundoff p) (k i) api (theta i ^ exponent)) :
    ∃ r, quadrature flD flW lib api exponent n (Array.ofFn theta) (Array.ofFn tau) m = .ok r ∧
      |r - n * ∑ i, tau i ^ 2 * exactFunction api (theta i ^ exponent)| ≤
        n * ∑ i, tau i ^ 2 * (functionError (unitRoundoff p) (unitRoundoff q) e (k i) api (theta i ^ exponent) +
          ((1 + unitRoundoff p) ^ (m + 4) - 1) * (|exactFunction api (theta i ^ exponent)| +
            functionError (unitRoundoff p) (unitRoundoff q) e (k i) api (theta i ^ exponent))) := by
  have hu := unit_nonneg p
  choose f hf1 hf2 using fun i => matrix_function_accurate hp hq he hD hW hl (hk i).1 (hk i).2 api (hpow i) (hdef i)
  obtain ⟨r, h1, h2⟩ := quadrature_approx (flW := flW) (lib := lib) hu (nearest_rel hp hD) api exponent n theta tau f hf1
  refine ⟨r, h1, ?_⟩
  set F := fun i => exactFunction api (theta i ^ exponent) with hF
  set η := fun i => functionError (unitRoundoff p) (unitRoundoff q) e (k i) api (theta i ^ exponent) with hη
  have hG : 0 ≤ (1 + unitRoundoff p) ^ (m + 4) - 1 := by
    have : (1 : ℝ) ≤ (1 + unitRoundoff p) ^ (m + 4) := one_le_pow₀ (by linarith)
    linarith
  have hn : (0 : ℝ) ≤ n := Nat.cast_nonneg n
  have a1 : |(n : ℝ) * ∑ i, tau i ^ 2 * f i - n * ∑ i, tau i ^ 2 * F i| ≤ n * ∑ i, tau i ^ 2 * η i := by
    rw [← mul_sub, abs_mul, Nat.abs_cast, ← Finset.sum_sub_distrib]
    refine mul_le_mul_of_nonneg_left ((Finset.abs_sum_le_sum_abs _ _).trans (Finset.sum_le_sum fun i _ => ?_)) hn
    rw [← mul_sub, abs_mul, abs_of_nonneg (sq_nonneg (tau i))]
    exact mul_le_mul_of_nonneg_left (hf2 i) (sq_nonneg _)
  have a2 : (n : ℝ) * ∑ i, tau i ^ 2 * |f i| ≤ n * ∑ i, tau i ^ 2 * (|F i| + η i) := by
    refine mul_le_mul_of_nonneg_left (Finset.sum_le_sum fun i _ => ?_) hn
    refine mul_le_mul_of_nonneg_left ?_ (sq_nonneg _)
    have h3 := abs_sub_abs_le_abs_sub (f i) (F i)
    have h4 := hf2 i
    simp only [hF, hη] at *
    linarith
  have a3 := h2.2.trans (mul_le_mul_of_nonneg_left a2 hG)
  have a4 : |r - n * ∑ i, tau i ^ 2 * F i| ≤ |r - n * ∑ i, tau i ^ 2 * f i| +
      |(n : ℝ) * ∑ i, tau i ^ 2 * f i - n * ∑ i, tau i ^ 2 * F i| := abs_sub_le _ _ _
  have e1 : (n : ℝ) * ∑ i, tau i ^ 2 * (η i + ((1 + unitRoundoff p) ^ (m + 4) - 1) * (|F i| + η i)) =
      n * ∑ i, tau i ^ 2 * η i + ((1 + unitRoundoff p) ^ (m + 4) - 1) * (n * ∑ i, tau i ^ 2 * (|F i| + η i)) := by
    have : ∑ i, tau i ^ 2 * (η i + ((1 + unitRoundoff p) ^ (m + 4) - 1) * (|F i| + η i)) =
        ∑ i, tau i ^ 2 * η i + ((1 + unitRoundoff p) ^ (m + 4) - 1) * ∑ i, tau i ^ 2 * (|F i| + η i) := by
      rw [Finset.mul_sum, ← Finset.sum_add_distrib]
      exact Finset.sum_congr rfl fun i _ => by ring
    rw [this]
    ring
  show |r - n * ∑ i, tau i ^ 2 * F i| ≤
    n * ∑ i, tau i ^ 2 * (η i + ((1 + unitRoundoff p) ^ (m + 4) - 1) * (|F i| + η i))
  rw [e1]
  linarith

/-- C97: the trace of a power, for positive Ritz values: a relative error. -/
theorem trace_sample_accurate (hp : 1 ≤ p) (hq : 1 ≤ q) (he : 0 ≤ e) (he1 : e < 1) (hD : Nearest p flD)
    (hW : Nearest q flW) (hl : LibmAccurate e lib) {m : ℕ} (n : ℕ) {exponent : ℝ} (hx : Representable p exponent)
    (theta tau : Fin m → ℝ) (ht : ∀ i, 0 < theta i) :
    ∃ r, quadrature flD flW lib .trace exponent n (Array.ofFn theta) (Array.ofFn tau) m = .ok r ∧
      |r - n * ∑ i, tau i ^ 2 * theta i ^ exponent| ≤
        ((1 + unitRoundoff p) ^ (m + 4) * (1 + e) - 1) * (n * ∑ i, tau i ^ 2 * theta i ^ exponent) := by
  obtain ⟨r, h1, h2⟩ := sample_accurate_partial hp hq he hD hW hl n .trace exponent theta tau (fun _ => e)
    (fun _ => ⟨he, he1⟩) (fun i => power_accurate_representable hD hl hx (Or.inl (ht i))) (fun _ => trivial)
  refine ⟨r, h1, h2.trans (le_of_eq ?_)⟩
  simp only [functionError, exactFunction]
  rw [mul_left_comm, Finset.mul_sum (s := Finset.univ) (a := (1 + unitRoundoff p) ^ (m + 4) * (1 + e) - 1)]
  congr 1
  refine Finset.sum_congr rfl fun i _ => ?_
  rw [abs_of_pos (Real.rpow_pos_of_pos (ht i) exponent)]
  ring

/-- C97: the eigenvalue at another parameter, where a relation of the eigenvalues is known. -/
theorem shifted_eigenvalue_accurate (hp : 1 ≤ p) (hD : Nearest p flD) (t0 theta t : ℝ) :
    |shiftedEigenvalue flD t0 theta t - (theta - t0 + t)| ≤
      ((1 + unitRoundoff p) ^ 2 - 1) * (|theta| + |t0| + |t|) := by
  have hu := unit_nonneg p
  have hr := nearest_rel hp hD
  have a1 : Approx (1 + unitRoundoff p) (theta - t0) (|theta| + |t0|) (flD (theta - t0)) := by
    have h := ((approx_self (G := 1) (x := theta) le_rfl).add
      (approx_self (G := 1) (x := -t0) le_rfl)).round hu hr
    rwa [one_mul, abs_neg, ← sub_eq_add_neg] at h
  have a2 := (a1.add (approx_self (x := t) (by linarith))).round hu hr
  have := a2.2
  rwa [← pow_two] at this

end

/-! ### The hypotheses are met -/

/-- The exact functions, and the correctly rounded ones. -/
theorem libm_exists {p : ℕ} (hp : 1 ≤ p) {fl : ℝ → ℝ} (h : Nearest p fl) :
    LibmAccurate (unitRoundoff p) ⟨fun x y => fl (x ^ y), fun x => fl (Real.exp x), fun x => fl (Real.log x)⟩ :=
  ⟨fun _ _ _ => nearest_rel hp h _, fun x => by
    have := nearest_rel hp h (Real.exp x)
    rwa [abs_of_pos (Real.exp_pos x)] at this, fun _ _ => nearest_rel hp h _⟩

/-- Every function has points where the bound holds, with a positive error `k`. -/
example : WellDefined (1 / 1000) (1 / 1000) .logdet 3 ∧ WellDefined (1 / 1000) (1 / 1000) .traceinv (-2) ∧
    WellDefined (1 / 1000) (1 / 1000) (.trlinfrac 1 2 1 1) 5 ∧ WellDefined (1 / 1000) (1 / 1000) (.eigencount 1 3) 2 ∧
    WellDefined (1 / 1000) (1 / 1000) (.density 0 1) (-4) := by
  refine ⟨by norm_num [WellDefined], by norm_num [WellDefined], ?_, ?_, by norm_num [WellDefined]⟩
  · norm_num [WellDefined, sumError]
  · right
    norm_num

/-! ### Where the value of a sample is wrong -/

theorem representable_multiple {p : ℕ} {y : ℝ} (hy : Representable p y) {j : ℕ} (h : (2 : ℝ) ^ (p + j) ≤ |y|) :
    ∃ z : ℤ, y = z * (2 : ℝ) ^ (j + 1) := by
  obtain ⟨s, e, hs, rfl⟩ := hy
  have hs' : |(s : ℝ)| < 2 ^ p := by exact_mod_cast hs
  rw [abs_mul, abs_of_pos (by positivity : (0 : ℝ) < 2 ^ e)] at h
  have h1 : (2 : ℝ) ^ (j : ℤ) < (2 : ℝ) ^ e := by
    have h2 : (2 : ℝ) ^ (p + j) < 2 ^ p * (2 : ℝ) ^ e :=
      lt_of_le_of_lt h (mul_lt_mul_of_pos_right hs' (by positivity))
    rw [pow_add] at h2
    rw [zpow_natCast]
    exact lt_of_mul_lt_mul_left h2 (by positivity)
  have h3 : (j : ℤ) < e := (zpow_lt_zpow_iff_right₀ (by norm_num)).1 h1
  refine ⟨s * 2 ^ (e - (j + 1)).toNat, ?_⟩
  push_cast
  rw [mul_assoc]
  congr 1
  rw [← zpow_natCast, ← zpow_natCast, ← zpow_add₀ (by norm_num)]
  congr 1
  push_cast
  omega

/-- `2^(p+1) + 1` has too many bits and rounds to `2^(p+1)`. -/
theorem nearest_drops {p : ℕ} (hp : 1 ≤ p) {fl : ℝ → ℝ} (h : Nearest p fl) :
    fl ((2 : ℝ) ^ (p + 1) + 1) = (2 : ℝ) ^ (p + 1) ∧ Representable p ((2 : ℝ) ^ (p + 1)) := by
  have hr : Representable p ((2 : ℝ) ^ (p + 1)) :=
    ⟨1, (p + 1 : ℕ), by simpa using one_lt_pow₀ (by norm_num : (1 : ℤ) < 2) (by omega : p ≠ 0), by
      rw [zpow_natCast]; simp⟩
  refine ⟨?_, hr⟩
  obtain ⟨h1, h2⟩ := h ((2 : ℝ) ^ (p + 1) + 1)
  have h3 := h2 _ hr
  rw [sub_add_cancel_left, abs_neg, abs_one] at h3
  have h4 := abs_le.1 h3
  have hpos : (0 : ℝ) < 2 ^ (p + 1) := by positivity
  have h5 : (2 : ℝ) ^ (p + 1) ≤ |fl (2 ^ (p + 1) + 1)| := by
    rw [abs_of_nonneg (by linarith)]
    linarith
  obtain ⟨z, hz⟩ := representable_multiple h1 h5
  rw [hz] at h4 ⊢
  obtain ⟨r, rfl⟩ : ∃ r, p = r + 1 := ⟨p - 1, by omega⟩
  have e1 : (2 : ℝ) ^ (r + 1 + 1) = ((2 ^ r : ℤ) : ℝ) * 2 ^ (1 + 1) := by
    push_cast
    ring
  rw [e1] at h4 ⊢
  obtain ⟨h4, h4'⟩ := h4
  have e2 : (2 : ℝ) ^ (1 + 1) = 4 := by norm_num
  rw [e2] at h4 h4'
  have h6 : (z : ℝ) - ((2 ^ r : ℤ) : ℝ) ≤ 1 / 2 := by linarith
  have h7 : (-1 : ℝ) < (z : ℝ) - ((2 ^ r : ℤ) : ℝ) := by linarith
  have h8 : z = 2 ^ r := by
    have a : (z : ℝ) < ((2 ^ r : ℤ) : ℝ) + 1 := by linarith
    have b : ((2 ^ r : ℤ) : ℝ) < (z : ℝ) + 1 := by linarith
    have a' : z < 2 ^ r + 1 := by exact_mod_cast a
    have b' : (2 : ℤ) ^ r < z + 1 := by exact_mod_cast b
    omega
  rw [h8]

/-- C97 fails for inquiries by a shift: the operator has the eigenvalue one at the parameter zero.  If a large parameter is
inquired first, the eigenvalue there, rounded as well as possible, is shifted back to zero, and the logarithm is not
finite. -/
theorem shift_cancels {p : ℕ} (hp : 1 ≤ p) {flD : ℝ → ℝ} (hD : Nearest p flD) (flW : ℝ → ℝ) :
    shiftedEigenvalue flD (2 ^ (p + 1)) (flD (2 ^ (p + 1) + 1)) 0 = 0 ∧
    nodeValue flD flW ⟨fun x y => flD (x ^ y), fun x => flD (Real.exp x), fun x => flD (Real.log x)⟩ .logdet 1 0 =
      .error .invalid ∧
    exactFunction .logdet ((1 : ℝ) ^ (1 : ℝ)) = 0 := by
  have h0 : flD 0 = 0 := nearest_fixed hD (representable_zero p)
  refine ⟨?_, ?_, by simp [exactFunction]⟩
  · unfold shiftedEigenvalue
    rw [(nearest_drops hp hD).1, sub_self, h0, add_zero, h0]
  · simp only [nodeValue, function, logarithm]
    rw [nearest_one hp hD, Real.rpow_one, h0]
    simp

/-- C97 fails near a pole of the function of `trlinfrac`, since the coefficients are converted to the type of the data: with
`1 / (d - y)` for `d = 2^(p+1) + 1` and the eigenvalue `y = 2^(p+1)` the value is one, and a division by zero is computed.
With `float32` the coefficient is 33554433. -/
theorem coefficient_moves_pole {p : ℕ} (hp : 1 ≤ p) {flD : ℝ → ℝ} (hD : Nearest p flD) (flW : ℝ → ℝ) (lib : Libm) :
    function flD flW lib (.trlinfrac 0 1 (-1) (2 ^ (p + 1) + 1)) (2 ^ (p + 1)) = .error .invalid ∧
    exactFunction (.trlinfrac 0 1 (-1) (2 ^ (p + 1) + 1)) (2 ^ (p + 1)) = 1 := by
  have h0 : flD 0 = 0 := nearest_fixed hD (representable_zero p)
  have h1 : flD (-1) = -1 :=
    nearest_fixed hD ⟨-1, 0, by simpa using one_lt_pow₀ (by norm_num : (1 : ℤ) < 2) (by omega : p ≠ 0), by simp⟩
  have h2 : flD (-1 * 2 ^ (p + 1)) = -2 ^ (p + 1) := by
    rw [neg_one_mul]
    refine nearest_fixed hD ⟨-1, (p + 1 : ℕ), ?_, by rw [zpow_natCast]; simp⟩
    simpa using one_lt_pow₀ (by norm_num : (1 : ℤ) < 2) (by omega : p ≠ 0)
  constructor
  · simp only [function, homographic]
    rw [h1, h2, (nearest_drops hp hD).1, neg_add_cancel, h0, if_pos rfl]
  · norm_num [exactFunction]

/-- C97 fails at the ends of the interval of `eigencount` if the exponent is not one: the eigenvalue `y = 2^p - 1` of a
matrix, squared, lies in the interval that begins and ends there, and is not counted.  The ends have `2 p` bits, so with
`float32` they are numbers of the type `double` of the parameters. -/
theorem eigencount_end_lost {p : ℕ} (hp : 2 ≤ p) {flD : ℝ → ℝ} (hD : Nearest p flD) (flW : ℝ → ℝ) :
    nodeValue flD flW ⟨fun x y => flD (x ^ y), fun x => flD (Real.exp x), fun x => flD (Real.log x)⟩
      (.eigencount ((2 ^ p - 1) ^ 2) ((2 ^ p - 1) ^ 2)) 2 (2 ^ p - 1) = .ok 0 ∧
    exactFunction (.eigencount ((2 ^ p - 1) ^ 2) ((2 ^ p - 1) ^ 2)) ((2 ^ p - 1) ^ (2 : ℝ)) = 1 ∧
    Representable p ((2 : ℝ) ^ p - 1) ∧ Representable (2 * p) (((2 : ℝ) ^ p - 1) ^ 2) := by
  have hrep2 : Representable (2 * p) (((2 : ℝ) ^ p - 1) ^ 2) := by
    refine ⟨(2 ^ p - 1) ^ 2, 0, ?_, by push_cast; simp⟩
    have h1 := one_le_pow₀ (n := p) (by norm_num : (1 : ℤ) ≤ 2)
    rw [abs_of_nonneg (sq_nonneg _), mul_comm 2 p, pow_mul]
    exact pow_lt_pow_left₀ (by omega) (by omega) (by norm_num)
  have hrep : Representable p ((2 : ℝ) ^ p - 1) := by
    refine ⟨2 ^ p - 1, 0, ?_, by push_cast; simp⟩
    rw [abs_of_nonneg (by have := one_le_pow₀ (n := p) (by norm_num : (1 : ℤ) ≤ 2); omega)]
    omega
  have h2 : flD 2 = 2 := nearest_fixed hD ⟨1, 1, by simpa using one_lt_pow₀ (by norm_num : (1 : ℤ) < 2) (by omega : p ≠ 0),
    by simp⟩
  obtain ⟨r, rfl⟩ : ∃ r, p = r + 2 := ⟨p - 2, by omega⟩
  have hlow : Representable (r + 2) (((2 : ℝ) ^ (r + 2) - 1) ^ 2 - 1) := by
    refine ⟨2 ^ (r + 2) - 2, (r + 2 : ℕ), ?_, ?_⟩
    · rw [abs_of_nonneg (by
        have := one_le_pow₀ (n := r) (by norm_num : (1 : ℤ) ≤ 2)
        rw [pow_add]
        omega)]
      omega
    · rw [zpow_natCast]
      push_cast
      ring
  have hlt : flD (((2 : ℝ) ^ (r + 2) - 1) ^ 2) < ((2 : ℝ) ^ (r + 2) - 1) ^ 2 := by
    obtain ⟨h1, h3⟩ := hD (((2 : ℝ) ^ (r + 2) - 1) ^ 2)
    have h4 := h3 _ hlow
    rw [sub_sub_cancel_left, abs_neg, abs_one] at h4
    have h5 := abs_le.1 h4
    clear h3 h4
    generalize flD (((2 : ℝ) ^ (r + 2) - 1) ^ 2) = y at *
    have hr1 : (1 : ℝ) ≤ 2 ^ r := one_le_pow₀ (by norm_num)
    have e1 : (2 : ℝ) ^ (r + 2) = 2 ^ r * 4 := by rw [pow_add]; norm_num
    have h6 : (2 : ℝ) ^ (r + 2 + (r + 1)) ≤ |y| := by
      refine le_trans ?_ (le_abs_self _)
      have e2 : (2 : ℝ) ^ (r + 2 + (r + 1)) = 2 ^ r * 2 ^ r * 8 := by rw [pow_add, pow_add, pow_add]; ring
      rw [e2]
      rw [e1] at h5
      nlinarith [h5.1]
    obtain ⟨z, hz⟩ := representable_multiple h1 h6
    by_contra hc
    rw [not_lt] at hc
    subst hz
    have e3 : (2 : ℝ) ^ (r + 1 + 1) = 2 ^ r * 4 := by rw [show r + 1 + 1 = r + 2 by ring, e1]
    rw [e3] at hc h5
    have e4 : ((2 : ℝ) ^ r * 4 - 1) ^ 2 = ((2 ^ r * 4 - 2 : ℤ) : ℝ) * (2 ^ r * 4) + 1 := by
      push_cast
      ring
    rw [e4] at hc h5
    have hpos : (0 : ℝ) < 2 ^ r * 4 := by positivity
    have h7 : ((2 ^ r * 4 - 2 : ℤ) : ℝ) < z := by
      by_contra h8
      rw [not_lt] at h8
      have := mul_le_mul_of_nonneg_right h8 hpos.le
      linarith
    have h8 : (2 ^ r * 4 - 2 : ℤ) + 1 ≤ z := by exact_mod_cast h7
    have h9 : (((2 ^ r * 4 - 2 : ℤ) + 1 : ℤ) : ℝ) ≤ z := by exact_mod_cast h8
    have h10 := mul_le_mul_of_nonneg_right h9 hpos.le
    push_cast at h10 h5
    nlinarith
  refine ⟨?_, ?_, hrep, hrep2⟩
  · simp only [nodeValue, function, indicator]
    rw [h2]
    have : flD (((2 : ℝ) ^ (r + 2) - 1) ^ (2 : ℝ)) < ((2 : ℝ) ^ (r + 2) - 1) ^ 2 := by rwa [Real.rpow_two]
    exact if_pos (Or.inl this)
  · rw [Real.rpow_two]
    simp [exactFunction]

end Imate.Props
