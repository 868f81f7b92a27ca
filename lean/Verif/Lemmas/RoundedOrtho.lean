import Mathlib.Algebra.Order.Chebyshev
import Verif.Lemmas.RoundedLanczos
import Verif.Model.RoundedOrtho
import Verif.Props.RoundedLanczos

/-!
# Auxiliary results on reorthogonalization with rounding
-/

namespace Imate.Rounded

open Matrix Spec Props

variable {n : ℕ}

/-! ### Lengths -/

theorem sum_abs_mul_le (x y : Fin n → ℝ) : ∑ i, |x i| * |y i| ≤ len x * len y := by
  have h1 : (∑ i, |x i| * |y i|) ^ 2 ≤ (∑ i, |x i| ^ 2) * ∑ i, |y i| ^ 2 := Finset.sum_mul_sq_le_sq_mul_sq _ _ _
  have e : ∀ z : Fin n → ℝ, ∑ i, |z i| ^ 2 = len z * len z := fun z => by
    rw [len_sq]
    exact Finset.sum_congr rfl fun i _ => by rw [sq_abs, pow_two]
  rw [e, e] at h1
  have h2 : 0 ≤ len x * len y := mul_nonneg (len_nonneg _) (len_nonneg _)
  exact le_of_sq_le_sq (by nlinarith) h2

theorem abs_dot_le (x y : Fin n → ℝ) : |x ⬝ᵥ y| ≤ len x * len y := by
  refine le_trans ?_ (sum_abs_mul_le x y)
  refine (Finset.abs_sum_le_sum_abs (fun i => x i * y i) Finset.univ).trans (Finset.sum_le_sum fun i _ => ?_)
  rw [abs_mul]

theorem len_le_of_sq {x : Fin n → ℝ} {c : ℝ} (hc : 0 ≤ c) (h : x ⬝ᵥ x ≤ c * c) : len x ≤ c := by
  rw [← len_sq] at h
  nlinarith [len_nonneg x]

theorem len_add_le (x y : Fin n → ℝ) : len (x + y) ≤ len x + len y := by
  refine len_le_of_sq (add_nonneg (len_nonneg _) (len_nonneg _)) ?_
  have e : (x + y) ⬝ᵥ (x + y) = x ⬝ᵥ x + 2 * (x ⬝ᵥ y) + y ⬝ᵥ y := by
    rw [add_dotProduct, dotProduct_add, dotProduct_add, dotProduct_comm y x]; ring
  rw [e, ← len_sq, ← len_sq]
  have := (abs_le.1 (abs_dot_le x y)).2
  nlinarith

theorem len_scale (c : ℝ) (x : Fin n → ℝ) : len (c • x) = |c| * len x := len_smul c x

theorem len_neg (x : Fin n → ℝ) : len (-x) = len x := by
  unfold len; rw [neg_dotProduct_neg]

theorem len_sub_le (x y : Fin n → ℝ) : len (x - y) ≤ len x + len y := by
  rw [sub_eq_add_neg]
  exact (len_add_le _ _).trans (by rw [len_neg])

/-- An error relative to a sum of absolute values. -/
theorem len_le_two {d x y : Fin n → ℝ} {c : ℝ} (hc : 0 ≤ c) (h : ∀ i, |d i| ≤ c * (|x i| + |y i|)) :
    len d ≤ c * (len x + len y) := by
  have h1 : len d ≤ c * len (fun i => |x i| + |y i|) := len_le_of_abs_le hc fun i => by
    rw [abs_of_nonneg (a := |x i| + |y i|) (by positivity)]; exact h i
  have e : ∀ z : Fin n → ℝ, len (fun i => |z i|) = len z := fun z => by
    unfold len
    congr 1
    exact Finset.sum_congr rfl fun i _ => abs_mul_abs_self _
  have h2 := len_add_le (fun i => |x i|) (fun i => |y i|)
  rw [e, e] at h2
  exact h1.trans (mul_le_mul_of_nonneg_left h2 hc)

/-! ### One step -/

/-- The vector `y'` is `y` minus the multiple `c` of `w`, up to errors of relative size `ε`, and the multiple is nearly the
one of the orthogonal projection. -/
structure NearProj (ε : ℝ) (w y y' : Fin n → ℝ) (c : ℝ) : Prop where
  coeff : |c * (len w * len w) - w ⬝ᵥ y| ≤ 4 * ε * len y
  err : len (y' - (y - c • w)) ≤ ε * (len y + |c| * len w)

section

variable {ε : ℝ} {w y y' : Fin n → ℝ} {c : ℝ}

theorem NearProj.c_len (h : NearProj ε w y y' c) (hε : 0 ≤ ε) (hε' : ε ≤ 1 / 64) (hw : |len w - 1| ≤ 3 * ε) :
    |c| * len w ≤ 9 / 8 * len y ∧ |c| ≤ 9 / 8 * (|w ⬝ᵥ y| + 4 * ε * len y) := by
  obtain ⟨h1, h2⟩ := abs_le.1 hw
  have hl : 61 / 64 ≤ len w := by linarith
  have hL := len_nonneg y
  have hc : |c| * (len w * len w) ≤ |w ⬝ᵥ y| + 4 * ε * len y := by
    have := abs_sub_abs_le_abs_sub (c * (len w * len w)) (w ⬝ᵥ y)
    rw [abs_mul, abs_of_nonneg (mul_nonneg (len_nonneg w) (len_nonneg w))] at this
    linarith [h.coeff]
  have hc0 := abs_nonneg c
  constructor
  · have h3 := abs_dot_le w y
    have h4 : |c| * len w * len w ≤ (len w + 4 * ε) * len y := by nlinarith
    have h5 : (len w + 4 * ε) * len y ≤ 9 / 8 * len y * len w := by
      have : len w + 4 * ε ≤ 9 / 8 * len w := by nlinarith
      nlinarith
    have h6 : |c| * len w * len w ≤ 9 / 8 * len y * len w := h4.trans h5
    exact le_of_mul_le_mul_right h6 (by linarith)
  · have h3 : (8 : ℝ) / 9 ≤ len w * len w := by nlinarith
    nlinarith

theorem NearProj.err_le (h : NearProj ε w y y' c) (hε : 0 ≤ ε) (hε' : ε ≤ 1 / 64) (hw : |len w - 1| ≤ 3 * ε) :
    len (y' - (y - c • w)) ≤ 17 / 8 * ε * len y := by
  have := (h.c_len hε hε' hw).1
  refine h.err.trans ?_
  nlinarith

/-- The step removes the component along the vector. -/
theorem NearProj.removed (h : NearProj ε w y y' c) (hε : 0 ≤ ε) (hε' : ε ≤ 1 / 64) (hw : |len w - 1| ≤ 3 * ε) :
    |w ⬝ᵥ y'| ≤ 13 / 2 * ε * len y := by
  obtain ⟨h1, h2⟩ := abs_le.1 hw
  have e : w ⬝ᵥ y' = -(c * (len w * len w) - w ⬝ᵥ y) + w ⬝ᵥ (y' - (y - c • w)) := by
    rw [len_sq, dotProduct_sub, dotProduct_sub, dotProduct_smul, smul_eq_mul]; ring
  have h3 := abs_dot_le w (y' - (y - c • w))
  have h4 := h.err_le hε hε' hw
  have hL := len_nonneg y
  have h5 : len w * len (y' - (y - c • w)) ≤ 67 / 64 * (17 / 8 * ε * len y) :=
    mul_le_mul (by linarith) h4 (len_nonneg _) (by norm_num)
  rw [e]
  refine (abs_add_le _ _).trans ?_
  rw [abs_neg]
  have h6 : 0 ≤ ε * len y := mul_nonneg hε hL
  linarith [h.coeff]

/-- The step hardly lengthens the vector. -/
theorem NearProj.len_le (h : NearProj ε w y y' c) (hε : 0 ≤ ε) (hε' : ε ≤ 1 / 64) (hw : |len w - 1| ≤ 3 * ε) :
    len y' ≤ (1 + 5 / 2 * ε) * len y := by
  obtain ⟨h1, h2⟩ := abs_le.1 hw
  have hL := len_nonneg y
  have h4 := h.err_le hε hε' hw
  have e1 : y' = (y - c • w) + (y' - (y - c • w)) := by abel
  have hexact : len (y - c • w) ≤ (1 + 1 / 4 * ε) * len y := by
    refine len_le_of_sq (by positivity) ?_
    have e2 : (y - c • w) ⬝ᵥ (y - c • w) = y ⬝ᵥ y - 2 * c * (w ⬝ᵥ y) + c * c * (w ⬝ᵥ w) := by
      rw [sub_dotProduct, dotProduct_sub, dotProduct_sub, dotProduct_smul, smul_dotProduct, smul_dotProduct,
        dotProduct_smul, dotProduct_comm y w]
      simp only [smul_eq_mul]
      ring
    rw [e2, ← len_sq, ← len_sq]
    set l := len w * len w with hl
    set d := w ⬝ᵥ y
    set f := c * l - d with hf
    have hl' : 8 / 9 ≤ l := by nlinarith
    have hlp : 0 < l := by linarith
    have hfb : f * f ≤ 16 * (ε * len y) * (ε * len y) := by
      have h5 : |f| ≤ 4 * (ε * len y) := by have := h.coeff; rw [← hl] at this; linarith
      have h6 := mul_self_le_mul_self (abs_nonneg f) h5
      rw [abs_mul_abs_self] at h6
      linarith
    have h7 : -(2 * c * d) + c * c * l ≤ f * f / l := by
      rw [le_div_iff₀ hlp]
      have : (-(2 * c * d) + c * c * l) * l = f * f - d * d := by rw [hf]; ring
      nlinarith
    have h8 : f * f / l ≤ 9 / 8 * (f * f) := by
      rw [div_le_iff₀ hlp]
      nlinarith [mul_self_nonneg f]
    have h9 : ε * len y * (ε * len y) ≤ 1 / 64 * ε * (len y * len y) := by
      have := mul_nonneg hL hL
      nlinarith [mul_nonneg (mul_nonneg hε this) (sub_nonneg.2 hε')]
    have h10 : 0 ≤ len y * len y := mul_nonneg hL hL
    nlinarith [mul_nonneg hε h10, mul_nonneg (mul_nonneg hε hε) h10]
  have h11 := len_add_le (y - c • w) (y' - (y - c • w))
  rw [← e1] at h11
  nlinarith [mul_nonneg hε hL]

/-- The step changes another component only a little. -/
theorem NearProj.other (h : NearProj ε w y y' c) (hε : 0 ≤ ε) (hε' : ε ≤ 1 / 64) (hw : |len w - 1| ≤ 3 * ε)
    {x : Fin n → ℝ} (hx : |len x - 1| ≤ 3 * ε) {η : ℝ} (hη : |x ⬝ᵥ w| ≤ η) :
    |x ⬝ᵥ y' - x ⬝ᵥ y| ≤ |c| * η + 9 / 4 * ε * len y := by
  obtain ⟨h1, h2⟩ := abs_le.1 hx
  have e : x ⬝ᵥ y' - x ⬝ᵥ y = -(c * (x ⬝ᵥ w)) + x ⬝ᵥ (y' - (y - c • w)) := by
    rw [dotProduct_sub, dotProduct_sub, dotProduct_smul, smul_eq_mul]; ring
  have h3 := abs_dot_le x (y' - (y - c • w))
  have h4 := h.err_le hε hε' hw
  have h5 : len x * len (y' - (y - c • w)) ≤ 67 / 64 * (17 / 8 * ε * len y) :=
    mul_le_mul (by linarith) h4 (len_nonneg _) (by norm_num)
  rw [e]
  refine (abs_add_le _ _).trans ?_
  rw [abs_neg, abs_mul]
  have h6 : 0 ≤ ε * len y := mul_nonneg hε (len_nonneg y)
  have h7 := mul_le_mul_of_nonneg_left hη (abs_nonneg c)
  linarith

/-- The size of the change. -/
theorem NearProj.change (h : NearProj ε w y y' c) (hε : 0 ≤ ε) (hε' : ε ≤ 1 / 64) (hw : |len w - 1| ≤ 3 * ε) :
    len (y' - y) ≤ 67 / 64 * |c| + 17 / 8 * ε * len y := by
  obtain ⟨h1, h2⟩ := abs_le.1 hw
  have e : y' - y = -(c • w) + (y' - (y - c • w)) := by abel
  have h3 := len_add_le (-(c • w)) (y' - (y - c • w))
  rw [← e, len_neg, len_scale] at h3
  have h4 := h.err_le hε hε' hw
  have := abs_nonneg c
  nlinarith

end

/-! ### The model of one step -/

section

variable {p e q : ℕ} {flD flE flL : ℝ → ℝ}

theorem unit_pos (p : ℕ) : 0 < unitRoundoff p := by unfold unitRoundoff; positivity

theorem unit_le_half {p : ℕ} (hp : 1 ≤ p) : unitRoundoff p ≤ 1 / 2 := by
  unfold unitRoundoff
  rw [zpow_neg, zpow_natCast, one_div]
  exact inv_anti₀ (by norm_num) (le_self_pow₀ (by norm_num) (by omega))

theorem seven_unit_le (p q n : ℕ) : 7 * unitRoundoff p ≤ normFactor p q n - 1 := by
  have h1 := unit_pos p
  have h2 := unit_pos q
  have h3 : 1 + (7 : ℕ) * unitRoundoff p ≤ (1 + unitRoundoff p) ^ 7 :=
    one_add_mul_le_pow (by linarith) 7
  have h4 : 1 ≤ (1 + unitRoundoff q) ^ n := one_le_pow₀ (by linarith)
  have h5 : (1 + unitRoundoff p) ^ 7 ≤ normFactor p q n := le_mul_of_one_le_right (by positivity) h4
  push_cast at h3
  linarith

/-- The square of the computed norm. -/
theorem square_near {ε u l N sq : ℝ} (hε : 0 ≤ ε) (hε' : ε ≤ 1 / 64) (hu7 : 7 * u ≤ ε) (hl : 0 < l)
    (hN : |N - l| ≤ ε * l) (hsq : |sq - N * N| ≤ u * (N * N)) : 0 < sq ∧ |l * l / sq - 1| ≤ 5 / 2 * ε := by
  obtain ⟨n1, n2⟩ := abs_le.1 hN
  obtain ⟨s1, s2⟩ := abs_le.1 hsq
  have hll : 0 < l * l := by positivity
  have hNl : (1 - ε) * l ≤ N := by linarith
  have hNu : N ≤ (1 + ε) * l := by linarith
  have hA : 0 ≤ ε * (l * l) := mul_nonneg hε hll.le
  have hB : 0 ≤ ε * (1 / 64 - ε) * (l * l) := mul_nonneg (mul_nonneg hε (sub_nonneg.2 hε')) hll.le
  have hC : 0 ≤ ε * ε * (l * l) := mul_nonneg (mul_nonneg hε hε) hll.le
  have hNN1 : (1 - 2 * ε) * (l * l) ≤ N * N := by
    have h1 := mul_self_le_mul_self (mul_nonneg (by linarith) hl.le) hNl
    linarith
  have hNN2 : N * N ≤ (1 + 33 / 16 * ε) * (l * l) := by
    have h1 := mul_self_le_mul_self (le_trans (mul_nonneg (by linarith) hl.le) hNl) hNu
    linarith
  have hNN0 : 0 ≤ N * N := mul_self_nonneg N
  have h1 : u * (N * N) ≤ ε / 7 * (N * N) := mul_le_mul_of_nonneg_right (by linarith) hNN0
  have hq1 : (1 - 9 / 4 * ε) * (l * l) ≤ sq := by
    have h2 : (1 - ε / 7) * ((1 - 2 * ε) * (l * l)) ≤ (1 - ε / 7) * (N * N) :=
      mul_le_mul_of_nonneg_left hNN1 (by linarith)
    linarith
  have hq2 : sq ≤ (1 + 9 / 4 * ε) * (l * l) := by
    have h2 : (1 + ε / 7) * (N * N) ≤ (1 + ε / 7) * ((1 + 33 / 16 * ε) * (l * l)) :=
      mul_le_mul_of_nonneg_left hNN2 (by linarith)
    linarith
  have sqpos : 0 < sq := lt_of_lt_of_le (mul_pos (by linarith) hll) hq1
  refine ⟨sqpos, ?_⟩
  rw [div_sub_one sqpos.ne', abs_div, abs_of_pos sqpos, div_le_iff₀ sqpos, abs_le]
  have h3 : 5 / 2 * ε * ((1 - 9 / 4 * ε) * (l * l)) ≤ 5 / 2 * ε * sq := mul_le_mul_of_nonneg_left hq1 (by positivity)
  constructor <;> linarith

/-- The computed coefficient. -/
theorem coeff_near {ε u l L d N I sq sc : ℝ} (hε : 0 ≤ ε) (hε' : ε ≤ 1 / 64) (hu : 0 ≤ u) (hu7 : 7 * u ≤ ε)
    (hl : |l - 1| ≤ 3 * ε) (hL : 0 ≤ L) (hd : |d| ≤ l * L) (hN : |N - l| ≤ ε * l) (hI : |I - d| ≤ ε * (l * L))
    (hsq : |sq - N * N| ≤ u * (N * N)) (hsc : |sc - I / sq| ≤ u * |I / sq|) : |sc * (l * l) - d| ≤ 4 * ε * L := by
  obtain ⟨l1, l2⟩ := abs_le.1 hl
  have lpos : 0 < l := by linarith
  have hll : 0 < l * l := by positivity
  obtain ⟨sqpos, hdev⟩ := square_near hε hε' hu7 lpos hN hsq
  have hI' : |I| ≤ 65 / 64 * (l * L) := by
    have h1 := abs_sub_abs_le_abs_sub I d
    have h2 : 0 ≤ l * L := mul_nonneg lpos.le hL
    nlinarith
  have e1 : sc * (l * l) - d = (sc - I / sq) * (l * l) + I * (l * l / sq - 1) + (I - d) := by
    field_simp
    ring
  have h3 : |(sc - I / sq) * (l * l)| ≤ 3 / 16 * ε * |I| := by
    rw [abs_mul, abs_of_pos hll]
    have h4 : |sc - I / sq| * (l * l) ≤ u * |I / sq| * (l * l) := mul_le_mul_of_nonneg_right hsc hll.le
    have h5 : u * |I / sq| * (l * l) = u * (|I| * (l * l / sq)) := by
      rw [abs_div, abs_of_pos sqpos]; ring
    have h6 : l * l / sq ≤ 17 / 16 := by have := (abs_le.1 hdev).2; linarith
    have h7 : |I| * (l * l / sq) ≤ |I| * (17 / 16) := mul_le_mul_of_nonneg_left h6 (abs_nonneg I)
    have h8 : u * (|I| * (l * l / sq)) ≤ ε / 7 * (|I| * (17 / 16)) :=
      mul_le_mul (by linarith) h7 (mul_nonneg (abs_nonneg I) (by positivity)) (by positivity)
    linarith [mul_nonneg hε (abs_nonneg I)]
  have h9 : |I * (l * l / sq - 1)| ≤ 5 / 2 * ε * |I| := by
    rw [abs_mul, mul_comm]
    exact mul_le_mul_of_nonneg_right hdev (abs_nonneg I)
  rw [e1]
  refine (abs_add_le _ _).trans ?_
  have h10 := abs_add_le ((sc - I / sq) * (l * l)) (I * (l * l / sq - 1))
  have h11 : 43 / 16 * ε * |I| ≤ 43 / 16 * ε * (65 / 64 * (l * L)) := mul_le_mul_of_nonneg_left hI' (by positivity)
  have h12 : l * L ≤ 67 / 64 * L := mul_le_mul_of_nonneg_right (by linarith) hL
  have h13 : ε * (l * L) ≤ ε * (67 / 64 * L) := mul_le_mul_of_nonneg_left h12 hε
  linarith [mul_nonneg hε hL]

/-- The norm of a vector of length near one passes the test. -/
theorem norm_test (he : 1 ≤ e) (hE : Nearest e flE) {eps N x : ℝ} (heps : 0 ≤ eps) (hx : 0 ≤ x) (h : eps * x ≤ 1 / 4)
    (hN : 5 / 8 ≤ N) : ¬ N < flE (eps * flE x) := by
  have relE := nearest_rel he hE
  have hhalf := unit_le_half he
  have h1 : |flE x - x| ≤ unitRoundoff e * |x| := relE x
  rw [abs_of_nonneg hx] at h1
  have h0 : unitRoundoff e * x ≤ 1 / 2 * x := mul_le_mul_of_nonneg_right hhalf hx
  obtain ⟨g1, g2⟩ := abs_le.1 h1
  have h2 : eps * flE x ≤ eps * (3 / 2 * x) := mul_le_mul_of_nonneg_left (by linarith) heps
  have h3 : 0 ≤ eps * flE x := mul_nonneg heps (by linarith)
  have h4 : |flE (eps * flE x) - eps * flE x| ≤ unitRoundoff e * |eps * flE x| := relE _
  rw [abs_of_nonneg h3] at h4
  have h5 : unitRoundoff e * (eps * flE x) ≤ 1 / 2 * (eps * flE x) := mul_le_mul_of_nonneg_right hhalf h3
  have h6 := (abs_le.1 h4).2
  intro hlt
  linarith

/-- A multiple that is not near one in absolute value passes the test. -/
theorem scale_test (he : 1 ≤ e) (hE : Nearest e flE) {eps sc : ℝ} (heps0 : 0 < eps) (heps : eps ≤ 1 / 16)
    (hsc : |sc| ≤ 9 / 16) : ¬ |flE (|sc| - 1)| ≤ flE (2 * eps) := by
  have relE := nearest_rel he hE
  have hhalf := unit_le_half he
  have h1 : |flE (|sc| - 1) - (|sc| - 1)| ≤ unitRoundoff e * |(|sc| - 1)| := relE _
  have h2 : |(|sc| - 1)| = 1 - |sc| := by rw [abs_of_nonpos (by linarith)]; ring
  have h3 := abs_sub_abs_le_abs_sub (|sc| - 1) (flE (|sc| - 1))
  rw [abs_sub_comm (|sc| - 1), h2] at h3
  rw [h2] at h1
  have h4 : unitRoundoff e * (1 - |sc|) ≤ 1 / 2 * (1 - |sc|) := mul_le_mul_of_nonneg_right hhalf (by linarith)
  have h5 : |flE (2 * eps) - 2 * eps| ≤ unitRoundoff e * |2 * eps| := relE _
  rw [abs_of_pos (show 0 < 2 * eps by linarith)] at h5
  have h6 := (abs_le.1 h5).2
  have h7 : unitRoundoff e * (2 * eps) ≤ 1 / 2 * (2 * eps) := mul_le_mul_of_nonneg_right hhalf (by linarith)
  intro hle
  linarith

/-- Unless the multiple is near one in absolute value, a step is a projection up to rounding. -/
theorem gsStep_near (hp : 1 ≤ p) (he : 1 ≤ e) (hq : 1 ≤ q) (hD : Nearest p flD) (hE : Nearest e flE) (hL : Nearest q flL)
    {ε : ℝ} (hε : normFactor p q n - 1 ≤ ε) (hε' : ε ≤ 1 / 64) {eps : ℝ} (heps0 : 0 < eps) (heps : eps ≤ 1 / 16)
    (hepsn : eps * Real.sqrt n ≤ 1 / 4) {w y : Fin n → ℝ} (hw : |len w - 1| ≤ 3 * ε)
    (hsmall : |w ⬝ᵥ y| + 4 * ε * len y ≤ 1 / 2) :
    ∃ y' c, gsStep flD flE flL eps n (Array.ofFn w) (Array.ofFn y) = .ok (Array.ofFn y') ∧ NearProj ε w y y' c := by
  have hu := (unit_pos p).le
  have h7 := seven_unit_le p q n
  have hε0 : 0 ≤ ε := by linarith
  have relD := nearest_rel hp hD
  have relE := nearest_rel he hE
  obtain ⟨l1, l2⟩ := abs_le.1 hw
  obtain ⟨N, hN1, hN2⟩ := norm_len (n := n) hp hq hD hL (by linarith) w
  replace hN2 := hN2.trans (mul_le_mul_of_nonneg_right hε (len_nonneg w))
  obtain ⟨I, hI1, hI2⟩ := inner_product_accurate hp hq hD hL w y
  have hI3 : |I - w ⬝ᵥ y| ≤ ε * (len w * len y) := by
    refine hI2.trans ?_
    have h1 : (1 + unitRoundoff p) ^ 6 * (1 + unitRoundoff q) ^ n - 1 ≤ ε := by
      refine le_trans ?_ hε
      have : (1 + unitRoundoff p) ^ 6 ≤ (1 + unitRoundoff p) ^ 7 := pow_le_pow_right₀ (by linarith) (by norm_num)
      have := mul_le_mul_of_nonneg_right this (pow_nonneg (by linarith [unit_pos q]) n : 0 ≤ (1 + unitRoundoff q) ^ n)
      unfold normFactor
      linarith
    exact mul_le_mul h1 (sum_abs_mul_le w y) (Finset.sum_nonneg fun i _ => by positivity) hε0
  have hsq := relD (N * N)
  rw [abs_of_nonneg (mul_self_nonneg N)] at hsq
  set sc := flD (I / flD (N * N)) with hsc
  have hcoef := coeff_near hε0 hε' hu (by linarith) hw (len_nonneg y) (abs_dot_le w y) hN2 hI3 hsq (relD (I / flD (N * N)))
  rw [← hsc] at hcoef
  have hscb : |sc| ≤ 9 / 16 := by
    have h1 := abs_sub_abs_le_abs_sub (sc * (len w * len w)) (w ⬝ᵥ y)
    rw [abs_mul, abs_of_nonneg (mul_nonneg (len_nonneg w) (len_nonneg w))] at h1
    have h2 : (8 : ℝ) / 9 ≤ len w * len w := by nlinarith
    have h3 : |sc| * (len w * len w) ≤ 1 / 2 := by linarith
    nlinarith [abs_nonneg sc]
  have hthr : ¬ N < flE (eps * flE (Real.sqrt n)) := by
    refine norm_test he hE heps0.le (Real.sqrt_nonneg _) hepsn ?_
    have h8 := (abs_le.1 hN2).1
    have h9 : ε * len w ≤ 1 / 64 * (67 / 64) := mul_le_mul hε' (by linarith) (len_nonneg w) (by norm_num)
    linarith
  have hskip := scale_test he hE heps0 heps hscb
  obtain ⟨y', hy1, hy2⟩ := subtractScaled_approx hu relD (le_refl (1 + unitRoundoff p)) w sc
    (S := y) (T := fun i => |y i|) (w := y) fun i => approx_self (by linarith)
  refine ⟨y', sc, ?_, hcoef, ?_⟩
  · unfold gsStep
    rw [hN1]
    simp only [Except.ok_bind']
    rw [if_neg hthr, hI1]
    simp only [Except.ok_bind']
    rw [← hsc, if_neg hskip]
    exact hy1
  · have h1 : (1 + unitRoundoff p) * (1 + unitRoundoff p) - 1 ≤ ε := by
      have h0 := unit_le_half hp
      have h3 := mul_le_mul_of_nonneg_left h0 hu
      linarith
    have h2 := len_le_two (d := y' - (y - sc • w)) (x := y) (y := sc • w) hε0 fun i => by
      have h3 := (hy2 i).2
      have h4 : 0 ≤ |y i| + |sc * w i| := by positivity
      exact h3.trans (mul_le_mul_of_nonneg_right h1 h4)
    rwa [len_scale] at h2

/-! ### The process -/

/-- What holds after `s` of `k` steps against `w 0, w 1, ...`, started with `r`. -/
structure GSInv (ε η κ R C : ℝ) (k : ℕ) (w : ℕ → Fin n → ℝ) (r : Fin n → ℝ) (s : ℕ) (y : Fin n → ℝ) : Prop where
  len : len y ≤ (1 + 3 * ε * s) * R
  later : ∀ t, s ≤ t → t < k → |w t ⬝ᵥ y| ≤ κ + s * (C * η + 21 / 8 * (ε * R))
  earlier : ∀ t < s, |w t ⬝ᵥ y| ≤ 15 / 2 * (ε * R) + s * (C * η + 21 / 8 * (ε * R))
  change : ∃ c : ℕ → ℝ, (∀ t, |c t| ≤ C) ∧
    Spec.len (y - (r - ∑ t ∈ Finset.range s, c t • w t)) ≤ s * (5 / 2 * (ε * R))

theorem gs_window_step {ε η κ R C : ℝ} {k : ℕ} {w : ℕ → Fin n → ℝ} {r : Fin n → ℝ} {s : ℕ} {y : Fin n → ℝ}
    (hε : 0 ≤ ε) (hkε : k * ε ≤ 1 / 64) (hη : 0 ≤ η) (hkη : k * η ≤ 1 / 16) (hκ : 0 ≤ κ) (hR : 0 ≤ R)
    (hC : C = 5 / 4 * κ + 9 * (k * (ε * R))) (hunit : ∀ t < k, |len (w t) - 1| ≤ 3 * ε)
    (hortho : ∀ t < k, ∀ t' < k, t ≠ t' → |w t ⬝ᵥ w t'| ≤ η) (hs : s < k) (h : GSInv ε η κ R C k w r s y) :
    |w s ⬝ᵥ y| + 4 * ε * len y ≤ 11 / 10 * κ + 8 * (k * (ε * R)) ∧
    ∀ y' c, NearProj ε (w s) y y' c → GSInv ε η κ R C k w r (s + 1) y' := by
  have hk1 : (1 : ℝ) ≤ k := by exact_mod_cast (by omega : 1 ≤ k)
  have hsk : (s : ℝ) + 1 ≤ k := by exact_mod_cast hs
  have hs0 : (0 : ℝ) ≤ s := Nat.cast_nonneg s
  have hε' : ε ≤ 1 / 64 := by nlinarith
  have hX : 0 ≤ ε * R := mul_nonneg hε hR
  set X := ε * R with hXd
  have hkX : X ≤ k * X := by nlinarith
  have hkX0 : 0 ≤ k * X := by linarith
  have hC0 : 0 ≤ C := by rw [hC]; positivity
  have hsε : s * ε ≤ 1 / 64 := le_trans (mul_le_mul_of_nonneg_right (by linarith) hε) hkε
  have hL : len y ≤ 67 / 64 * R := by
    refine h.len.trans (mul_le_mul_of_nonneg_right ?_ hR)
    linarith
  have hLX : ε * len y ≤ 67 / 64 * X := by
    have := mul_le_mul_of_nonneg_left hL hε
    rw [hXd]; linarith
  have hLX0 : 0 ≤ ε * len y := mul_nonneg hε (len_nonneg y)
  have hCη : 0 ≤ C * η := mul_nonneg hC0 hη
  have hgrow : s * (C * η + 21 / 8 * X) ≤ C / 16 + 21 / 8 * (k * X) := by
    have h1 : s * (C * η + 21 / 8 * X) ≤ k * (C * η + 21 / 8 * X) :=
      mul_le_mul_of_nonneg_right (by linarith) (by linarith)
    have h2 : C * (k * η) ≤ C * (1 / 16) := mul_le_mul_of_nonneg_left hkη hC0
    linarith
  have hd := h.later s le_rfl hs
  have hdb : |w s ⬝ᵥ y| ≤ κ + C / 16 + 21 / 8 * (k * X) := by linarith
  refine ⟨?_, fun y' c hc => ?_⟩
  · rw [hC] at hdb
    linarith
  have hcb : |c| ≤ C := by
    have h1 := (hc.c_len hε hε' (hunit s hs)).2
    have h2 : |w s ⬝ᵥ y| + 4 * ε * len y ≤ κ + C / 16 + 21 / 8 * (k * X) + 67 / 16 * (k * X) := by linarith
    have h3 : |c| ≤ 9 / 8 * (κ + C / 16 + 21 / 8 * (k * X) + 67 / 16 * (k * X)) := by linarith
    rw [hC] at h3 ⊢
    linarith
  have hs1 : ((s + 1 : ℕ) : ℝ) = s + 1 := by push_cast; rfl
  have hmov : ∀ t < k, t ≠ s → |w t ⬝ᵥ y' - w t ⬝ᵥ y| ≤ C * η + 21 / 8 * X := by
    intro t ht hne
    have h1 := hc.other hε hε' (hunit s hs) (hunit t ht) (hortho t ht s hs hne)
    have h2 : |c| * η ≤ C * η := mul_le_mul_of_nonneg_right hcb hη
    linarith
  refine ⟨?_, fun t ht htk => ?_, fun t ht => ?_, ?_⟩
  · have h1 := hc.len_le hε hε' (hunit s hs)
    have h2 : (1 + 5 / 2 * ε) * len y ≤ (1 + 5 / 2 * ε) * ((1 + 3 * ε * s) * R) :=
      mul_le_mul_of_nonneg_left h.len (by positivity)
    refine (h1.trans h2).trans ?_
    rw [← mul_assoc, hs1]
    refine mul_le_mul_of_nonneg_right ?_ hR
    have h3 : ε * (s * ε) ≤ ε * (1 / 64) := mul_le_mul_of_nonneg_left hsε hε
    nlinarith
  · have h1 := hmov t htk (by omega)
    have h2 := h.later t (by omega) htk
    have h3 := abs_sub_abs_le_abs_sub (w t ⬝ᵥ y') (w t ⬝ᵥ y)
    rw [hs1]
    linarith
  · rw [hs1]
    by_cases hts : t = s
    · subst hts
      have h1 := hc.removed hε hε' (hunit t hs)
      have h2 : 0 ≤ t * (C * η + 21 / 8 * X) := by positivity
      nlinarith
    · have h1 := hmov t (by omega) hts
      have h2 := h.earlier t (by omega)
      have h3 := abs_sub_abs_le_abs_sub (w t ⬝ᵥ y') (w t ⬝ᵥ y)
      linarith
  · obtain ⟨d, hd1, hd2⟩ := h.change
    refine ⟨Function.update d s c, fun t => ?_, ?_⟩
    · by_cases hts : t = s
      · subst hts; simp only [Function.update_self]; exact hcb
      · simp only [Function.update_of_ne hts]; exact hd1 t
    · rw [Finset.sum_range_succ]
      have e1 : ∑ t ∈ Finset.range s, Function.update d s c t • w t = ∑ t ∈ Finset.range s, d t • w t :=
        Finset.sum_congr rfl fun t ht => by
          rw [Function.update_of_ne (by have := Finset.mem_range.1 ht; omega)]
      rw [e1]
      simp only [Function.update_self]
      have e2 : y' - (r - (∑ t ∈ Finset.range s, d t • w t + c • w s)) =
          (y - (r - ∑ t ∈ Finset.range s, d t • w t)) + (y' - (y - c • w s)) := by abel
      rw [e2]
      refine (len_add_le _ _).trans ?_
      have h1 := hc.err_le hε hε' (hunit s hs)
      rw [hs1]
      linarith

/-- The whole process against vectors that are nearly orthonormal, when the vector has small components along them. -/
theorem gs_window (hp : 1 ≤ p) (he : 1 ≤ e) (hq : 1 ≤ q) (hD : Nearest p flD) (hE : Nearest e flE) (hL : Nearest q flL)
    {ε : ℝ} (hε : normFactor p q n - 1 ≤ ε) {eps : ℝ} (heps0 : 0 < eps) (heps : eps ≤ 1 / 16)
    (hepsn : eps * Real.sqrt n ≤ 1 / 4) {N last : ℕ} {numOrtho : ℤ} {V : Array (Array ℝ)} {w : ℕ → Fin n → ℝ}
    {r : Fin n → ℝ} {k : ℕ} (hk : k = Lanczos.gsNumSteps n N numOrtho)
    (hV : ∀ t < k, V[Lanczos.gsIndex N last t]? = some (Array.ofFn (w t))) {η κ R : ℝ} (hη : 0 ≤ η) (hκ : 0 ≤ κ)
    (hR : len r ≤ R) (hkε : k * ε ≤ 1 / 64) (hkη : k * η ≤ 1 / 16) (hsmall : κ + 8 * (k * (ε * R)) ≤ 1 / 4)
    (hunit : ∀ t < k, |len (w t) - 1| ≤ 3 * ε) (hortho : ∀ t < k, ∀ t' < k, t ≠ t' → |w t ⬝ᵥ w t'| ≤ η)
    (hcomp : ∀ t < k, |w t ⬝ᵥ r| ≤ κ) :
    ∃ r', gramSchmidt flD flE flL eps n V N last numOrtho (Array.ofFn r) = .ok (Array.ofFn r') ∧
      GSInv ε η κ R (5 / 4 * κ + 9 * (k * (ε * R))) k w r k r' := by
  have hR0 : 0 ≤ R := (len_nonneg r).trans hR
  have hε0 : 0 ≤ ε := by have := seven_unit_le p q n; have := unit_pos p; linarith
  unfold gramSchmidt
  rw [← hk]
  obtain ⟨s', h1, y, rfl, h2⟩ := forRange_inv (body := fun step v => do
      gsStep flD flE flL eps n (← rd V (Lanczos.gsIndex N last step)) v)
    (fun s v => ∃ y, v = Array.ofFn y ∧ GSInv ε η κ R (5 / 4 * κ + 9 * (k * (ε * R))) k w r s y) (Nat.zero_le k)
    (Array.ofFn r) ⟨r, rfl, by simpa using hR, by simpa using hcomp, by simp, fun _ => 0, by simp; positivity, by simp [len]⟩ (by
      rintro s - hs v ⟨y, rfl, hy⟩
      obtain ⟨g1, g2⟩ := gs_window_step hε0 hkε hη hkη hκ hR0 rfl hunit hortho hs hy
      have hk1 : (1 : ℝ) ≤ k := by exact_mod_cast (by omega : 1 ≤ k)
      have hkX : 0 ≤ k * (ε * R) := by positivity
      obtain ⟨y', c, g3, g4⟩ := gsStep_near hp he hq hD hE hL hε (by nlinarith) heps0 heps hepsn (hunit s hs)
        (y := y) (by linarith)
      refine ⟨Array.ofFn y', ?_, y', rfl, g2 y' c g4⟩
      rw [rd_ok (hV s hs)]
      exact g3)
  exact ⟨y, h1, h2⟩

/-- In every case the process ends with a vector. -/
theorem gsStep_total (hp : 1 ≤ p) (hq : 1 ≤ q) (hD : Nearest p flD) (hL : Nearest q flL) (hg : normFactor p q n < 2)
    (eps : ℝ) (w y : Fin n → ℝ) :
    ∃ y' : Fin n → ℝ, gsStep flD flE flL eps n (Array.ofFn w) (Array.ofFn y) = .ok (Array.ofFn y') := by
  have hu := (unit_pos p).le
  obtain ⟨N, hN1, -⟩ := norm_len (n := n) hp hq hD hL hg w
  obtain ⟨I, hI1, -⟩ := inner_product_accurate hp hq hD hL w y
  obtain ⟨Ny, hy1, -⟩ := norm_len (n := n) hp hq hD hL hg y
  obtain ⟨y', hs, -⟩ := subtractScaled_approx hu (nearest_rel hp hD) (le_refl (1 + unitRoundoff p)) w
    (flD (I / flD (N * N))) (S := y) (T := fun i => |y i|) (w := y) fun i => approx_self (by linarith)
  unfold gsStep
  rw [hN1]
  simp only [Except.ok_bind']
  split
  · exact ⟨y, rfl⟩
  rw [hI1]
  simp only [Except.ok_bind']
  split
  · rw [hy1]
    simp only [Except.ok_bind']
    split
    · exact ⟨y, rfl⟩
    · exact ⟨y', hs⟩
  · exact ⟨y', hs⟩

end

end Imate.Rounded
