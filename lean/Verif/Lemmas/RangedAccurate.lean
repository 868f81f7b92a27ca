import Verif.Lemmas.RangedConvergence
import Verif.Lemmas.RoundedConvergence

/-! # Where nothing overflows or underflows, the range does not matter -/

namespace Imate.RangedConvergence
open Imate.Spec Imate.Convergence

variable {p : ℕ} {emin emax : ℤ} {fl : ℝ → XR ℝ} {x : ℝ}

/-- The result of rounding `x` is also nearest among the numbers of all magnitudes. -/
def Good (p : ℕ) (fl : ℝ → XR ℝ) (x : ℝ) : Prop :=
  ∃ y, fl x = .fin y ∧ Representable p y ∧ ∀ y', Representable p y' → |y - x| ≤ |y' - x|

open Classical in
/-- A rounding without range that agrees with `fl` where it can. -/
noncomputable def wide (p : ℕ) (fl : ℝ → XR ℝ) (x : ℝ) : ℝ :=
  if h : Good p fl x then h.choose else Rounded.roundTo p x

theorem wide_nearest (hp : 1 ≤ p) : Nearest p (wide p fl) := by
  intro x
  unfold wide
  split
  · rename_i h
    exact h.choose_spec.2
  · exact Rounded.roundTo_nearest hp x

theorem wide_eq (h : Good p fl x) : fl x = .fin (wide p fl x) := by
  unfold wide
  rw [dif_pos h]
  exact h.choose_spec.1

theorem finiteNumber_representable (h : FiniteNumber p emin emax x) : Representable p x := by
  obtain ⟨m, e, h1, -, -, h2⟩ := h
  exact ⟨m, e, h1, h2⟩

theorem good_exact (h : Format p emin emax fl) (hx : FiniteNumber p emin emax x) : Good p fl x :=
  ⟨x, h.exact hx, finiteNumber_representable hx, fun y' _ => by rw [sub_self, abs_zero]; exact abs_nonneg _⟩

/-- Numbers of all magnitudes that lie in the range. -/
theorem representable_finite (hp : 1 ≤ p) (h : Representable p x) (h1 : 2 ^ emin ≤ |x|) (h2 : |x| ≤ 2 ^ emax) :
    FiniteNumber p emin emax x := by
  obtain ⟨s, e, hs, rfl⟩ := h
  rw [abs_mul, abs_of_pos (two_zpow_pos e)] at h1 h2
  have hs' : |(s : ℝ)| < 2 ^ p := by exact_mod_cast hs
  have he : emin - p + 1 ≤ e := by
    have h3 : (2 : ℝ) ^ emin < 2 ^ ((p : ℤ) + e) := by
      rw [zpow_add₀ (by norm_num), zpow_natCast]
      exact h1.trans_lt (mul_lt_mul_of_pos_right hs' (two_zpow_pos e))
    have := (zpow_lt_zpow_iff_right₀ (by norm_num : (1 : ℝ) < 2)).1 h3
    omega
  rcases le_or_gt e (emax - p + 1) with h3 | h3
  · exact ⟨s, e, hs, he, h3, rfl⟩
  · have hd : e = (emax - p + 1) + ((e - (emax - p + 1)).toNat : ℕ) := by
      rw [Int.toNat_of_nonneg (by omega)]; ring
    have hle : emin ≤ emax := by
      have := h1.trans h2
      exact (zpow_le_zpow_iff_right₀ (by norm_num : (1 : ℝ) < 2)).1 this
    generalize (e - (emax - p + 1)).toNat = d at hd
    subst hd
    rw [zpow_add₀ (by norm_num), zpow_natCast] at h2 ⊢
    refine ⟨s * 2 ^ d, emax - p + 1, ?_, by omega, le_refl _, by push_cast; ring⟩
    have h4 : |(s : ℝ)| * 2 ^ d * 2 ^ (emax - p + 1) ≤ 2 ^ (p - 1) * 2 ^ (emax - p + 1) := by
      calc |(s : ℝ)| * 2 ^ d * 2 ^ (emax - p + 1) = |(s : ℝ)| * (2 ^ (emax - p + 1) * 2 ^ d) := by ring
        _ ≤ 2 ^ emax := h2
        _ = 2 ^ (p - 1) * 2 ^ (emax - p + 1) := by
          rw [← zpow_natCast, ← zpow_add₀ (by norm_num)]; congr 1; omega
    have h5 := le_of_mul_le_mul_right h4 (two_zpow_pos _)
    have h6 : |s * 2 ^ d| ≤ 2 ^ (p - 1) := by
      rw [abs_mul, abs_of_nonneg (by positivity : (0 : ℤ) ≤ 2 ^ d)]
      exact_mod_cast h5
    exact h6.trans_lt (pow_lt_pow_right₀ (by norm_num) (by omega))

theorem good_normal (h : Format p emin emax fl) (hp : 1 ≤ p) (h1 : 2 ^ emin ≤ |x|) (h2 : |x| ≤ 2 ^ emax) :
    Good p fl x := by
  have hle : emin ≤ emax := (zpow_le_zpow_iff_right₀ (by norm_num : (1 : ℝ) < 2)).1 (h1.trans h2)
  have hmax : FiniteNumber p emin emax (2 ^ emax) := finiteNumber_pow hp hle (le_refl _)
  have hmin : FiniteNumber p emin emax (2 ^ emin) := finiteNumber_pow hp (le_refl _) hle
  have hlt : |x| < 2 ^ (emax + 1) - 2 ^ (emax - p) := by
    have := hmax.lt
    rw [abs_of_pos (two_zpow_pos _)] at this
    exact h2.trans_lt this
  obtain ⟨y, e1, e2, e3⟩ := h.nearest x hlt
  refine ⟨y, e1, finiteNumber_representable e2, fun y' hy' => ?_⟩
  have pmin := two_zpow_pos emin
  rw [abs_sub_comm y x, abs_sub_comm y' x]
  rcases le_or_gt |y'| (2 ^ emax) with g1 | g1
  · rcases le_or_gt (2 ^ emin) |y'| with g2 | g2
    · exact e3 y' (representable_finite hp hy' g2 g1)
    · -- the power of two lies between
      obtain ⟨g3, g4⟩ := abs_lt.1 g2
      rcases le_abs'.1 h1 with hx | hx
      · refine (e3 _ hmin.neg).trans ?_
        rw [abs_of_nonpos (by linarith), abs_of_nonpos (by linarith)]
        linarith
      · refine (e3 _ hmin).trans ?_
        rw [abs_of_nonneg (by linarith), abs_of_nonneg (by linarith)]
        linarith
  · obtain ⟨g3, g4⟩ := abs_le.1 h2
    rcases lt_abs.1 g1 with g5 | g5
    · refine (e3 _ hmax).trans ?_
      rw [abs_of_nonpos (by linarith), abs_of_nonpos (by linarith)]
      linarith
    · refine (e3 _ hmax.neg).trans ?_
      rw [abs_of_nonneg (by linarith), abs_of_nonneg (by linarith)]
      linarith

/-- Sums of finite numbers do not suffer from underflow. -/
theorem good_add (h : Format p emin emax fl) (hp : 1 ≤ p) (hle : emin ≤ emax) {a b : ℝ} (ha : FiniteNumber p emin emax a)
    (hb : FiniteNumber p emin emax b) (h2 : |a + b| ≤ 2 ^ emax) : Good p fl (a + b) := by
  rcases le_or_gt (2 ^ emin) |a + b| with h1 | h1
  · exact good_normal h hp h1 h2
  · apply good_exact h
    have key : ∀ {y : ℝ}, FiniteNumber p emin emax y → ∃ d : ℤ, y = d * 2 ^ (emin - p + 1) := by
      rintro y ⟨m, e, -, he, -, rfl⟩
      refine ⟨m * 2 ^ (e - (emin - p + 1)).toNat, ?_⟩
      push_cast
      rw [mul_assoc, ← zpow_natCast, ← zpow_add₀ (by norm_num), Int.toNat_of_nonneg (by omega)]
      congr 2
      omega
    obtain ⟨d1, rfl⟩ := key ha
    obtain ⟨d2, rfl⟩ := key hb
    refine ⟨d1 + d2, emin - p + 1, ?_, le_refl _, by omega, by push_cast; ring⟩
    rw [← add_mul, abs_mul, abs_of_pos (two_zpow_pos _)] at h1
    have e : (2 : ℝ) ^ emin = 2 ^ (p - 1) * 2 ^ (emin - p + 1) := by
      rw [← zpow_natCast, ← zpow_add₀ (by norm_num)]; congr 1; omega
    rw [e] at h1
    have h3 := lt_of_mul_lt_mul_right h1 (two_zpow_pos _).le
    have h4 : |d1 + d2| < 2 ^ (p - 1) := by exact_mod_cast h3
    exact h4.trans (pow_lt_pow_right₀ (by norm_num) (by omega))

theorem good_sub (h : Format p emin emax fl) (hp : 1 ≤ p) (hle : emin ≤ emax) {a b : ℝ} (ha : FiniteNumber p emin emax a)
    (hb : FiniteNumber p emin emax b) (h2 : |a - b| ≤ 2 ^ emax) : Good p fl (a - b) := by
  rw [sub_eq_add_neg] at *
  exact good_add h hp hle ha hb.neg h2

theorem good_zero (h : Format p emin emax fl) (hle : emin ≤ emax) : Good p fl 0 := good_exact h (finiteNumber_zero hle)

theorem wide_zero (h : Format p emin emax fl) (hle : emin ≤ emax) : wide p fl 0 = 0 := by
  have h1 := wide_eq (good_zero h hle)
  rw [h.zero hle] at h1
  simpa using h1.symm

/-- What is known of a good result. -/
theorem good_bound (h : Format p emin emax fl) (hg : Good p fl x) {r : ℝ} (hr : FiniteNumber p emin emax r)
    (hx : |x| ≤ r) : |wide p fl x| ≤ r ∧ FiniteNumber p emin emax (wide p fl x) := by
  obtain ⟨y, e1, e2, e3⟩ := h.bound hr hx
  rw [wide_eq hg] at e1
  obtain rfl : wide p fl x = y := by simpa using e1
  exact ⟨e2, e3⟩

theorem good_lower (h : Format p emin emax fl) (hg : Good p fl x) {r : ℝ} (hr : FiniteNumber p emin emax r) (hr0 : 0 ≤ r)
    (hx : r ≤ x) : r ≤ wide p fl x := by
  rcases fmt_lower h hr hr0 hx with c | ⟨y, hy, c⟩ <;> rw [wide_eq hg] at c
  · cases c
  · obtain rfl : wide p fl x = y := by simpa using c
    exact hy

theorem good_lower_abs (h : Format p emin emax fl) (hg : Good p fl x) {r : ℝ} (hr : FiniteNumber p emin emax r)
    (hr0 : 0 ≤ r) (hx : r ≤ |x|) : r ≤ |wide p fl x| := by
  rcases le_abs'.1 hx with hx | hx
  · rcases fmt_lower_neg h hr hr0 hx with c | ⟨y, hy, c⟩ <;> rw [wide_eq hg] at c
    · cases c
    · obtain rfl : wide p fl x = y := by simpa using c
      exact le_abs'.2 (Or.inl hy)
  · exact le_abs'.2 (Or.inr (good_lower h hg hr hr0 hx))

theorem good_nonneg (h : Format p emin emax fl) (hle : emin ≤ emax) (hg : Good p fl x) (hx : 0 ≤ x) :
    0 ≤ wide p fl x := good_lower h hg (finiteNumber_zero hle) (le_refl _) hx

/-- Sums of at most `2^q` finite numbers. -/
theorem foldl_good (h : Format p emin emax fl) (hle : emin ≤ emax) {q : ℕ} {j : ℤ} (hq : q + 1 ≤ p) (h1 : emin ≤ j + q)
    (h2 : j + q ≤ emax) (g : ℝ → Ranged fl) (g' : ℝ → ℝ) (xs : List ℝ)
    (hg : ∀ x ∈ xs, g x = Ranged.fin (g' x) ∧ |g' x| ≤ 2 ^ j ∧ FiniteNumber p emin emax (g' x)) (i : ℕ)
    (hi : i + xs.length ≤ 2 ^ q) (a : ℝ) (ha : |a| ≤ i * 2 ^ j) (ha' : FiniteNumber p emin emax a) :
    xs.foldl (fun s x => FloatLike.add s (g x)) (Ranged.fin a) =
        Ranged.fin (xs.foldl (fun s x => wide p fl (s + g' x)) a) ∧
      |xs.foldl (fun s x => wide p fl (s + g' x)) a| ≤ (i + xs.length : ℕ) * 2 ^ j ∧
      FiniteNumber p emin emax (xs.foldl (fun s x => wide p fl (s + g' x)) a) := by
  induction xs generalizing i a with
  | nil => exact ⟨rfl, by simpa using ha, ha'⟩
  | cons x xs ih =>
    obtain ⟨e1, e2, e3⟩ := hg x (by simp)
    have h3 : |a + g' x| ≤ (i + 1 : ℕ) * 2 ^ j := by
      refine (abs_add_le a _).trans ?_
      push_cast
      linarith
    have hl : (x :: xs).length = xs.length + 1 := rfl
    have hb := finiteNumber_mul (p := p) (emin := emin) (emax := emax) (i := i + 1) (j := j) (by omega) hq h1 h2
    have h4 : |a + g' x| ≤ 2 ^ emax := by
      refine h3.trans ?_
      have h5 : ((i + 1 : ℕ) : ℝ) ≤ 2 ^ q := by exact_mod_cast (show i + 1 ≤ 2 ^ q by omega)
      refine (mul_le_mul_of_nonneg_right h5 (two_zpow_pos j).le).trans ?_
      rw [← zpow_natCast, ← zpow_add₀ (by norm_num)]
      exact two_zpow_le (by omega)
    have hgood := good_add h (by omega) hle ha' e3 h4
    obtain ⟨e4, e5⟩ := good_bound h hgood hb h3
    obtain ⟨f1, f2, f3⟩ := ih (fun x hx => hg x (by simp [hx])) (i + 1) (by omega) _ e4 e5
    refine ⟨?_, ?_, f3⟩
    · rw [List.foldl_cons, e1, add_fin, wide_eq hgood]
      exact f1
    · rw [hl, show i + (xs.length + 1) = i + 1 + xs.length by omega]
      exact f2

/-- A sum of non-negative terms is at least as large as each of them. -/
theorem foldl_lower (h : Format p emin emax fl) (hle : emin ≤ emax) {q : ℕ} {j : ℤ} (hq : q + 1 ≤ p) (h1 : emin ≤ j + q)
    (h2 : j + q ≤ emax) (g' : ℝ → ℝ) {r : ℝ} (hr : FiniteNumber p emin emax r) (hr0 : 0 ≤ r) (xs : List ℝ)
    (hg : ∀ x ∈ xs, |g' x| ≤ 2 ^ j ∧ FiniteNumber p emin emax (g' x) ∧ 0 ≤ g' x) (i : ℕ)
    (hi : i + xs.length ≤ 2 ^ q) (a : ℝ) (ha : |a| ≤ i * 2 ^ j) (ha' : FiniteNumber p emin emax a) (ha0 : 0 ≤ a) :
    0 ≤ xs.foldl (fun s x => wide p fl (s + g' x)) a ∧
      ((r ≤ a ∨ ∃ x ∈ xs, r ≤ g' x) → r ≤ xs.foldl (fun s x => wide p fl (s + g' x)) a) := by
  induction xs generalizing i a with
  | nil => exact ⟨ha0, fun hc => by simpa using hc⟩
  | cons x xs ih =>
    obtain ⟨e2, e3, e0⟩ := hg x (by simp)
    have h3 : |a + g' x| ≤ (i + 1 : ℕ) * 2 ^ j := by
      refine (abs_add_le a _).trans ?_
      push_cast
      linarith
    have hl : (x :: xs).length = xs.length + 1 := rfl
    have hb := finiteNumber_mul (p := p) (emin := emin) (emax := emax) (i := i + 1) (j := j) (by omega) hq h1 h2
    have h4 : |a + g' x| ≤ 2 ^ emax := by
      refine h3.trans ?_
      have h5 : ((i + 1 : ℕ) : ℝ) ≤ 2 ^ q := by exact_mod_cast (show i + 1 ≤ 2 ^ q by omega)
      refine (mul_le_mul_of_nonneg_right h5 (two_zpow_pos j).le).trans ?_
      rw [← zpow_natCast, ← zpow_add₀ (by norm_num)]
      exact two_zpow_le (by omega)
    have hgood := good_add h (by omega) hle ha' e3 h4
    obtain ⟨e4, e5⟩ := good_bound h hgood hb h3
    have e6 := good_nonneg h hle hgood (add_nonneg ha0 e0)
    obtain ⟨f1, f2⟩ := ih (fun x hx => hg x (by simp [hx])) (i + 1) (by omega) _ e4 e5 e6
    refine ⟨f1, fun hc => f2 ?_⟩
    rcases hc with hc | ⟨y, hy, hc⟩
    · exact Or.inl (good_lower h hgood hr hr0 (by linarith))
    · rcases List.mem_cons.1 hy with rfl | hy
      · exact Or.inl (good_lower h hgood hr hr0 (by linarith))
      · exact Or.inr ⟨y, hy, hc⟩

end Imate.RangedConvergence
