import Verif.Spec.FloatFormat
import Mathlib.Analysis.SpecialFunctions.Pow.Real
import Mathlib.Data.Set.Finite.Basic
import Mathlib.Tactic.Linarith
import Mathlib.Tactic.Positivity
import Mathlib.Tactic.FieldSimp

/-! # Facts about the formats -/

namespace Imate.Spec

variable {p : ℕ} {emin emax : ℤ} {fl : ℝ → XR ℝ}

theorem two_zpow_pos (k : ℤ) : (0 : ℝ) < 2 ^ k := zpow_pos (by norm_num) k

theorem two_zpow_le {j k : ℤ} (h : j ≤ k) : (2 : ℝ) ^ j ≤ 2 ^ k := zpow_le_zpow_right₀ (by norm_num) h

theorem two_zpow_lt {j k : ℤ} (h : j < k) : (2 : ℝ) ^ j < 2 ^ k := zpow_lt_zpow_right₀ (by norm_num) h

theorem FiniteNumber.neg {y : ℝ} (h : FiniteNumber p emin emax y) : FiniteNumber p emin emax (-y) := by
  obtain ⟨m, e, h1, h2, h3, rfl⟩ := h
  exact ⟨-m, e, by rwa [abs_neg], h2, h3, by push_cast; ring⟩

theorem finiteNumber_zero (h : emin ≤ emax) : FiniteNumber p emin emax 0 :=
  ⟨0, emin - p + 1, by simp, le_refl _, by omega, by simp⟩

/-- Small multiples of a power of two. -/
theorem finiteNumber_mul {i q : ℕ} {j : ℤ} (hi : i ≤ 2 ^ q) (hq : q + 1 ≤ p) (h1 : emin ≤ j + q) (h2 : j + q ≤ emax) :
    FiniteNumber p emin emax (i * 2 ^ j) := by
  refine ⟨(i : ℤ) * 2 ^ (p - 1 - q), j + q - p + 1, ?_, by omega, by omega, ?_⟩
  · rw [abs_of_nonneg (by positivity)]
    calc (i : ℤ) * 2 ^ (p - 1 - q) ≤ 2 ^ q * 2 ^ (p - 1 - q) := by
          apply mul_le_mul_of_nonneg_right _ (by positivity)
          exact_mod_cast hi
      _ = 2 ^ (p - 1) := by rw [← pow_add]; congr 1; omega
      _ < 2 ^ p := pow_lt_pow_right₀ (by norm_num) (by omega)
  · push_cast
    rw [mul_assoc, ← zpow_natCast, ← zpow_add₀ (by norm_num)]
    congr 2
    omega

theorem finiteNumber_pow {j : ℤ} (hp : 1 ≤ p) (h1 : emin ≤ j) (h2 : j ≤ emax) : FiniteNumber p emin emax (2 ^ j) := by
  have := finiteNumber_mul (p := p) (emin := emin) (emax := emax) (i := 1) (q := 0) (j := j) (by norm_num) (by omega)
    (by simpa using h1) (by simpa using h2)
  simpa using this

theorem FiniteNumber.lt {y : ℝ} (h : FiniteNumber p emin emax y) : |y| < 2 ^ (emax + 1) - 2 ^ (emax - p) := by
  obtain ⟨m, e, h1, h2, h3, rfl⟩ := h
  have h4 : (|(m : ℝ)|) ≤ 2 ^ p - 1 := by
    have : |m| ≤ 2 ^ p - 1 := by omega
    exact_mod_cast this
  have h5 : (1 : ℝ) ≤ 2 ^ p := one_le_pow₀ (by norm_num)
  rw [abs_mul, abs_of_pos (two_zpow_pos e)]
  have e1 : (2 : ℝ) ^ (emax + 1) = 2 ^ p * 2 ^ (emax - p + 1) := by
    rw [← zpow_natCast, ← zpow_add₀ (by norm_num)]; congr 1; omega
  have h6 := two_zpow_lt (show emax - p < emax - p + 1 by omega)
  calc |(m : ℝ)| * 2 ^ e ≤ (2 ^ p - 1) * 2 ^ (emax - p + 1) :=
        mul_le_mul h4 (two_zpow_le h3) (two_zpow_pos e).le (by linarith)
    _ < _ := by rw [e1]; linarith

theorem Format.exact (h : Format p emin emax fl) {y : ℝ} (hy : FiniteNumber p emin emax y) : fl y = .fin y := by
  obtain ⟨y', h1, h2, h3⟩ := h.nearest y hy.lt
  have := h3 y hy
  rw [sub_self, abs_zero] at this
  have h4 : y - y' = 0 := abs_eq_zero.1 (le_antisymm this (abs_nonneg _))
  rw [h1, show y' = y by linarith]

/-- Rounding does not pass a finite number. -/
theorem Format.bound (h : Format p emin emax fl) {x r : ℝ} (hr : FiniteNumber p emin emax r) (hx : |x| ≤ r) :
    ∃ y, fl x = .fin y ∧ |y| ≤ r ∧ FiniteNumber p emin emax y := by
  have hr0 : 0 ≤ r := (abs_nonneg x).trans hx
  obtain ⟨y, h1, h2, h3⟩ := h.nearest x (lt_of_le_of_lt (hx.trans (le_abs_self r)) hr.lt)
  refine ⟨y, h1, ?_, h2⟩
  obtain ⟨hx1, hx2⟩ := abs_le.1 hx
  refine abs_le.2 ⟨?_, ?_⟩
  · by_contra hlt
    push Not at hlt
    have := h3 (-r) hr.neg
    rw [abs_of_nonneg (by linarith), abs_of_nonneg (by linarith)] at this
    linarith
  · by_contra hlt
    push Not at hlt
    have := h3 r hr
    rw [abs_of_nonpos (by linarith), abs_of_nonpos (by linarith)] at this
    linarith

theorem Format.nonneg (h : Format p emin emax fl) (he : emin ≤ emax) {x : ℝ} (hx : 0 ≤ x) :
    fl x = .pinf ∨ ∃ y, 0 ≤ y ∧ fl x = .fin y := by
  rcases lt_or_ge |x| (2 ^ (emax + 1) - 2 ^ (emax - p)) with h1 | h1
  · obtain ⟨y, h2, h3, h4⟩ := h.nearest x h1
    refine Or.inr ⟨y, ?_, h2⟩
    by_contra hlt
    push Not at hlt
    have := h4 0 (finiteNumber_zero he)
    rw [sub_zero, abs_of_nonneg hx, abs_of_nonneg (by linarith)] at this
    linarith
  · left
    have h2 : (0 : ℝ) < 2 ^ (emax + 1) - 2 ^ (emax - p) := sub_pos.2 (two_zpow_lt (by omega))
    have h3 : 0 < x := by
      rcases hx.eq_or_lt with h3 | h3
      · rw [← h3, abs_zero] at h1; linarith
      · exact h3
    rw [h.overflow x h1, XR.signedInf, if_pos h3]

theorem Format.big (h : Format p emin emax fl) {x : ℝ} (hx : 2 ^ (emax + 1) ≤ x) : fl x = .pinf := by
  have h1 := two_zpow_pos (emax + 1)
  have h2 := two_zpow_pos (emax - p)
  have h3 : 0 < x := by linarith
  rw [h.overflow x (by rw [abs_of_pos h3]; linarith), XR.signedInf, if_pos h3]

theorem Format.zero (h : Format p emin emax fl) (he : emin ≤ emax) : fl 0 = .fin 0 := h.exact (finiteNumber_zero he)

/-- Numbers below half the smallest subnormal number become zero. -/
theorem Format.tiny (h : Format p emin emax fl) (he : emin ≤ emax) {x : ℝ} (hx : |x| < 2 ^ (emin - p)) :
    fl x = .fin 0 := by
  have h0 : (2 : ℝ) ^ (emin - p) ≤ 2 ^ (emax + 1) - 2 ^ (emax - p) := by
    have h1 := two_zpow_le (show emin - p ≤ emax - p by omega)
    have h2 := two_zpow_le (show emax - p + 1 ≤ emax + 1 by omega)
    have h3 : (2 : ℝ) ^ (emax - p + 1) = 2 * 2 ^ (emax - p) := by rw [zpow_add_one₀ (by norm_num)]; ring
    linarith
  obtain ⟨y, h1, ⟨m, e, g1, g2, g3, rfl⟩, h3⟩ := h.nearest x (hx.trans_le h0)
  rw [h1]
  by_cases hm : m = 0
  · rw [hm]; simp
  · exfalso
    have h4 := h3 0 (finiteNumber_zero he)
    have h5 : (1 : ℝ) ≤ |(m : ℝ)| := by
      have : 1 ≤ |m| := Int.one_le_abs hm
      exact_mod_cast this
    have h6 : (2 : ℝ) ^ (emin - p + 1) ≤ |(m : ℝ) * 2 ^ e| := by
      rw [abs_mul, abs_of_pos (two_zpow_pos e)]
      calc (2 : ℝ) ^ (emin - p + 1) ≤ 1 * 2 ^ e := by rw [one_mul]; exact two_zpow_le g2
        _ ≤ _ := mul_le_mul_of_nonneg_right h5 (two_zpow_pos e).le
    have h7 : (2 : ℝ) ^ (emin - p + 1) = 2 * 2 ^ (emin - p) := by rw [zpow_add_one₀ (by norm_num)]; ring
    have h8 := abs_sub_abs_le_abs_sub ((m : ℝ) * 2 ^ e) x
    rw [abs_sub_comm] at h8
    rw [sub_zero] at h4
    linarith

/-- The difference of different finite numbers does not become zero. -/
theorem Format.sub_ne_zero (h : Format p emin emax fl) (he : emin ≤ emax) {x y : ℝ} (hx : FiniteNumber p emin emax x)
    (hy : FiniteNumber p emin emax y) (hne : x ≠ y) : fl (x - y) ≠ .fin 0 := by
  obtain ⟨m, e, g1, g2, g3, rfl⟩ := hx
  obtain ⟨m', e', g1', g2', g3', rfl⟩ := hy
  -- the difference is a multiple of the smallest subnormal number
  obtain ⟨d, hd⟩ : ∃ d : ℤ, (m : ℝ) * 2 ^ e - m' * 2 ^ e' = d * 2 ^ (emin - p + 1) := by
    have key : ∀ (m e : ℤ), emin - p + 1 ≤ e → ∃ d : ℤ, (m : ℝ) * 2 ^ e = d * 2 ^ (emin - p + 1) := by
      intro m e he
      refine ⟨m * 2 ^ (e - (emin - p + 1)).toNat, ?_⟩
      push_cast
      rw [mul_assoc, ← zpow_natCast, ← zpow_add₀ (by norm_num), Int.toNat_of_nonneg (by omega)]
      congr 2
      omega
    obtain ⟨d1, e1⟩ := key m e g2
    obtain ⟨d2, e2⟩ := key m' e' g2'
    exact ⟨d1 - d2, by rw [e1, e2]; push_cast; ring⟩
  intro h0
  rw [hd] at h0
  have hd0 : d ≠ 0 := by
    rintro rfl
    apply hne
    have : (m : ℝ) * 2 ^ e - m' * 2 ^ e' = 0 := by rw [hd]; simp
    linarith
  by_cases hlt : |(d : ℝ) * 2 ^ (emin - p + 1)| < 2 ^ (emax + 1) - 2 ^ (emax - p)
  · obtain ⟨y, h1, h2, h3⟩ := h.nearest _ hlt
    rw [h0] at h1
    obtain rfl : y = 0 := by simpa using h1.symm
    have hs : FiniteNumber p emin emax ((SignType.sign d : ℤ) * 2 ^ (emin - p + 1)) := by
      refine ⟨_, _, ?_, le_refl _, by omega, rfl⟩
      rcases lt_trichotomy d 0 with hd' | hd' | hd'
      · rw [sign_neg hd']
        rcases Nat.eq_zero_or_pos p with rfl | hp
        · exfalso
          have : |m| < 1 := by simpa using g1
          have : |m'| < 1 := by simpa using g1'
          have e1 : m = 0 := Int.abs_lt_one_iff.1 ‹|m| < 1›
          have e2 : m' = 0 := Int.abs_lt_one_iff.1 ‹|m'| < 1›
          rw [e1, e2] at hne
          simp at hne
        · have : (2 : ℤ) ^ 1 ≤ 2 ^ p := pow_le_pow_right₀ (by norm_num) hp
          simp; omega
      · exact absurd hd' hd0
      · rw [sign_pos hd']
        rcases Nat.eq_zero_or_pos p with rfl | hp
        · exfalso
          have : |m| < 1 := by simpa using g1
          have : |m'| < 1 := by simpa using g1'
          have e1 : m = 0 := Int.abs_lt_one_iff.1 ‹|m| < 1›
          have e2 : m' = 0 := Int.abs_lt_one_iff.1 ‹|m'| < 1›
          rw [e1, e2] at hne
          simp at hne
        · have : (2 : ℤ) ^ 1 ≤ 2 ^ p := pow_le_pow_right₀ (by norm_num) hp
          simp; omega
    have h4 := h3 _ hs
    rw [sub_zero, ← sub_mul, abs_mul, abs_mul, abs_of_pos (two_zpow_pos _)] at h4
    have h5 := le_of_mul_le_mul_right h4 (two_zpow_pos _)
    have h6 : |d| ≤ |d - (SignType.sign d : ℤ)| := by exact_mod_cast h5
    rcases lt_trichotomy d 0 with hd' | hd' | hd'
    · rw [sign_neg hd', abs_of_neg hd', abs_of_nonpos (by simp; omega)] at h6
      simp at h6
    · exact absurd hd' hd0
    · rw [sign_pos hd', abs_of_pos hd', abs_of_nonneg (by simp; omega)] at h6
      simp at h6
  · push Not at hlt
    rw [h.overflow _ hlt] at h0
    unfold XR.signedInf at h0
    split at h0
    · cases h0
    · split at h0 <;> cases h0

/-- There is a rounding for every format. -/
theorem format_exists (p : ℕ) {emin emax : ℤ} (he : emin ≤ emax) : ∃ fl, Format p emin emax fl := by
  have hfin : {y | FiniteNumber p emin emax y}.Finite := by
    refine Set.Finite.subset (((Finset.Icc (-2 ^ p : ℤ) (2 ^ p)) ×ˢ (Finset.Icc (emin - p + 1) (emax - p + 1))).image
      (fun q : ℤ × ℤ => (q.1 : ℝ) * 2 ^ q.2)).finite_toSet ?_
    rintro y ⟨m, e, h1, h2, h3, rfl⟩
    obtain ⟨a, b⟩ := abs_lt.1 h1
    simp only [Finset.coe_image, Set.mem_image, Finset.mem_coe, Finset.mem_product, Finset.mem_Icc]
    exact ⟨(m, e), ⟨⟨a.le, b.le⟩, h2, h3⟩, rfl⟩
  have hex : ∀ x : ℝ, ∃ y, FiniteNumber p emin emax y ∧ ∀ y', FiniteNumber p emin emax y' → |x - y| ≤ |x - y'| := by
    intro x
    obtain ⟨y, h1, h2⟩ := Set.exists_min_image _ (fun y => |x - y|) hfin ⟨0, finiteNumber_zero he⟩
    exact ⟨y, h1, h2⟩
  classical
  choose g h1 h2 using hex
  refine ⟨fun x => if |x| < 2 ^ (emax + 1) - 2 ^ (emax - p) then .fin (g x) else XR.signedInf x, ?_, ?_⟩
  · intro x hx
    exact ⟨g x, if_pos hx, h1 x, h2 x⟩
  · intro x hx
    exact if_neg (not_lt.2 hx)

end Imate.Spec
