import Verif.Lemmas.RangedAccurate
import Verif.Props.RoundedConvergence

/-!
# C99: the stopping rule and the reported values for samples of every magnitude

`Format p emin emax fl` is a binary format of IEEE 754 with its range (`Verif.Spec.FloatFormat`).  The functions are those
of `Verif.Model.Convergence`, with the numbers `Ranged fl`.
-/

namespace Imate.Props.RangedConvergence

open Imate.RangedConvergence Imate.Convergence Imate.Spec

variable {p : ℕ} {emin emax : ℤ} {fl : ℝ → XR ℝ}

theorem single_usual : Usual 24 (-126) 127 := ⟨by norm_num, by norm_num, by norm_num⟩

theorem double_usual : Usual 53 (-1022) 1023 := ⟨by norm_num, by norm_num, by norm_num⟩

/-! ## Samples whose squares are in the range -/

/-- A sum of at most `2^q` terms of absolute value at most `2^j` does not overflow. -/
private theorem foldl_bound (h : Format p emin emax fl) {q : ℕ} {j : ℤ} (hq : q + 1 ≤ p) (h1 : emin ≤ j + q)
    (h2 : j + q ≤ emax) (g : ℝ → Ranged fl) (xs : List ℝ)
    (hg : ∀ x ∈ xs, ∃ y : ℝ, g x = Ranged.fin y ∧ |y| ≤ 2 ^ j) (i : ℕ) (hi : i + xs.length ≤ 2 ^ q) (a : ℝ)
    (ha : |a| ≤ i * 2 ^ j) :
    ∃ s : ℝ, xs.foldl (fun s x => FloatLike.add s (g x)) (Ranged.fin a) = Ranged.fin s ∧
      |s| ≤ (i + xs.length : ℕ) * 2 ^ j := by
  induction xs generalizing i a with
  | nil => exact ⟨a, rfl, by simpa using ha⟩
  | cons x xs ih =>
    obtain ⟨y, e1, e2⟩ := hg x (by simp)
    have h3 : |a + y| ≤ (i + 1 : ℕ) * 2 ^ j := by
      refine (abs_add_le a y).trans ?_
      push_cast
      linarith
    have hl : (x :: xs).length = xs.length + 1 := rfl
    obtain ⟨b, e3, e4, -⟩ := h.bound (finiteNumber_mul (by omega) hq h1 h2) h3
    obtain ⟨s, e5, e6⟩ := ih (fun x hx => hg x (by simp [hx])) (i + 1) (by omega) b e4
    refine ⟨s, ?_, ?_⟩
    · rw [List.foldl_cons, e1, add_fin, e3]
      exact e5
    · rw [hl, show i + (xs.length + 1) = i + 1 + xs.length by omega]
      exact e6

/-- **C99.**  For at most `2^q` samples of absolute value at most `2^k`, with `2^(2 k + q + 3)` in the range of the format,
the mean, the standard deviation and the error are finite, and no larger than the samples allow. -/
theorem in_range_partial (h : Format p emin emax fl) (u : Usual p emin emax) {q : ℕ} {k : ℤ} (hq : q + 1 ≤ p)
    (hk : emin ≤ k) (hk2 : emin ≤ 2 * k) (hk3 : 2 * k + q + 3 ≤ emax) (hk4 : k + q + 6 ≤ emax) {xs : List ℝ} (hl : 2 ≤ xs.length)
    (hn : xs.length ≤ 2 ^ q) (hx : ∀ x ∈ xs, |x| ≤ 2 ^ k) {z : ℝ} (hz0 : 0 ≤ z) (hz : z ≤ 8) :
    ∃ m s e : ℝ, meanOf (xs.map (Ranged.fin (fl := fl))) = Ranged.fin m ∧ |m| ≤ 2 ^ k ∧
      stdOf (xs.map (Ranged.fin (fl := fl))) = Ranged.fin s ∧ 0 ≤ s ∧ s ≤ 2 ^ (k + 2) ∧
      errorOf (Ranged.fin z) (xs.map (Ranged.fin (fl := fl))) = Ranged.fin e ∧ 0 ≤ e ∧ e ≤ 2 ^ (k + 5) := by
  have hp := u.bits
  have hnp : xs.length < 2 ^ p := lt_of_le_of_lt hn (pow_lt_pow_right₀ (by norm_num) (by omega))
  have hr : (2 : ℝ) ≤ xs.length := by exact_mod_cast hl
  have hpos := two_zpow_pos k
  -- the mean
  obtain ⟨t, e1, e2⟩ := foldl_bound h hq (j := k) (by omega) (by omega) Ranged.fin xs (fun x hx' => ⟨x, rfl, hx x hx'⟩) 0
    (by omega) 0 (by simp)
  have e3 : sumOf (xs.map (Ranged.fin (fl := fl))) = Ranged.fin t := by
    unfold sumOf
    rw [ofNat_eq, Nat.cast_zero, h.zero u.le, List.foldl_map]
    exact e1
  rw [zero_add] at e2
  obtain ⟨m, e4, e5, -⟩ := h.bound (x := t / xs.length) (finiteNumber_pow hp hk (by omega)) (by
    rw [abs_div, abs_of_nonneg (by linarith : (0 : ℝ) ≤ xs.length), div_le_iff₀ (by linarith)]
    linarith)
  have hm : meanOf (xs.map (Ranged.fin (fl := fl))) = Ranged.fin m := by
    unfold meanOf
    rw [e3, List.length_map, ofNat_fin h u hnp, Imate.RangedConvergence.div_fin (by linarith), e4]
  -- the squares
  have hsq : ∀ x ∈ xs, ∃ y : ℝ, FloatLike.mul (V := Ranged fl) (FloatLike.sub (Ranged.fin x) (Ranged.fin m))
      (FloatLike.sub (Ranged.fin x) (Ranged.fin m)) = Ranged.fin y ∧ |y| ≤ 2 ^ (2 * k + 2) := by
    intro x hx'
    have h1 : |x - m| ≤ 2 ^ (k + 1) := by
      rw [zpow_add_one₀ (by norm_num)]
      have := abs_sub x m
      have := hx x hx'
      linarith
    obtain ⟨d, g1, g2, -⟩ := h.bound (finiteNumber_pow hp (by omega) (by omega)) h1
    obtain ⟨y, g3, g4, -⟩ := h.bound (x := d * d) (finiteNumber_pow hp (j := 2 * k + 2) (by omega) (by omega)) (by
      rw [abs_mul, show 2 * k + 2 = (k + 1) + (k + 1) by ring, zpow_add₀ (by norm_num) (k + 1)]
      exact mul_le_mul g2 g2 (abs_nonneg _) (two_zpow_pos _).le)
    refine ⟨y, ?_, g4⟩
    rw [sub_fin, g1, mul_fin, g3]
  obtain ⟨w, w1, w2⟩ := foldl_bound h hq (j := 2 * k + 2) (by omega) (by omega) (fun x => FloatLike.mul
    (FloatLike.sub (Ranged.fin x) (Ranged.fin m)) (FloatLike.sub (Ranged.fin x) (Ranged.fin m))) xs hsq 0
    (by omega) 0 (by simp)
  rw [zero_add] at w2
  have hw : sumSq (Ranged.fin m) (xs.map (Ranged.fin (fl := fl))) = Ranged.fin w := by
    unfold sumSq
    rw [ofNat_eq, Nat.cast_zero, h.zero u.le, List.foldl_map]
    exact w1
  have hw0 : 0 ≤ w := by
    have hnn : ∀ (ys : List ℝ) (a : Ranged fl), NN a → NN ((ys.map (Ranged.fin (fl := fl))).foldl (fun s x =>
        FloatLike.add s (FloatLike.mul (FloatLike.sub x (Ranged.fin m)) (FloatLike.sub x (Ranged.fin m)))) a) := by
      intro ys
      induction ys with
      | nil => exact fun a ha => ha
      | cons y ys ih => exact fun a ha => ih _ (add_nn h u.le ha (square_nn h u.le m y))
    have := hnn xs (FloatLike.ofNat 0) (by
      rw [ofNat_eq, Nat.cast_zero, h.zero u.le]
      exact Or.inr ⟨0, le_refl _, rfl⟩)
    unfold sumSq at hw
    rw [hw] at this
    rcases this with c | ⟨y, hy, c⟩
    · cases c
    · obtain rfl : w = y := by
        have : (XR.fin w : XR ℝ) = XR.fin y := c
        simpa using this
      exact hy
  -- the standard deviation
  obtain ⟨v, v1, v2, -⟩ := h.bound (x := w / (xs.length - 1)) (finiteNumber_pow hp (j := 2 * k + 3) (by omega) (by omega)) (by
    rw [abs_div, abs_of_nonneg (by linarith : (0 : ℝ) ≤ xs.length - 1), div_le_iff₀ (by linarith)]
    refine w2.trans ?_
    rw [show 2 * k + 3 = (2 * k + 2) + 1 by ring, zpow_add_one₀ (by norm_num)]
    have := two_zpow_pos (2 * k + 2)
    nlinarith)
  have v0 : 0 ≤ v := by
    rcases h.nonneg u.le (x := w / (xs.length - 1)) (div_nonneg hw0 (by linarith)) with c | ⟨y, hy, c⟩
    · rw [c] at v1; cases v1
    · rw [c] at v1
      obtain rfl : y = v := by simpa using v1
      exact hy
  obtain ⟨s, s1, s2, -⟩ := h.bound (x := Real.sqrt v) (finiteNumber_pow hp (j := k + 2) (by omega) (by omega)) (by
    rw [abs_of_nonneg (Real.sqrt_nonneg _)]
    apply Real.sqrt_le_iff.2 ⟨(two_zpow_pos _).le, ?_⟩
    refine (abs_le.1 v2).2.trans ?_
    rw [sq, ← zpow_add₀ (by norm_num)]
    exact two_zpow_le (by omega))
  have s0 : 0 ≤ s := by
    rcases h.nonneg u.le (Real.sqrt_nonneg v) with c | ⟨y, hy, c⟩
    · rw [c] at s1; cases s1
    · rw [c] at s1
      obtain rfl : y = s := by simpa using s1
      exact hy
  have hs : stdOf (xs.map (Ranged.fin (fl := fl))) = Ranged.fin s := by
    unfold stdOf
    rw [List.length_map, if_pos (show 1 < xs.length from hl), hm, hw, pred_fin h u (by omega) hnp, Imate.RangedConvergence.div_fin (by linarith), v1,
      Imate.RangedConvergence.sqrt_fin v0, s1]
  -- the error
  have hs' : s ≤ 2 ^ (k + 2) := (abs_le.1 s2).2
  have h8 : (2 : ℝ) ^ (k + 5) = 8 * 2 ^ (k + 2) := by
    rw [show k + 5 = (k + 2) + 3 by ring, zpow_add₀ (by norm_num) (k + 2)]; norm_num; ring
  obtain ⟨r, r1, r2, -⟩ := h.bound (x := z * s) (finiteNumber_pow hp (j := k + 5) (by omega) (by omega)) (by
    rw [abs_of_nonneg (mul_nonneg hz0 s0), h8]
    exact mul_le_mul hz hs' s0 (by norm_num))
  have r0 : 0 ≤ r := by
    rcases h.nonneg u.le (mul_nonneg hz0 s0) with c | ⟨y, hy, c⟩
    · rw [c] at r1; cases r1
    · rw [c] at r1
      obtain rfl : y = r := by simpa using r1
      exact hy
  obtain ⟨n', n1, n2, n3⟩ := sqrtNat_fin h u (by omega) hnp
  have hrn : r / n' ≤ r := div_le_self r0 n1
  obtain ⟨e, f1, f2, -⟩ := h.bound (x := r / n') (finiteNumber_pow hp (j := k + 5) (by omega) (by omega)) (by
    rw [abs_of_nonneg (div_nonneg r0 (by linarith))]
    exact hrn.trans (abs_le.1 r2).2)
  have f0 : 0 ≤ e := by
    rcases h.nonneg u.le (div_nonneg r0 (by linarith : 0 ≤ n')) with c | ⟨y, hy, c⟩
    · rw [c] at f1; cases f1
    · rw [c] at f1
      obtain rfl : y = e := by simpa using f1
      exact hy
  refine ⟨m, s, e, hm, e5, hs, s0, hs', ?_, f0, (abs_le.1 f2).2⟩
  unfold errorOf
  rw [hs, mul_fin, r1, List.length_map, n3, Imate.RangedConvergence.div_fin (by linarith), f1]

/-- The computation with a range and the one without a range give the same numbers. -/
private theorem same_numbers (h : Format p emin emax fl) (u : Usual p emin emax) {q : ℕ} {k c d : ℤ} (hq : q + 1 ≤ p)
    (hk : emin ≤ k) (hk3 : 2 * k + q + 3 ≤ emax) (hk4 : k + q + 6 ≤ emax) (hd : emin + q ≤ 2 * d) (hd2 : emin ≤ d)
    (hd3 : d ≤ k + 1) (hc : 2 * c ≤ emin) (hc2 : emin + q ≤ c) {xs : List ℝ} (hl : 2 ≤ xs.length)
    (hn : xs.length ≤ 2 ^ q) (hx : ∀ x ∈ xs, FiniteNumber p emin emax x ∧ |x| ≤ 2 ^ k) {m : ℝ}
    (hm : meanOf (xs.map (Ranged.fin (fl := fl))) = Ranged.fin m) (hm2 : 2 ^ emin < |m|)
    (hdev : ∀ x ∈ xs, x = m ∨ 2 ^ d ≤ |x - m|) {z : ℝ} (hz0 : 1 ≤ z) (hz : z ≤ 8) :
    ∃ e : ℝ, meanOf (xs.map (Imate.RoundedConvergence.Fl.fin (fl := wide p fl))) = Imate.RoundedConvergence.Fl.fin m ∧
      errorOf (Ranged.fin z) (xs.map (Ranged.fin (fl := fl))) = Ranged.fin e ∧
      errorOf (Imate.RoundedConvergence.Fl.fin z) (xs.map (Imate.RoundedConvergence.Fl.fin (fl := wide p fl))) =
        Imate.RoundedConvergence.Fl.fin e := by
  have hp := u.bits
  have hle := u.le
  have hlow := u.low
  have hhigh := u.high
  have hW : Nearest p (wide p fl) := wide_nearest hp
  have hnp : xs.length < 2 ^ p := lt_of_le_of_lt hn (pow_lt_pow_right₀ (by norm_num) (by omega))
  have hr : (2 : ℝ) ≤ xs.length := by exact_mod_cast hl
  have hrq : (xs.length : ℝ) ≤ 2 ^ (q : ℤ) := by rw [zpow_natCast]; exact_mod_cast hn
  have hne : xs ≠ [] := by rintro rfl; simp at hl
  have hw0 := wide_zero h hle
  -- the mean
  obtain ⟨t1, t2, t3⟩ := foldl_good h hle hq (j := k) (by omega) (by omega) Ranged.fin id xs
    (fun x hx' => ⟨rfl, (hx x hx').2, (hx x hx').1⟩) 0 (by omega) 0 (by simp) (finiteNumber_zero hle)
  have e3 : sumOf (xs.map (Ranged.fin (fl := fl))) = Ranged.fin (Imate.RoundedConvergence.flSum (wide p fl) xs) := by
    unfold sumOf
    rw [ofNat_eq, Nat.cast_zero, h.zero u.le, List.foldl_map]
    exact t1
  rw [zero_add] at t2
  change |Imate.RoundedConvergence.flSum (wide p fl) xs| ≤ _ at t2
  have hq1 : |Imate.RoundedConvergence.flSum (wide p fl) xs / xs.length| ≤ 2 ^ k := by
    rw [abs_div, abs_of_nonneg (by linarith : (0 : ℝ) ≤ xs.length), div_le_iff₀ (by linarith)]
    linarith
  have hm' := hm
  unfold meanOf at hm'
  rw [e3, List.length_map, ofNat_fin h u hnp, Imate.RangedConvergence.div_fin (by linarith)] at hm'
  have hm3 : fl (Imate.RoundedConvergence.flSum (wide p fl) xs / xs.length) = .fin m := hm'
  have hgm : Good p fl (Imate.RoundedConvergence.flSum (wide p fl) xs / xs.length) := by
    refine good_normal h hp ?_ (hq1.trans (two_zpow_le (by omega)))
    by_contra hlt
    push Not at hlt
    obtain ⟨y, g1, g2, -⟩ := h.bound (finiteNumber_pow hp (le_refl emin) hle) hlt.le
    rw [hm3] at g1
    obtain rfl : m = y := by simpa using g1
    linarith
  have hmw : Imate.RoundedConvergence.flMean (wide p fl) xs = m := by
    have := wide_eq hgm
    rw [hm3] at this
    have h' : m = wide p fl (Imate.RoundedConvergence.flSum (wide p fl) xs / xs.length) := by simpa using this
    exact h'.symm
  obtain ⟨hmk, hmf⟩ := good_bound h hgm (finiteNumber_pow hp hk (by omega)) hq1
  change |Imate.RoundedConvergence.flMean (wide p fl) xs| ≤ _ at hmk
  change FiniteNumber p emin emax (Imate.RoundedConvergence.flMean (wide p fl) xs) at hmf
  rw [hmw] at hmk hmf
  -- the squares
  have hsq : ∀ x ∈ xs, FloatLike.mul (V := Ranged fl) (FloatLike.sub (Ranged.fin x) (Ranged.fin m))
      (FloatLike.sub (Ranged.fin x) (Ranged.fin m)) =
        Ranged.fin (wide p fl (wide p fl (x - m) * wide p fl (x - m))) ∧
      |wide p fl (wide p fl (x - m) * wide p fl (x - m))| ≤ 2 ^ (2 * k + 2) ∧
      FiniteNumber p emin emax (wide p fl (wide p fl (x - m) * wide p fl (x - m))) ∧
      0 ≤ wide p fl (wide p fl (x - m) * wide p fl (x - m)) ∧
      (x = m → wide p fl (wide p fl (x - m) * wide p fl (x - m)) = 0) ∧
      (x ≠ m → 2 ^ (emin + q) ≤ wide p fl (wide p fl (x - m) * wide p fl (x - m))) := by
    intro x hx'
    have h1 : |x - m| ≤ 2 ^ (k + 1) := by
      rw [zpow_add_one₀ (by norm_num)]
      have := abs_sub x m
      have := (hx x hx').2
      linarith
    have hg1 := good_sub h hp hle (hx x hx').1 hmf (h1.trans (two_zpow_le (by omega)))
    obtain ⟨g1, g2⟩ := good_bound h hg1 (finiteNumber_pow hp (by omega) (by omega)) h1
    have g3 : |wide p fl (x - m) * wide p fl (x - m)| ≤ 2 ^ (2 * k + 2) := by
      rw [abs_mul, show 2 * k + 2 = (k + 1) + (k + 1) by ring, zpow_add₀ (by norm_num) (k + 1)]
      exact mul_le_mul g1 g1 (abs_nonneg _) (two_zpow_pos _).le
    have g4 : x ≠ m → (2 : ℝ) ^ (emin + q) ≤ wide p fl (x - m) * wide p fl (x - m) := by
      intro hxm
      have h2 := (hdev x hx').resolve_left hxm
      have h3 := good_lower_abs h hg1 (finiteNumber_pow hp hd2 (by omega)) (two_zpow_pos d).le h2
      rw [← abs_mul_abs_self]
      calc (2 : ℝ) ^ (emin + q) ≤ 2 ^ (d + d) := two_zpow_le (by omega)
        _ = 2 ^ d * 2 ^ d := zpow_add₀ (by norm_num) d d
        _ ≤ _ := mul_le_mul h3 h3 (two_zpow_pos d).le (abs_nonneg _)
    have hg2 : Good p fl (wide p fl (x - m) * wide p fl (x - m)) := by
      by_cases hxm : x = m
      · rw [hxm, sub_self, hw0, mul_zero]
        exact good_zero h hle
      · refine good_normal h hp ?_ (g3.trans (two_zpow_le (by omega)))
        rw [abs_of_nonneg (mul_self_nonneg _)]
        exact (two_zpow_le (by omega)).trans (g4 hxm)
    obtain ⟨g5, g6⟩ := good_bound h hg2 (finiteNumber_pow hp (by omega) (by omega)) g3
    refine ⟨?_, g5, g6, good_nonneg h hle hg2 (mul_self_nonneg _), ?_, ?_⟩
    · rw [sub_fin, wide_eq hg1, mul_fin, wide_eq hg2]
    · intro hxm
      rw [hxm, sub_self, hw0, mul_zero, hw0]
    · intro hxm
      exact good_lower h hg2 (finiteNumber_pow hp (by omega) (by omega)) (two_zpow_pos _).le (g4 hxm)
  obtain ⟨w1, w2, w3⟩ := foldl_good h hle hq (j := 2 * k + 2) (by omega) (by omega) (fun x => FloatLike.mul
    (FloatLike.sub (Ranged.fin x) (Ranged.fin m)) (FloatLike.sub (Ranged.fin x) (Ranged.fin m)))
    (fun x => wide p fl (wide p fl (x - m) * wide p fl (x - m))) xs
    (fun x hx' => ⟨(hsq x hx').1, (hsq x hx').2.1, (hsq x hx').2.2.1⟩) 0
    (by omega) 0 (by simp) (finiteNumber_zero hle)
  obtain ⟨w4, w5⟩ := foldl_lower h hle hq (j := 2 * k + 2) (by omega) (by omega)
    (fun x => wide p fl (wide p fl (x - m) * wide p fl (x - m)))
    (finiteNumber_pow hp (j := emin + q) (by omega) (by omega)) (two_zpow_pos _).le xs
    (fun x hx' => ⟨(hsq x hx').2.1, (hsq x hx').2.2.1, (hsq x hx').2.2.2.1⟩) 0 (by omega) 0 (by simp)
    (finiteNumber_zero hle) (le_refl _)
  change 0 ≤ Imate.RoundedConvergence.flSumSq (wide p fl) m xs at w4
  change _ → _ ≤ Imate.RoundedConvergence.flSumSq (wide p fl) m xs at w5
  change |Imate.RoundedConvergence.flSumSq (wide p fl) m xs| ≤ _ at w2
  have hw : sumSq (Ranged.fin m) (xs.map (Ranged.fin (fl := fl))) =
      Ranged.fin (Imate.RoundedConvergence.flSumSq (wide p fl) m xs) := by
    unfold sumSq
    rw [ofNat_eq, Nat.cast_zero, h.zero u.le, List.foldl_map]
    exact w1
  rw [zero_add] at w2
  have hz' : (∀ x ∈ xs, x = m) → Imate.RoundedConvergence.flSumSq (wide p fl) m xs = 0 := by
    intro hall
    have key : ∀ ys : List ℝ, (∀ y ∈ ys, y = m) → Imate.RoundedConvergence.flSumSq (wide p fl) m ys = 0 := by
      intro ys
      unfold Imate.RoundedConvergence.flSumSq
      induction ys with
      | nil => intro _; rfl
      | cons y ys ih =>
        intro hy
        rw [List.foldl_cons, hy y (by simp), sub_self, hw0, mul_zero, hw0, add_zero, hw0]
        exact ih (fun y' hy' => hy y' (by simp [hy']))
    exact key xs hall
  have hcase : Imate.RoundedConvergence.flSumSq (wide p fl) m xs = 0 ∨
      2 ^ (emin + q) ≤ Imate.RoundedConvergence.flSumSq (wide p fl) m xs := by
    by_cases hall : ∀ x ∈ xs, x = m
    · exact Or.inl (hz' hall)
    · push Not at hall
      obtain ⟨x, hx', hxm⟩ := hall
      exact Or.inr (w5 (Or.inr ⟨x, hx', (hsq x hx').2.2.2.2.2 hxm⟩))
  generalize hS : Imate.RoundedConvergence.flSumSq (wide p fl) m xs = S at *
  -- the quotient
  have hq2 : |S / (xs.length - 1)| ≤ 2 ^ (2 * k + 3) := by
    rw [abs_div, abs_of_nonneg (by linarith : (0 : ℝ) ≤ xs.length - 1), div_le_iff₀ (by linarith)]
    refine w2.trans ?_
    rw [show 2 * k + 3 = (2 * k + 2) + 1 by ring, zpow_add_one₀ (by norm_num)]
    have := two_zpow_pos (2 * k + 2)
    nlinarith
  have hcase2 : S / (xs.length - 1) = 0 ∨ 2 ^ emin ≤ S / (xs.length - 1) := by
    rcases hcase with c0 | c0
    · left; rw [c0, zero_div]
    · right
      rw [le_div_iff₀ (by linarith)]
      refine le_trans ?_ c0
      rw [zpow_add₀ (by norm_num)]
      exact mul_le_mul_of_nonneg_left (by linarith) (two_zpow_pos _).le
  have hS0 : 0 ≤ S / (xs.length - 1) := div_nonneg w4 (by linarith)
  have hg3 : Good p fl (S / (xs.length - 1)) := by
    rcases hcase2 with c0 | c0
    · rw [c0]; exact good_zero h hle
    · exact good_normal h hp (by rw [abs_of_nonneg hS0]; exact c0) (hq2.trans (two_zpow_le (by omega)))
  obtain ⟨v1, v2⟩ := good_bound h hg3 (finiteNumber_pow hp (by omega) (by omega)) hq2
  have v0 := good_nonneg h hle hg3 hS0
  have hcase3 : wide p fl (S / (xs.length - 1)) = 0 ∨ 2 ^ emin ≤ wide p fl (S / (xs.length - 1)) := by
    rcases hcase2 with c0 | c0
    · left; rw [c0, hw0]
    · exact Or.inr (good_lower h hg3 (finiteNumber_pow hp (le_refl _) hle) (two_zpow_pos _).le c0)
  generalize hv : wide p fl (S / (xs.length - 1)) = v at *
  -- the square root
  have hq3 : |Real.sqrt v| ≤ 2 ^ (k + 2) := by
    rw [abs_of_nonneg (Real.sqrt_nonneg _)]
    apply Real.sqrt_le_iff.2 ⟨(two_zpow_pos _).le, ?_⟩
    refine (abs_le.1 v1).2.trans ?_
    rw [sq, ← zpow_add₀ (by norm_num)]
    exact two_zpow_le (by omega)
  have hcase4 : Real.sqrt v = 0 ∨ 2 ^ c ≤ Real.sqrt v := by
    rcases hcase3 with c0 | c0
    · left; rw [c0, Real.sqrt_zero]
    · right
      apply Real.le_sqrt_of_sq_le
      refine le_trans ?_ c0
      rw [sq, ← zpow_add₀ (by norm_num)]
      exact two_zpow_le (by omega)
  have hg4 : Good p fl (Real.sqrt v) := by
    rcases hcase4 with c0 | c0
    · rw [c0]; exact good_zero h hle
    · refine good_normal h hp ?_ (hq3.trans (two_zpow_le (by omega)))
      rw [abs_of_nonneg (Real.sqrt_nonneg _)]
      exact (two_zpow_le (by omega)).trans c0
  obtain ⟨s1, -⟩ := good_bound h hg4 (finiteNumber_pow hp (by omega) (by omega)) hq3
  have s0 := good_nonneg h hle hg4 (Real.sqrt_nonneg _)
  have hcase5 : wide p fl (Real.sqrt v) = 0 ∨ 2 ^ c ≤ wide p fl (Real.sqrt v) := by
    rcases hcase4 with c0 | c0
    · left; rw [c0, hw0]
    · exact Or.inr (good_lower h hg4 (finiteNumber_pow hp (by omega) (by omega)) (two_zpow_pos _).le c0)
  have hstd : stdOf (xs.map (Ranged.fin (fl := fl))) = Ranged.fin (wide p fl (Real.sqrt v)) := by
    unfold stdOf
    rw [List.length_map, if_pos (show 1 < xs.length from hl), hm, hw, pred_fin h u (by omega) hnp,
      Imate.RangedConvergence.div_fin (by linarith), wide_eq hg3, hv, Imate.RangedConvergence.sqrt_fin v0, wide_eq hg4]
  have hstd' : Imate.RoundedConvergence.flStd (wide p fl) xs = wide p fl (Real.sqrt v) := by
    unfold Imate.RoundedConvergence.flStd
    rw [hmw, hS, hv]
  generalize wide p fl (Real.sqrt v) = s at *
  -- the error
  have hs' : s ≤ 2 ^ (k + 2) := (abs_le.1 s1).2
  have h8 : (2 : ℝ) ^ (k + 5) = 8 * 2 ^ (k + 2) := by
    rw [show k + 5 = (k + 2) + 3 by ring, zpow_add₀ (by norm_num) (k + 2)]; norm_num; ring
  have hq4 : |z * s| ≤ 2 ^ (k + 5) := by
    rw [abs_of_nonneg (mul_nonneg (by linarith) s0), h8]
    exact mul_le_mul hz hs' s0 (by norm_num)
  have hcase6 : z * s = 0 ∨ 2 ^ c ≤ z * s := by
    rcases hcase5 with c0 | c0
    · left; rw [c0, mul_zero]
    · right; nlinarith [two_zpow_pos c]
  have hg5 : Good p fl (z * s) := by
    rcases hcase6 with c0 | c0
    · rw [c0]; exact good_zero h hle
    · refine good_normal h hp ?_ (hq4.trans (two_zpow_le (by omega)))
      rw [abs_of_nonneg (mul_nonneg (by linarith) s0)]
      exact (two_zpow_le (by omega)).trans c0
  obtain ⟨r1, -⟩ := good_bound h hg5 (finiteNumber_pow hp (by omega) (by omega)) hq4
  have r0 := good_nonneg h hle hg5 (mul_nonneg (by linarith) s0)
  have hcase7 : wide p fl (z * s) = 0 ∨ 2 ^ c ≤ wide p fl (z * s) := by
    rcases hcase6 with c0 | c0
    · left; rw [c0, hw0]
    · exact Or.inr (good_lower h hg5 (finiteNumber_pow hp (by omega) (by omega)) (two_zpow_pos _).le c0)
  have hone : (1 : ℝ) ≤ Real.sqrt xs.length := by rw [Real.one_le_sqrt]; linarith
  have hsn : Real.sqrt xs.length ≤ xs.length := by
    rw [Real.sqrt_le_left (by positivity)]
    nlinarith
  have hg6 : Good p fl (Real.sqrt xs.length) := by
    refine good_normal h hp ?_ ?_ <;> rw [abs_of_nonneg (Real.sqrt_nonneg _)]
    · exact le_trans (by rw [← zpow_zero (2 : ℝ)]; exact two_zpow_le hlow) hone
    · exact hsn.trans (hrq.trans (two_zpow_le (by omega)))
  obtain ⟨n', n1, n2, n3⟩ := sqrtNat_fin h u (by omega) hnp
  have hn' : wide p fl (Real.sqrt xs.length) = n' := by
    rw [ofNat_fin h u hnp, Imate.RangedConvergence.sqrt_fin (by positivity), wide_eq hg6] at n3
    have : (XR.fin (wide p fl (Real.sqrt xs.length)) : XR ℝ) = XR.fin n' := n3
    simpa using this
  have hg7 : Good p fl (wide p fl (z * s) / n') := by
    rcases hcase7 with c0 | c0
    · rw [c0, zero_div]; exact good_zero h hle
    · refine good_normal h hp ?_ ?_ <;> rw [abs_of_nonneg (div_nonneg r0 (by linarith))]
      · rw [le_div_iff₀ (by linarith)]
        refine le_trans ?_ c0
        calc (2 : ℝ) ^ emin * n' ≤ 2 ^ emin * 2 ^ (q : ℤ) :=
              mul_le_mul_of_nonneg_left (n2.trans hrq) (two_zpow_pos _).le
          _ = 2 ^ (emin + q) := (zpow_add₀ (by norm_num) _ _).symm
          _ ≤ _ := two_zpow_le hc2
      · exact (div_le_self r0 n1).trans ((le_abs_self _).trans (r1.trans (two_zpow_le (by omega))))
  have hu : (0 : ℝ) ≤ 2 ^ (-(p : ℤ)) := (two_zpow_pos _).le
  have hu1 : (2 : ℝ) ^ (-(p : ℤ)) < 1 := by
    rw [← zpow_zero (2 : ℝ)]; exact two_zpow_lt (by omega)
  refine ⟨wide p fl (wide p fl (z * s) / n'), ?_, ?_, ?_⟩
  · rw [Imate.RoundedConvergence.meanOf_fin hp hW hne hnp.le, hmw]
  · unfold errorOf
    rw [hstd, mul_fin, wide_eq hg5, List.length_map, n3, Imate.RangedConvergence.div_fin (by linarith), wide_eq hg7]
  · unfold errorOf
    rw [Imate.RoundedConvergence.stdOf_fin hp hW hu hu1 (Rounded.nearest_rel hp hW) hl hnp.le, hstd',
      Imate.RoundedConvergence.mul_fin, List.length_map, Imate.RoundedConvergence.ofNat_fin, Imate.RoundedConvergence.fl_nat hp hW hnp.le,
      Imate.RoundedConvergence.sqrt_fin (by positivity), hn', Imate.RoundedConvergence.div_fin (by linarith)]

/-- **C99.**  Where the mean is not subnormal and every sample is equal to the mean or further from it than the square root
of the smallest normal number (times the number of samples), the results are accurate as in C86. -/
theorem in_range_accurate_partial (h : Format p emin emax fl) (u : Usual p emin emax) {q : ℕ} {k c d : ℤ} (hq : q + 1 ≤ p)
    (hk : emin ≤ k) (hk3 : 2 * k + q + 3 ≤ emax) (hk4 : k + q + 6 ≤ emax) (hd : emin + q ≤ 2 * d) (hd2 : emin ≤ d)
    (hd3 : d ≤ k + 1) (hc : 2 * c ≤ emin) (hc2 : emin + q ≤ c) {xs : List ℝ} (hl : 2 ≤ xs.length)
    (hn : xs.length ≤ 2 ^ q) (hx : ∀ x ∈ xs, FiniteNumber p emin emax x ∧ |x| ≤ 2 ^ k) {m : ℝ}
    (hm : meanOf (xs.map (Ranged.fin (fl := fl))) = Ranged.fin m) (hm2 : 2 ^ emin < |m|)
    (hdev : ∀ x ∈ xs, x = m ∨ 2 ^ d ≤ |x - m|) {z : ℝ} (hz0 : 1 ≤ z) (hz : z ≤ 8) :
    |m - mean xs| ≤ ((1 + 2 ^ (-(p : ℤ))) ^ (xs.length + 1) - 1) * mean (xs.map abs) ∧
    ∃ e : ℝ, errorOf (Ranged.fin z) (xs.map (Ranged.fin (fl := fl))) = Ranged.fin e ∧
      (1 - 2 ^ (-(p : ℤ))) ^ (xs.length + 8) * standardError z xs ≤ e ∧
      (1 - 2 ^ (-(p : ℤ))) * e ≤ (1 + 2 ^ (-(p : ℤ))) ^ (xs.length + 7) * (z * (sampleStd xs +
        2 * (((1 + 2 ^ (-(p : ℤ))) ^ (xs.length + 1) - 1) * mean (xs.map abs))) / Real.sqrt xs.length) := by
  obtain ⟨e, e1, e2, e3⟩ := same_numbers h u hq hk hk3 hk4 hd hd2 hd3 hc hc2 hl hn hx hm hm2 hdev hz0 hz
  have hp := u.bits
  have hnp : xs.length < 2 ^ p := lt_of_le_of_lt hn (pow_lt_pow_right₀ (by norm_num) (by omega))
  have hne : xs ≠ [] := by rintro rfl; simp at hl
  obtain ⟨m', f1, f2⟩ := Props.RoundedConvergence.mean_accurate (fl := wide p fl) hp (wide_nearest hp) hne hnp.le
  obtain ⟨e', f3, f4, f5⟩ := Props.RoundedConvergence.error_accurate (fl := wide p fl) hp (wide_nearest hp)
    (z := z) (by linarith) hl hnp.le
  rw [e1] at f1
  rw [e3] at f3
  have g1 : (XR.fin m : XR ℝ) = XR.fin m' := f1
  have g2 : (XR.fin e : XR ℝ) = XR.fin e' := f3
  obtain rfl : m = m' := by simpa using g1
  obtain rfl : e = e' := by simpa using g2
  exact ⟨f2, e, e2, f4, f5⟩

/-! ## Overflow -/

/-- The standard error of two samples is half their distance, times the quantile. -/
theorem two_samples (z a d : ℝ) (hd : 0 ≤ d) : standardError z [a, a + d] = z * (d / 2) := by
  have e1 : mean [a, a + d] = a + d / 2 := by simp [mean]; ring
  have e2 : sampleStd [a, a + d] = d / Real.sqrt 2 := by
    unfold sampleStd
    rw [e1]
    have : sqDev (a + d / 2) [a, a + d] / (([a, a + d] : List ℝ).length - 1 : ℝ) = d ^ 2 / 2 := by
      simp [sqDev]; ring
    rw [this, Real.sqrt_div (sq_nonneg d), Real.sqrt_sq hd]
  unfold standardError
  rw [e2]
  have h2 : Real.sqrt 2 * Real.sqrt 2 = 2 := Real.mul_self_sqrt (by norm_num)
  have h3 : Real.sqrt 2 ≠ 0 := by positivity
  show z * (d / Real.sqrt 2) / Real.sqrt ((2 : ℕ) : ℝ) = _
  push_cast
  rw [mul_div_assoc, div_div, h2]

/-- **C99, negated (overflow).**  When one sample is further from the mean than the square root of the largest number, the
error is infinite, no tolerance is met, and the reported error is infinite. -/
theorem overflow_never_converges (h : Format p emin emax fl) (u : Usual p emin emax) {j : ℤ} (h1 : emin ≤ j)
    (h2 : j ≤ emax) (h3 : emax + 1 ≤ 2 * j) {m : ℝ} {xs : List ℝ} (hl : 2 ≤ xs.length) (hn : xs.length < 2 ^ p)
    (hm : meanOf (xs.map (Ranged.fin (fl := fl))) = Ranged.fin m) (hx : ∃ x ∈ xs, 2 ^ j ≤ |x - m|) {z : ℝ} (hz : 0 < z) :
    errorOf (Ranged.fin z) (xs.map (Ranged.fin (fl := fl))) = Ranged.inf ∧
    (∀ atol rtol, meetsTol (Ranged.fin z) atol rtol (xs.map (Ranged.fin (fl := fl))) = false) ∧
    ∀ oz : ℝ, 0 < oz → averageEstimate (Ranged.fin z) (Ranged.fin oz) (xs.map (Ranged.fin (fl := fl))) =
      ⟨Ranged.fin m, Ranged.inf, 0⟩ := by
  have hs := stdOf_inf h u h1 h2 h3 hl hn hm hx
  obtain ⟨q, q1, -, q3⟩ := sqrtNat_fin h u (by omega) hn
  have he : errorOf (Ranged.fin z) (xs.map (Ranged.fin (fl := fl))) = Ranged.inf := by
    unfold errorOf
    rw [hs, mul_inf hz, List.length_map, q3, inf_div (by linarith)]
  refine ⟨he, fun atol rtol => ?_, fun oz hoz => ?_⟩
  · unfold meetsTol
    rw [he]
    exact inf_lt _
  · have hout : ∀ x : Ranged fl, isOutlier (Ranged.fin m) Ranged.inf x = false := fun x => inf_lt _
    have e1 : (xs.map (Ranged.fin (fl := fl))).filter (fun x => !isOutlier (Ranged.fin m) Ranged.inf x) =
        xs.map Ranged.fin := by
      rw [List.filter_eq_self]
      intro a _
      rw [hout]; rfl
    have e2 : (xs.map (Ranged.fin (fl := fl))).countP (fun x => isOutlier (Ranged.fin m) Ranged.inf x) = 0 := by
      rw [List.countP_eq_zero]
      intro a _
      rw [hout]; simp
    have hs' := hs
    have hm' := hm
    have he' := he
    unfold stdOf at hs'
    rw [if_pos (show 1 < _ by rw [List.length_map]; exact hl), hm] at hs'
    unfold meanOf at hm'
    unfold averageEstimate
    simp only [hm, hs, mul_inf hoz, e1, e2, Nat.sub_zero, Nat.add_zero]
    rw [hm', hs', if_pos (show 1 < _ by rw [List.length_map]; exact hl)]
    unfold errorOf at he'
    rw [hs] at he'
    rw [he']

/-- **C99, negated (overflow).**  Two samples that agree within `2^(-r)` of their size: the run does not stop, and the
error reported is infinite, although the standard error is `z 2^(k - r - 1)`. -/
theorem large_samples_wrong (h : Format p emin emax fl) (u : Usual p emin emax) {k : ℤ} {r : ℕ} (hp : 2 ≤ p)
    (hr : r + 3 ≤ p) (h1 : emin ≤ k - r - 1) (h2 : k + 2 ≤ emax) (h3 : emax + 1 ≤ 2 * (k - r - 1)) {z : ℝ} (hz : 0 < z) :
    let xs : List ℝ := [2 ^ k, 2 ^ k + 2 ^ (k - r)]
    (∀ x ∈ xs, FiniteNumber p emin emax x) ∧ standardError z xs = z * 2 ^ (k - r - 1) ∧
    errorOf (Ranged.fin z) (xs.map (Ranged.fin (fl := fl))) = Ranged.inf ∧
    (∀ atol rtol, meetsTol (Ranged.fin z) atol rtol (xs.map (Ranged.fin (fl := fl))) = false) ∧
    ∀ oz : ℝ, 0 < oz → ∃ m : ℝ, averageEstimate (Ranged.fin z) (Ranged.fin oz) (xs.map (Ranged.fin (fl := fl))) =
      ⟨Ranged.fin m, Ranged.inf, 0⟩ := by
  intro xs
  have hb : (1 : ℕ) ≤ 2 ^ r := Nat.one_le_two_pow
  have k1 : (2 : ℝ) ^ k = 2 ^ r * 2 ^ (k - r) := by
    rw [← zpow_natCast, ← zpow_add₀ (by norm_num)]; congr 1; omega
  have k2 : (2 : ℝ) ^ (k - r) = 2 * 2 ^ (k - r - 1) := by
    rw [show k - (r : ℤ) = (k - r - 1) + 1 by ring, zpow_add_one₀ (by norm_num)]; ring_nf
  have hx1 : FiniteNumber p emin emax (2 ^ k) := finiteNumber_pow (by omega) (by omega) (by omega)
  have hx2 : FiniteNumber p emin emax ((2 : ℝ) ^ k + 2 ^ (k - r)) := by
    have := finiteNumber_mul (p := p) (emin := emin) (emax := emax) (i := 2 ^ r + 1) (q := r + 1) (j := k - r)
      (by rw [pow_succ]; omega) (by omega) (by push_cast; omega) (by push_cast; omega)
    rw [k1]
    push_cast at this
    rwa [add_mul, one_mul] at this
  have hx3 : FiniteNumber p emin emax ((2 : ℝ) ^ k + 2 ^ (k - r - 1)) := by
    have := finiteNumber_mul (p := p) (emin := emin) (emax := emax) (i := 2 ^ (r + 1) + 1) (q := r + 2) (j := k - r - 1)
      (by have : 2 ^ (r + 2) = 2 * 2 ^ (r + 1) := by ring
          have := Nat.one_le_two_pow (n := r + 1)
          omega) (by omega) (by push_cast; omega) (by push_cast; omega)
    rw [k1, k2]
    push_cast at this
    rw [add_mul, one_mul, pow_succ] at this
    rw [← mul_assoc]
    exact this
  have hx4 : FiniteNumber p emin emax (2 * ((2 : ℝ) ^ k + 2 ^ (k - r - 1))) := by
    have := finiteNumber_mul (p := p) (emin := emin) (emax := emax) (i := 2 ^ (r + 1) + 1) (q := r + 2) (j := k - r)
      (by have : 2 ^ (r + 2) = 2 * 2 ^ (r + 1) := by ring
          have := Nat.one_le_two_pow (n := r + 1)
          omega) (by omega) (by push_cast; omega) (by push_cast; omega)
    push_cast at this
    rw [add_mul, one_mul, pow_succ, k2] at this
    rw [k1, k2]
    have e : (2 : ℝ) * (2 ^ r * (2 * 2 ^ (k - r - 1)) + 2 ^ (k - r - 1)) =
      2 ^ r * 2 * (2 * 2 ^ (k - r - 1)) + 2 * 2 ^ (k - r - 1) := by ring
    rw [e]
    exact this
  have hn : xs.length < 2 ^ p := by
    have : 2 ^ 2 ≤ 2 ^ p := Nat.pow_le_pow_right (by norm_num) hp
    show 2 < 2 ^ p
    omega
  have hm : meanOf (xs.map (Ranged.fin (fl := fl))) = Ranged.fin (2 ^ k + 2 ^ (k - r - 1)) := by
    unfold meanOf sumOf
    rw [List.length_map, ofNat_fin h u hn, ofNat_eq, Nat.cast_zero, h.zero u.le]
    show FloatLike.div (FloatLike.add (FloatLike.add (Ranged.fin 0) (Ranged.fin _)) (Ranged.fin _)) (Ranged.fin _) = _
    rw [add_fin, zero_add, h.exact hx1, add_fin]
    have e : (2 : ℝ) ^ k + (2 ^ k + 2 ^ (k - r)) = 2 * (2 ^ k + 2 ^ (k - r - 1)) := by rw [k2]; ring
    rw [e, h.exact hx4, Imate.RangedConvergence.div_fin (by show ((2 : ℕ) : ℝ) ≠ 0; norm_num)]
    have e' : 2 * ((2 : ℝ) ^ k + 2 ^ (k - r - 1)) / (xs.length : ℕ) = 2 ^ k + 2 ^ (k - r - 1) := by
      show 2 * ((2 : ℝ) ^ k + 2 ^ (k - r - 1)) / ((2 : ℕ) : ℝ) = _
      push_cast
      ring
    rw [e', h.exact hx3]
  have hx : ∃ x ∈ xs, (2 : ℝ) ^ (k - r - 1) ≤ |x - (2 ^ k + 2 ^ (k - r - 1))| := by
    refine ⟨2 ^ k, by simp [xs], ?_⟩
    rw [show (2 : ℝ) ^ k - (2 ^ k + 2 ^ (k - r - 1)) = -2 ^ (k - r - 1) by ring, abs_neg, abs_of_pos (two_zpow_pos _)]
  obtain ⟨c1, c2, c3⟩ := overflow_never_converges h u h1 (by omega) h3 (le_refl 2) hn hm hx hz
  refine ⟨?_, by rw [two_samples _ _ _ (two_zpow_pos _).le, k2]; ring, c1, c2, fun oz hoz => ⟨_, c3 oz hoz⟩⟩
  intro x hx
  simp only [xs, List.mem_cons, List.not_mem_nil, or_false] at hx
  rcases hx with rfl | rfl
  · exact hx1
  · exact hx2

/-! ## Underflow -/

/-- **C99, negated (underflow).**  When all samples are nearer to the mean than the square root of the smallest number, the
error is zero and the run stops.  When none of them is equal to the mean, all are outliers, and the reported trace is `nan`
with an infinite error. -/
theorem underflow_converges (h : Format p emin emax fl) (u : Usual p emin emax) {j : ℤ} (h1 : emin ≤ j)
    (h2 : j ≤ emax) (h3 : 2 * j < emin - p) {m : ℝ} {xs : List ℝ} (hl : 2 ≤ xs.length) (hn : xs.length < 2 ^ p)
    (hm : meanOf (xs.map (Ranged.fin (fl := fl))) = Ranged.fin m) (hx : ∀ x ∈ xs, |x - m| ≤ 2 ^ j) (z : ℝ) :
    errorOf (Ranged.fin z) (xs.map (Ranged.fin (fl := fl))) = Ranged.fin 0 ∧
    (∀ atol rtol : ℝ, 0 < atol → meetsTol (Ranged.fin z) (Ranged.fin atol) (Ranged.fin rtol)
      (xs.map (Ranged.fin (fl := fl))) = true) ∧
    ((∀ x ∈ xs, FiniteNumber p emin emax x ∧ x ≠ m) → 0 < z → ∀ oz : ℝ,
      averageEstimate (Ranged.fin z) (Ranged.fin oz) (xs.map (Ranged.fin (fl := fl))) =
        ⟨Ranged.of .nan, Ranged.inf, xs.length⟩ ∧
      pyAverageEstimate (Ranged.fin z) (Ranged.fin oz) (xs.map (Ranged.fin (fl := fl))) = none) := by
  have hs := stdOf_zero h u h1 h2 h3 hl hn hm hx
  have hs2 := pyStdOf_zero h u h1 h2 h3 hl hn hm hx
  obtain ⟨q, q1, -, q3⟩ := sqrtNat_fin h u (by omega) hn
  have he : errorOf (Ranged.fin z) (xs.map (Ranged.fin (fl := fl))) = Ranged.fin 0 := by
    unfold errorOf
    rw [hs, mul_zero' h u, List.length_map, q3, zero_div' h u (by linarith)]
  refine ⟨he, fun atol rtol hat => ?_, fun hall hz oz => ?_⟩
  · unfold meetsTol FloatLike.max
    rw [he, hm, mul_fin]
    rcases fmt_cases h (rtol * m) with ⟨d, hd, -⟩ | hd | hd <;> rw [hd]
    · rw [lt_fin]
      by_cases hc : atol < d
      · rw [decide_eq_true hc, if_pos rfl, lt_fin, decide_eq_true (by linarith)]
      · rw [decide_eq_false hc, if_neg (by simp), lt_fin, decide_eq_true hat]
    · rfl
    · show FloatLike.lt (V := Ranged fl) (Ranged.fin 0) (Ranged.fin atol) = true
      rw [lt_fin, decide_eq_true hat]
  · have hmf := meanOf_finite h u (by omega) hn hm
    have hout : ∀ a ∈ xs.map (Ranged.fin (fl := fl)), isOutlier (Ranged.fin m) (Ranged.fin 0) a = true := by
      intro a ha
      obtain ⟨x, hx', rfl⟩ := List.mem_map.1 ha
      exact outlier_zero h u hmf (hall x hx').1 (hall x hx').2
    have e1 : (xs.map (Ranged.fin (fl := fl))).filter (fun x => !isOutlier (Ranged.fin m) (Ranged.fin 0) x) = [] := by
      rw [List.filter_eq_nil_iff]
      intro a ha
      rw [hout a ha]; simp
    have e2 : (xs.map (Ranged.fin (fl := fl))).countP (fun x => isOutlier (Ranged.fin m) (Ranged.fin 0) x) =
        xs.length := by
      rw [List.countP_eq_length.2 hout, List.length_map]
    have hz0 : FloatLike.ofNat (V := Ranged fl) 0 = Ranged.fin 0 := by
      rw [ofNat_eq, Nat.cast_zero, h.zero u.le]
    refine ⟨?_, ?_⟩
    · unfold averageEstimate
      simp only [hm, hs, mul_zero' h u, e1, e2, List.length_map, Nat.sub_self]
      rw [if_neg (by omega)]
      have e3 : FloatLike.div (V := Ranged fl) (sumOf []) (FloatLike.ofNat 0) = Ranged.of .nan := by
        show FloatLike.div (V := Ranged fl) (FloatLike.ofNat 0) (FloatLike.ofNat 0) = _
        rw [hz0]
        show Ranged.round fl (if (0 : ℝ) = 0 then XR.signedInf 0 else _) = _
        rw [if_pos rfl, XR.signedInf, if_neg (lt_irrefl _), if_neg (lt_irrefl _)]
        rfl
      rw [e3, show (FloatLike.inf : Ranged fl) = Ranged.inf from rfl, mul_inf hz, hz0, Imate.RangedConvergence.sqrt_fin (le_refl _),
        Real.sqrt_zero, h.zero u.le, inf_div (le_refl _)]
    · unfold pyAverageEstimate
      simp only [hm, hs2, mul_zero' h u, e2, List.length_map, Nat.sub_self, if_true]

/-- **C99, negated (underflow).**  Two samples, one three times the other, so that the standard error is `z / 2` of the mean:
the run stops with error zero, and the reported trace is `nan`.  The Hutchinson method raises `ZeroDivisionError`. -/
theorem small_samples_wrong (h : Format p emin emax fl) (u : Usual p emin emax) {k : ℤ} (hp : 3 ≤ p) (h1 : emin ≤ k)
    (h2 : k + 2 ≤ emax) (h3 : 2 * k < emin - p) {z : ℝ} (hz : 0 < z) :
    let xs : List ℝ := [2 ^ k, 3 * 2 ^ k]
    (∀ x ∈ xs, FiniteNumber p emin emax x) ∧ standardError z xs = z / 2 * mean xs ∧
    errorOf (Ranged.fin z) (xs.map (Ranged.fin (fl := fl))) = Ranged.fin 0 ∧
    (∀ r : ℕ, emin ≤ k + 1 - r → meetsTol (Ranged.fin z) (Ranged.fin 0) (Ranged.fin (2 ^ (-(r : ℤ))))
      (xs.map (Ranged.fin (fl := fl))) = true) ∧
    ∀ oz : ℝ, averageEstimate (Ranged.fin z) (Ranged.fin oz) (xs.map (Ranged.fin (fl := fl))) =
        ⟨Ranged.of .nan, Ranged.inf, 2⟩ ∧
      pyAverageEstimate (Ranged.fin z) (Ranged.fin oz) (xs.map (Ranged.fin (fl := fl))) = none := by
  intro xs
  have hpos := two_zpow_pos k
  have k1 : (2 : ℝ) ^ (k + 1) = 2 * 2 ^ k := by rw [zpow_add_one₀ (by norm_num)]; ring
  have k2 : (2 : ℝ) ^ (k + 2) = 4 * 2 ^ k := by rw [zpow_add₀ (by norm_num)]; norm_num; ring
  have hx1 : FiniteNumber p emin emax (2 ^ k) := finiteNumber_pow (by omega) (by omega) (by omega)
  have hx2 : FiniteNumber p emin emax (3 * 2 ^ k) := by
    have := finiteNumber_mul (p := p) (emin := emin) (emax := emax) (i := 3) (q := 2) (j := k)
      (by norm_num) (by omega) (by push_cast; omega) (by push_cast; omega)
    simpa using this
  have hx3 : FiniteNumber p emin emax (2 ^ (k + 1)) := finiteNumber_pow (by omega) (by omega) (by omega)
  have hx4 : FiniteNumber p emin emax (2 ^ (k + 2)) := finiteNumber_pow (by omega) (by omega) (by omega)
  have hn : xs.length < 2 ^ p := by
    have : 2 ^ 3 ≤ 2 ^ p := Nat.pow_le_pow_right (by norm_num) hp
    show 2 < 2 ^ p
    omega
  have hm : meanOf (xs.map (Ranged.fin (fl := fl))) = Ranged.fin (2 ^ (k + 1)) := by
    unfold meanOf sumOf
    rw [List.length_map, ofNat_fin h u hn, ofNat_eq, Nat.cast_zero, h.zero u.le]
    show FloatLike.div (FloatLike.add (FloatLike.add (Ranged.fin 0) (Ranged.fin _)) (Ranged.fin _)) (Ranged.fin _) = _
    rw [add_fin, zero_add, h.exact hx1, add_fin]
    have e : (2 : ℝ) ^ k + 3 * 2 ^ k = 2 ^ (k + 2) := by rw [k2]; ring
    rw [e, h.exact hx4, Imate.RangedConvergence.div_fin (by show ((2 : ℕ) : ℝ) ≠ 0; norm_num)]
    have e' : (2 : ℝ) ^ (k + 2) / (xs.length : ℕ) = 2 ^ (k + 1) := by
      show (2 : ℝ) ^ (k + 2) / ((2 : ℕ) : ℝ) = _
      rw [k1, k2]
      push_cast
      ring
    rw [e', h.exact hx3]
  have hx : ∀ x ∈ xs, |x - 2 ^ (k + 1)| ≤ (2 : ℝ) ^ k := by
    intro x hx
    simp only [xs, List.mem_cons, List.not_mem_nil, or_false] at hx
    rw [k1]
    rcases hx with rfl | rfl <;> rw [abs_le] <;> constructor <;> linarith
  have hall : ∀ x ∈ xs, FiniteNumber p emin emax x ∧ x ≠ 2 ^ (k + 1) := by
    intro x hx
    simp only [xs, List.mem_cons, List.not_mem_nil, or_false] at hx
    rw [k1]
    rcases hx with rfl | rfl
    · exact ⟨hx1, by intro hc; linarith⟩
    · exact ⟨hx2, by intro hc; linarith⟩
  obtain ⟨c1, -, c3⟩ := underflow_converges h u h1 (by omega) h3 (le_refl 2) hn hm hx z
  have hse : standardError z xs = z / 2 * mean xs := by
    have e1 : xs = [2 ^ k, 2 ^ k + 2 * 2 ^ k] := by
      show [_, _] = [_, _]
      congr 2
      ring
    rw [e1, two_samples _ _ _ (by positivity)]
    simp [mean]
    ring
  refine ⟨fun x hx => (hall x hx).1, hse, c1, fun r hr => ?_, fun oz => c3 hall hz oz⟩
  unfold meetsTol FloatLike.max
  rw [c1, hm, mul_fin, ← zpow_add₀ (by norm_num), h.exact (finiteNumber_pow (by omega) (by omega) (by omega)), lt_fin,
    decide_eq_true (two_zpow_pos _), if_pos rfl, lt_fin, decide_eq_true (two_zpow_pos _)]

/-! ## The formats of the package -/

/-- `float`: samples near `10^30` that agree within `10^(-6)` never meet a tolerance. -/
theorem single_large (h : SingleFormat fl) {z : ℝ} (hz : 0 < z) (atol rtol : Ranged fl) :
    meetsTol (Ranged.fin z) atol rtol ([2 ^ (100 : ℤ), 2 ^ (100 : ℤ) + 2 ^ (80 : ℤ)].map (Ranged.fin (fl := fl))) = false :=
  (large_samples_wrong (k := 100) (r := 20) h single_usual (by norm_num) (by norm_num) (by norm_num) (by norm_num)
    (by norm_num) hz).2.2.2.1 atol rtol

/-- `float`: samples near `10^(-24)`, with the tolerance `2^(-7)` of the mean. -/
theorem single_small (h : SingleFormat fl) {z oz : ℝ} (hz : 0 < z) :
    meetsTol (Ranged.fin z) (Ranged.fin 0) (Ranged.fin (2 ^ (-((7 : ℕ) : ℤ))))
      ([2 ^ (-80 : ℤ), 3 * 2 ^ (-80 : ℤ)].map (Ranged.fin (fl := fl))) = true ∧
    (averageEstimate (Ranged.fin z) (Ranged.fin oz) ([2 ^ (-80 : ℤ), 3 * 2 ^ (-80 : ℤ)].map (Ranged.fin (fl := fl)))).trace =
      Ranged.of .nan := by
  obtain ⟨-, -, -, c3, c4⟩ := small_samples_wrong (k := -80) h single_usual (by norm_num) (by norm_num) (by norm_num)
    (by norm_num) hz
  exact ⟨c3 7 (by norm_num), by rw [(c4 oz).1]⟩

/-- `double`: the same for samples near `10^(-165)`; the Hutchinson method computes in `double` and raises. -/
theorem double_small (h : DoubleFormat fl) {z oz : ℝ} (hz : 0 < z) :
    (averageEstimate (Ranged.fin z) (Ranged.fin oz) ([2 ^ (-550 : ℤ), 3 * 2 ^ (-550 : ℤ)].map (Ranged.fin (fl := fl)))).trace =
      Ranged.of .nan ∧
    pyAverageEstimate (Ranged.fin z) (Ranged.fin oz) ([2 ^ (-550 : ℤ), 3 * 2 ^ (-550 : ℤ)].map (Ranged.fin (fl := fl))) =
      none := by
  obtain ⟨-, -, -, -, c4⟩ := small_samples_wrong (k := -550) h double_usual (by norm_num) (by norm_num) (by norm_num)
    (by norm_num) hz
  exact ⟨by rw [(c4 oz).1], (c4 oz).2⟩

/-! ## Cases that meet the hypotheses -/

/-- The formats exist. -/
example : (∃ fl, SingleFormat fl) ∧ ∃ fl, DoubleFormat fl :=
  ⟨format_exists 24 (by norm_num), format_exists 53 (by norm_num)⟩

/-- Ten samples of size one in `float`. -/
example (h : SingleFormat fl) := in_range_partial (k := 0) (q := 4) h single_usual (by norm_num) (by norm_num) (by norm_num)
  (by norm_num) (by norm_num) (xs := [1, -1, 1, 1, 1, 0, 1, 1, 1, 1]) (by norm_num) (by norm_num)
  (by intro x hx; simp only [List.mem_cons, List.not_mem_nil, or_false] at hx
      rcases hx with rfl | rfl | rfl | rfl | rfl | rfl | rfl | rfl | rfl | rfl <;> norm_num) (z := 2) (by norm_num) (by norm_num)

/-- The samples `1` and `3` in `float`. -/
example (h : SingleFormat fl) : ∃ e : ℝ, errorOf (Ranged.fin 2) ([1, 3].map (Ranged.fin (fl := fl))) = Ranged.fin e ∧
    (1 - 2 ^ (-(24 : ℤ))) ^ 10 * standardError 2 [1, 3] ≤ e := by
  have hn : ∀ {n : ℕ}, n ≤ 4 → FiniteNumber 24 (-126) 127 n := fun hn =>
    finiteNumber_nat single_usual (lt_of_le_of_lt hn (by norm_num))
  have hm : meanOf ([1, 3].map (Ranged.fin (fl := fl))) = Ranged.fin 2 := by
    have e1 := h.exact (hn (n := 1) (by norm_num))
    have e2 := h.exact (hn (n := 2) (by norm_num))
    have e4 := h.exact (hn (n := 4) (by norm_num))
    have e0 := h.exact (hn (n := 0) (by norm_num))
    push_cast at e1 e2 e4 e0
    unfold meanOf sumOf
    rw [ofNat_eq, ofNat_eq]
    show FloatLike.div (FloatLike.add (FloatLike.add (Ranged.of (fl ((0 : ℕ) : ℝ))) (Ranged.fin 1)) (Ranged.fin 3))
      (Ranged.of (fl ((2 : ℕ) : ℝ))) = _
    push_cast
    rw [e0, e2, add_fin, zero_add, e1, add_fin, show (1 : ℝ) + 3 = 4 by norm_num, e4,
      Imate.RangedConvergence.div_fin (by norm_num), show (4 : ℝ) / 2 = 2 by norm_num, e2]
  obtain ⟨-, e, h1, h2, -⟩ := in_range_accurate_partial (q := 1) (k := 2) (c := -63) (d := 0) h single_usual (by norm_num)
    (by norm_num) (by norm_num) (by norm_num) (by norm_num) (by norm_num) (by norm_num) (by norm_num) (by norm_num)
    (xs := [1, 3]) (by norm_num) (by norm_num)
    (by
      intro x hx
      simp only [List.mem_cons, List.not_mem_nil, or_false] at hx
      rcases hx with rfl | rfl
      · exact ⟨by simpa using hn (n := 1) (by norm_num), by norm_num⟩
      · exact ⟨by simpa using hn (n := 3) (by norm_num), by norm_num⟩) hm
    (by rw [abs_of_pos (by norm_num)]
        calc (2 : ℝ) ^ (-126 : ℤ) ≤ 2 ^ (0 : ℤ) := two_zpow_le (by norm_num)
          _ < 2 := by norm_num)
    (by
      intro x hx
      simp only [List.mem_cons, List.not_mem_nil, or_false] at hx
      rcases hx with rfl | rfl <;> right <;> norm_num) (z := 2) (by norm_num) (by norm_num)
  exact ⟨e, h1, h2⟩

end Imate.Props.RangedConvergence
