import Verif.Model.RangedConvergence
import Verif.Lemmas.FloatFormat

/-! # The convergence code with a finite range of numbers: lemmas -/

namespace Imate.RangedConvergence
open Imate.Spec Imate.Convergence

variable {p : ℕ} {emin emax : ℤ} {fl : ℝ → XR ℝ}

theorem fmt_lower (h : Format p emin emax fl) {x r : ℝ} (hr : FiniteNumber p emin emax r) (hr0 : 0 ≤ r)
    (hx : r ≤ x) : fl x = .pinf ∨ ∃ y, r ≤ y ∧ fl x = .fin y := by
  rcases lt_or_ge |x| (2 ^ (emax + 1) - 2 ^ (emax - p)) with h1 | h1
  · obtain ⟨y, h2, -, h4⟩ := h.nearest x h1
    refine Or.inr ⟨y, ?_, h2⟩
    by_contra hlt
    push Not at hlt
    have := h4 r hr
    rw [abs_of_nonneg (by linarith), abs_of_nonneg (by linarith)] at this
    linarith
  · left
    have h2 : (0 : ℝ) < 2 ^ (emax + 1) - 2 ^ (emax - p) := sub_pos.2 (two_zpow_lt (by omega))
    have h3 : 0 < x := by
      rcases (hr0.trans hx).eq_or_lt with h3 | h3
      · rw [← h3, abs_zero] at h1; linarith
      · exact h3
    rw [h.overflow x h1, XR.signedInf, if_pos h3]

theorem fmt_lower_neg (h : Format p emin emax fl) {x r : ℝ} (hr : FiniteNumber p emin emax r) (hr0 : 0 ≤ r)
    (hx : x ≤ -r) : fl x = .ninf ∨ ∃ y, y ≤ -r ∧ fl x = .fin y := by
  rcases lt_or_ge |x| (2 ^ (emax + 1) - 2 ^ (emax - p)) with h1 | h1
  · obtain ⟨y, h2, -, h4⟩ := h.nearest x h1
    refine Or.inr ⟨y, ?_, h2⟩
    by_contra hlt
    push Not at hlt
    have := h4 (-r) hr.neg
    rw [abs_of_nonpos (by linarith), abs_of_nonpos (by linarith)] at this
    linarith
  · left
    have h2 : (0 : ℝ) < 2 ^ (emax + 1) - 2 ^ (emax - p) := sub_pos.2 (two_zpow_lt (by omega))
    have h3 : x < 0 := by
      rcases (show x ≤ 0 by linarith).eq_or_lt with h3 | h3
      · rw [h3, abs_zero] at h1; linarith
      · exact h3
    rw [h.overflow x h1, XR.signedInf, if_neg (by linarith), if_pos h3]

theorem fmt_cases (h : Format p emin emax fl) (x : ℝ) :
    (∃ y, fl x = .fin y ∧ FiniteNumber p emin emax y) ∨ fl x = .pinf ∨ fl x = .ninf := by
  rcases lt_or_ge |x| (2 ^ (emax + 1) - 2 ^ (emax - p)) with h1 | h1
  · obtain ⟨y, h2, h3, -⟩ := h.nearest x h1
    exact Or.inl ⟨y, h2, h3⟩
  · right
    have h2 : (0 : ℝ) < 2 ^ (emax + 1) - 2 ^ (emax - p) := sub_pos.2 (two_zpow_lt (by omega))
    rw [h.overflow x h1]
    rcases lt_trichotomy x 0 with h3 | h3 | h3
    · right; rw [XR.signedInf, if_neg (by linarith), if_pos h3]
    · rw [h3, abs_zero] at h1; linarith
    · left; rw [XR.signedInf, if_pos h3]

/-! ## The operations on finite numbers -/

theorem add_fin (x y : ℝ) : FloatLike.add (V := Ranged fl) (Ranged.fin x) (Ranged.fin y) = Ranged.of (fl (x + y)) := rfl

theorem mul_fin (x y : ℝ) : FloatLike.mul (V := Ranged fl) (Ranged.fin x) (Ranged.fin y) = Ranged.of (fl (x * y)) := rfl

theorem sub_fin (x y : ℝ) : FloatLike.sub (V := Ranged fl) (Ranged.fin x) (Ranged.fin y) = Ranged.of (fl (x - y)) := by
  rw [sub_eq_add_neg]; rfl

theorem div_fin {x y : ℝ} (hy : y ≠ 0) :
    FloatLike.div (V := Ranged fl) (Ranged.fin x) (Ranged.fin y) = Ranged.of (fl (x / y)) := by
  show Ranged.round fl (if y = 0 then _ else _) = _
  rw [if_neg hy]
  rfl

theorem sqrt_fin {x : ℝ} (hx : 0 ≤ x) : FloatLike.sqrt (V := Ranged fl) (Ranged.fin x) = Ranged.of (fl (Real.sqrt x)) := by
  show Ranged.round fl (if x < 0 then _ else _) = _
  rw [if_neg (not_lt.2 hx)]
  rfl

theorem ofNat_eq (n : ℕ) : FloatLike.ofNat (V := Ranged fl) n = Ranged.of (fl (n : ℝ)) := rfl

theorem lt_fin (x y : ℝ) : FloatLike.lt (V := Ranged fl) (Ranged.fin x) (Ranged.fin y) = decide (x < y) := rfl

theorem _root_.Imate.Spec.Usual.le (u : Usual p emin emax) : emin ≤ emax := by have := u.low; have := u.high; omega

/-- The number of samples is represented exactly. -/
theorem finiteNumber_nat (u : Usual p emin emax) {n : ℕ} (hn : n < 2 ^ p) : FiniteNumber p emin emax n := by
  have h1 := u.low
  have h2 := u.high
  have h3 := u.bits
  rcases Nat.lt_or_ge (emax - p + 1).toNat 0 with h | h
  · omega
  · by_cases hz : emin - p + 1 ≤ 0
    · exact ⟨n, 0, by rw [abs_of_nonneg (by positivity)]; exact_mod_cast hn, by omega, by omega, by simp⟩
    · have : p = 0 := by omega
      omega

theorem ofNat_fin (h : Format p emin emax fl) (u : Usual p emin emax) {n : ℕ} (hn : n < 2 ^ p) :
    FloatLike.ofNat (V := Ranged fl) n = Ranged.fin (n : ℝ) :=
  congrArg Ranged.of (h.exact (finiteNumber_nat u hn))

theorem pred_fin (h : Format p emin emax fl) (u : Usual p emin emax) {n : ℕ} (h1 : 1 ≤ n) (hn : n < 2 ^ p) :
    FloatLike.sub (V := Ranged fl) (FloatLike.ofNat n) (FloatLike.ofNat 1) = Ranged.fin ((n : ℝ) - 1) := by
  rw [ofNat_fin h u hn, ofNat_fin h u (lt_of_le_of_lt h1 hn), sub_fin]
  have := h.exact (finiteNumber_nat u (lt_of_le_of_lt (Nat.sub_le n 1) hn))
  rw [Nat.cast_sub h1] at this
  rw [Nat.cast_one] at this ⊢
  rw [this]

/-- The square root of the number of samples. -/
theorem sqrtNat_fin (h : Format p emin emax fl) (u : Usual p emin emax) {n : ℕ} (h1 : 1 ≤ n) (hn : n < 2 ^ p) :
    ∃ q : ℝ, 1 ≤ q ∧ q ≤ n ∧ FloatLike.sqrt (V := Ranged fl) (FloatLike.ofNat n) = Ranged.fin q := by
  have hr : (1 : ℝ) ≤ n := by exact_mod_cast h1
  rw [ofNat_fin h u hn, sqrt_fin (by positivity)]
  have h2 : Real.sqrt n ≤ n := by
    rw [Real.sqrt_le_left (by positivity)]
    nlinarith
  have h3 : 1 ≤ Real.sqrt n := by rw [Real.one_le_sqrt]; exact hr
  obtain ⟨y, e1, e2, -⟩ := h.bound (finiteNumber_nat u hn) (x := Real.sqrt n)
    (by rw [abs_of_nonneg (Real.sqrt_nonneg _)]; exact h2)
  refine ⟨y, ?_, (abs_le.1 e2).2, by rw [e1]⟩
  have hone : FiniteNumber p emin emax 1 := by
    have := finiteNumber_nat u (lt_of_le_of_lt h1 hn)
    simpa using this
  rcases fmt_lower h hone (by norm_num) h3 with e3 | ⟨y', e4, e5⟩
  · rw [e3] at e1; cases e1
  · rw [e5] at e1
    obtain rfl : y' = y := by simpa using e1
    exact e4

/-! ## Overflow -/

/-- A non-negative number or `+inf`. -/
def NN (a : Ranged fl) : Prop := a = Ranged.inf ∨ ∃ y, 0 ≤ y ∧ a = Ranged.fin y

theorem fmt_nn (h : Format p emin emax fl) (he : emin ≤ emax) {x : ℝ} (hx : 0 ≤ x) : NN (fl := fl) (.of (fl x)) := by
  rcases h.nonneg he hx with e | ⟨y, h1, e⟩ <;> rw [e]
  · exact Or.inl rfl
  · exact Or.inr ⟨y, h1, rfl⟩

theorem square_nn (h : Format p emin emax fl) (he : emin ≤ emax) (m x : ℝ) :
    NN (FloatLike.mul (V := Ranged fl) (FloatLike.sub (Ranged.fin x) (Ranged.fin m))
      (FloatLike.sub (Ranged.fin x) (Ranged.fin m))) := by
  rw [sub_fin]
  rcases fmt_cases h (x - m) with ⟨d, hd, -⟩ | hd | hd <;> rw [hd]
  · rw [mul_fin]
    exact fmt_nn h he (mul_self_nonneg d)
  · exact Or.inl rfl
  · exact Or.inl rfl

theorem square_inf (h : Format p emin emax fl) (hp : 1 ≤ p) {j : ℤ} (h1 : emin ≤ j) (h2 : j ≤ emax)
    (h3 : emax + 1 ≤ 2 * j) {m x : ℝ} (hx : 2 ^ j ≤ |x - m|) :
    FloatLike.mul (V := Ranged fl) (FloatLike.sub (Ranged.fin x) (Ranged.fin m))
      (FloatLike.sub (Ranged.fin x) (Ranged.fin m)) = Ranged.inf := by
  rw [sub_fin]
  have hr := finiteNumber_pow (p := p) hp h1 h2
  have hpos := two_zpow_pos j
  have hsq : (2 : ℝ) ^ (emax + 1) ≤ 2 ^ j * 2 ^ j := by
    rw [← zpow_add₀ (by norm_num)]
    exact two_zpow_le (by omega)
  rcases le_abs'.1 hx with hx | hx
  · rcases fmt_lower_neg h hr hpos.le hx with hd | ⟨d, hd', hd⟩ <;> rw [hd]
    · rfl
    · rw [mul_fin, h.big (by nlinarith)]
  · rcases fmt_lower h hr hpos.le hx with hd | ⟨d, hd', hd⟩ <;> rw [hd]
    · rfl
    · rw [mul_fin, h.big (by nlinarith)]

theorem add_nn (h : Format p emin emax fl) (he : emin ≤ emax) {a b : Ranged fl} (ha : NN a) (hb : NN b) :
    NN (FloatLike.add (V := Ranged fl) a b) := by
  rcases ha with rfl | ⟨x, hx, rfl⟩ <;> rcases hb with rfl | ⟨y, hy, rfl⟩
  · exact Or.inl rfl
  · exact Or.inl rfl
  · exact Or.inl rfl
  · exact fmt_nn h he (add_nonneg hx hy)

theorem add_inf_left {b : Ranged fl} (hb : NN b) : FloatLike.add (V := Ranged fl) Ranged.inf b = Ranged.inf := by
  rcases hb with rfl | ⟨y, hy, rfl⟩ <;> rfl

theorem add_inf_right {a : Ranged fl} (ha : NN a) : FloatLike.add (V := Ranged fl) a Ranged.inf = Ranged.inf := by
  rcases ha with rfl | ⟨y, hy, rfl⟩ <;> rfl

theorem foldl_sq_stays (h : Format p emin emax fl) (he : emin ≤ emax) (m : ℝ) (xs : List ℝ) :
    (xs.map (Ranged.fin (fl := fl))).foldl (fun s x => FloatLike.add s (FloatLike.mul (FloatLike.sub x (Ranged.fin m))
      (FloatLike.sub x (Ranged.fin m)))) Ranged.inf = Ranged.inf := by
  induction xs with
  | nil => rfl
  | cons x xs ih =>
    rw [List.map_cons, List.foldl_cons, add_inf_left (square_nn h he m x)]
    exact ih

theorem foldl_sq_inf (h : Format p emin emax fl) (he : emin ≤ emax) (hp : 1 ≤ p) {j : ℤ} (h1 : emin ≤ j) (h2 : j ≤ emax)
    (h3 : emax + 1 ≤ 2 * j) {m : ℝ} {xs : List ℝ} (hx : ∃ x ∈ xs, 2 ^ j ≤ |x - m|) {a : Ranged fl} (ha : NN a) :
    (xs.map (Ranged.fin (fl := fl))).foldl (fun s x => FloatLike.add s (FloatLike.mul (FloatLike.sub x (Ranged.fin m))
      (FloatLike.sub x (Ranged.fin m)))) a = Ranged.inf := by
  induction xs generalizing a with
  | nil => simp at hx
  | cons x xs ih =>
    rw [List.map_cons, List.foldl_cons]
    by_cases hc : 2 ^ j ≤ |x - m|
    · rw [square_inf h hp h1 h2 h3 hc, add_inf_right ha]
      exact foldl_sq_stays h he m xs
    · refine ih ?_ (add_nn h he ha (square_nn h he m x))
      obtain ⟨y, hy, hy'⟩ := hx
      rcases List.mem_cons.1 hy with rfl | hy
      · exact absurd hy' hc
      · exact ⟨y, hy, hy'⟩

/-- The standard deviation overflows. -/
theorem stdOf_inf (h : Format p emin emax fl) (u : Usual p emin emax) {j : ℤ} (h1 : emin ≤ j) (h2 : j ≤ emax)
    (h3 : emax + 1 ≤ 2 * j) {m : ℝ} {xs : List ℝ} (hl : 2 ≤ xs.length) (hn : xs.length < 2 ^ p)
    (hm : meanOf (xs.map (Ranged.fin (fl := fl))) = Ranged.fin m) (hx : ∃ x ∈ xs, 2 ^ j ≤ |x - m|) :
    stdOf (xs.map (Ranged.fin (fl := fl))) = Ranged.inf := by
  have hs : sumSq (Ranged.fin m) (xs.map (Ranged.fin (fl := fl))) = Ranged.inf := by
    unfold sumSq
    refine foldl_sq_inf h u.le u.bits h1 h2 h3 hx ?_
    rw [ofNat_eq, Nat.cast_zero, h.zero u.le]
    exact Or.inr ⟨0, le_refl _, rfl⟩
  unfold stdOf
  rw [List.length_map, if_pos (show 1 < xs.length from hl), hm, hs, pred_fin h u (by omega) hn]
  have h4 : (0 : ℝ) < xs.length - 1 := by
    have : (2 : ℝ) ≤ xs.length := by exact_mod_cast hl
    linarith
  show FloatLike.sqrt (V := Ranged fl) (Ranged.round fl (if (xs.length : ℝ) - 1 < 0 then _ else _)) = _
  rw [if_neg (not_lt.2 h4.le)]
  rfl

theorem mul_inf {z : ℝ} (hz : 0 < z) :
    FloatLike.mul (V := Ranged fl) (Ranged.fin z) Ranged.inf = Ranged.inf := by
  show Ranged.round fl (XR.signedInf z) = _
  rw [XR.signedInf, if_pos hz]
  rfl

theorem inf_div {q : ℝ} (hq : 0 ≤ q) :
    FloatLike.div (V := Ranged fl) Ranged.inf (Ranged.fin q) = Ranged.inf := by
  show Ranged.round fl (if q < 0 then _ else _) = _
  rw [if_neg (not_lt.2 hq)]
  rfl

theorem inf_lt (b : XR ℝ) : FloatLike.lt (V := Ranged fl) Ranged.inf b = false := by
  cases b <;> rfl

/-! ## Underflow -/

theorem square_zero (h : Format p emin emax fl) (u : Usual p emin emax) {j : ℤ} (h1 : emin ≤ j) (h2 : j ≤ emax)
    (h3 : 2 * j < emin - p) {m x : ℝ} (hx : |x - m| ≤ 2 ^ j) :
    FloatLike.mul (V := Ranged fl) (FloatLike.sub (Ranged.fin x) (Ranged.fin m))
      (FloatLike.sub (Ranged.fin x) (Ranged.fin m)) = Ranged.fin 0 := by
  rw [sub_fin]
  obtain ⟨d, hd, hd', -⟩ := h.bound (finiteNumber_pow u.bits h1 h2) hx
  rw [hd]
  rw [mul_fin, h.tiny u.le (x := d * d) ?_]
  rw [abs_mul]
  calc |d| * |d| ≤ 2 ^ j * 2 ^ j := mul_le_mul hd' hd' (abs_nonneg _) (two_zpow_pos j).le
    _ = 2 ^ (2 * j) := by rw [← zpow_add₀ (by norm_num)]; congr 1; omega
    _ < _ := two_zpow_lt h3

theorem sumSq_zero (h : Format p emin emax fl) (u : Usual p emin emax) {j : ℤ} (h1 : emin ≤ j) (h2 : j ≤ emax)
    (h3 : 2 * j < emin - p) {m : ℝ} {xs : List ℝ} (hx : ∀ x ∈ xs, |x - m| ≤ 2 ^ j) :
    sumSq (Ranged.fin m) (xs.map (Ranged.fin (fl := fl))) = Ranged.fin 0 := by
  unfold sumSq
  rw [ofNat_eq, Nat.cast_zero, h.zero u.le]
  induction xs with
  | nil => rfl
  | cons x xs ih =>
    rw [List.map_cons, List.foldl_cons, square_zero h u h1 h2 h3 (hx x (by simp))]
    have : FloatLike.add (V := Ranged fl) (Ranged.fin 0) (Ranged.fin 0) = (Ranged.fin 0) := by
      have := add_fin (fl := fl) 0 0
      rw [add_zero, h.zero u.le] at this
      exact this
    rw [this]
    exact ih (fun y hy => hx y (by simp [hy]))

theorem zero_div' (h : Format p emin emax fl) (u : Usual p emin emax) {q : ℝ} (hq : q ≠ 0) :
    FloatLike.div (V := Ranged fl) (Ranged.fin 0) (Ranged.fin q) = Ranged.fin 0 := by
  rw [div_fin hq, zero_div, h.zero u.le]

theorem stdOf_zero (h : Format p emin emax fl) (u : Usual p emin emax) {j : ℤ} (h1 : emin ≤ j) (h2 : j ≤ emax)
    (h3 : 2 * j < emin - p) {m : ℝ} {xs : List ℝ} (hl : 2 ≤ xs.length) (hn : xs.length < 2 ^ p)
    (hm : meanOf (xs.map (Ranged.fin (fl := fl))) = Ranged.fin m) (hx : ∀ x ∈ xs, |x - m| ≤ 2 ^ j) :
    stdOf (xs.map (Ranged.fin (fl := fl))) = Ranged.fin 0 := by
  unfold stdOf
  have h4 : (0 : ℝ) < xs.length - 1 := by
    have : (2 : ℝ) ≤ xs.length := by exact_mod_cast hl
    linarith
  rw [List.length_map, if_pos (show 1 < xs.length from hl), hm, sumSq_zero h u h1 h2 h3 hx, pred_fin h u (by omega) hn, zero_div' h u h4.ne',
    sqrt_fin (le_refl _), Real.sqrt_zero, h.zero u.le]

theorem pyStdOf_zero (h : Format p emin emax fl) (u : Usual p emin emax) {j : ℤ} (h1 : emin ≤ j) (h2 : j ≤ emax)
    (h3 : 2 * j < emin - p) {m : ℝ} {xs : List ℝ} (hl : 2 ≤ xs.length) (hn : xs.length < 2 ^ p)
    (hm : meanOf (xs.map (Ranged.fin (fl := fl))) = Ranged.fin m) (hx : ∀ x ∈ xs, |x - m| ≤ 2 ^ j) :
    pyStdOf (xs.map (Ranged.fin (fl := fl))) = Ranged.fin 0 := by
  unfold pyStdOf
  have h4 : (0 : ℝ) < xs.length := by
    have : (2 : ℝ) ≤ xs.length := by exact_mod_cast hl
    linarith
  rw [List.length_map, if_pos (show 1 < xs.length from hl), hm, sumSq_zero h u h1 h2 h3 hx, ofNat_fin h u hn, zero_div' h u h4.ne',
    sqrt_fin (le_refl _), Real.sqrt_zero, h.zero u.le]

theorem mul_zero' (h : Format p emin emax fl) (u : Usual p emin emax) (z : ℝ) :
    FloatLike.mul (V := Ranged fl) (Ranged.fin z) (Ranged.fin 0) = Ranged.fin 0 := by
  rw [mul_fin, mul_zero, h.zero u.le]

/-- A sample other than the mean is further than zero from it. -/
theorem outlier_zero (h : Format p emin emax fl) (u : Usual p emin emax) {m x : ℝ} (hm : FiniteNumber p emin emax m)
    (hx : FiniteNumber p emin emax x) (hne : x ≠ m) :
    isOutlier (V := Ranged fl) (Ranged.fin m) (Ranged.fin 0) (Ranged.fin x) = true := by
  unfold isOutlier
  rw [sub_fin]
  have h0 := h.sub_ne_zero u.le hx hm hne
  rcases fmt_cases h (x - m) with ⟨d, hd, -⟩ | hd | hd <;> rw [hd] at h0 ⊢
  · show decide (0 < |d|) = true
    rw [decide_eq_true_eq, abs_pos]
    rintro rfl
    exact h0 rfl
  · rfl
  · rfl

/-- The mean is a number of the format. -/
theorem meanOf_finite (h : Format p emin emax fl) (u : Usual p emin emax) {m : ℝ} {xs : List ℝ} (hl : 1 ≤ xs.length)
    (hn : xs.length < 2 ^ p) (hm : meanOf (xs.map (Ranged.fin (fl := fl))) = Ranged.fin m) :
    FiniteNumber p emin emax m := by
  unfold meanOf at hm
  rw [List.length_map, ofNat_fin h u hn] at hm
  have h4 : (xs.length : ℝ) ≠ 0 := by
    have : (1 : ℝ) ≤ xs.length := by exact_mod_cast hl
    linarith
  generalize sumOf (xs.map (Ranged.fin (fl := fl))) = s at hm
  have key : ∀ s : XR ℝ, FloatLike.div (V := Ranged fl) (.of s) (Ranged.fin (xs.length : ℝ)) = Ranged.fin m →
      FiniteNumber p emin emax m := by
    intro s hs
    cases s with
    | fin a =>
      have e := div_fin (fl := fl) (x := a) h4
      have e' : fl (a / xs.length) = XR.fin m := by
        have := e.symm.trans hs
        exact this
      rcases fmt_cases h (a / xs.length) with ⟨d, hd, hd'⟩ | hd | hd <;> rw [hd] at e'
      · obtain rfl : d = m := by simpa using e'
        exact hd'
      · cases e'
      · cases e'
    | pinf =>
      rw [inf_div (Nat.cast_nonneg _)] at hs
      cases hs
    | ninf =>
      have : FloatLike.div (V := Ranged fl) (Ranged.of .ninf) (Ranged.fin (xs.length : ℝ)) = (Ranged.of .ninf) := by
        show Ranged.round fl (if (xs.length : ℝ) < 0 then _ else _) = _
        rw [if_neg (not_lt.2 (Nat.cast_nonneg _))]
        rfl
      rw [this] at hs
      cases hs
    | nan => cases hs
  exact key s hm

end Imate.RangedConvergence
