import Verif.Model.RoundedConvergence
import Verif.Lemmas.Rounded

/-! Rounded means and standard deviations. -/

namespace Imate.RoundedConvergence

open Convergence Spec Rounded

variable {fl : ℝ → ℝ} {p : ℕ} {u : ℝ}

theorem fl_self (h : Nearest p fl) {x : ℝ} (hx : Representable p x) : fl x = x := by
  have := (h x).2 x hx
  simp only [sub_self, abs_zero] at this
  have := abs_nonpos_iff.1 this
  linarith

theorem representable_nat (hp : 1 ≤ p) {n : ℕ} (hn : n ≤ 2 ^ p) : Representable p (n : ℝ) := by
  rcases hn.lt_or_eq with h | h
  · refine ⟨n, 0, ?_, by simp⟩
    rw [Nat.abs_cast]
    exact_mod_cast h
  · rw [h]
    push_cast
    exact representable_pow hp p

theorem fl_nat (hp : 1 ≤ p) (h : Nearest p fl) {n : ℕ} (hn : n ≤ 2 ^ p) : fl n = n :=
  fl_self h (representable_nat hp hn)

/-! ### The operations on finite numbers -/

theorem add_fin (x y : ℝ) : FloatLike.add (Fl.fin x : Fl fl) (Fl.fin y) = Fl.fin (fl (x + y)) := rfl
theorem sub_fin (x y : ℝ) : FloatLike.sub (Fl.fin x : Fl fl) (Fl.fin y) = Fl.fin (fl (x - y)) := by
  rw [sub_eq_add_neg]; rfl
theorem mul_fin (x y : ℝ) : FloatLike.mul (Fl.fin x : Fl fl) (Fl.fin y) = Fl.fin (fl (x * y)) := rfl
theorem div_fin {x y : ℝ} (hy : y ≠ 0) : FloatLike.div (Fl.fin x : Fl fl) (Fl.fin y) = Fl.fin (fl (x / y)) := by
  show Fl.round fl (FloatLike.div (XR.fin x) (XR.fin y)) = _
  rw [Convergence.div_fin _ _ hy]; rfl
theorem sqrt_fin {x : ℝ} (hx : 0 ≤ x) : FloatLike.sqrt (Fl.fin x : Fl fl) = Fl.fin (fl (Real.sqrt x)) := by
  show Fl.round fl (FloatLike.sqrt (XR.fin x)) = _
  rw [Convergence.sqrt_fin hx]; rfl
theorem ofNat_fin (n : ℕ) : (FloatLike.ofNat n : Fl fl) = Fl.fin (fl n) := rfl

/-! ### Sums -/

/-- The loop that adds, on real numbers. -/
noncomputable def flSum (fl : ℝ → ℝ) (xs : List ℝ) : ℝ := xs.foldl (fun s x => fl (s + x)) 0

theorem sumOf_fin (h0 : fl 0 = 0) (xs : List ℝ) : sumOf (xs.map (Fl.fin (fl := fl))) = Fl.fin (flSum fl xs) := by
  have key : ∀ a : ℝ, (xs.map (Fl.fin (fl := fl))).foldl FloatLike.add (Fl.fin a) =
      Fl.fin (xs.foldl (fun s x => fl (s + x)) a) := by
    induction xs with
    | nil => intro a; rfl
    | cons x xs ih => intro a; simp only [List.map_cons, List.foldl_cons, add_fin]; exact ih _
  unfold sumOf flSum
  rw [ofNat_fin, Nat.cast_zero, h0]
  exact key 0

theorem flSum_approx (hu : 0 ≤ u) (hfl : Rel u fl) (xs : List ℝ) :
    Approx ((1 + u) ^ xs.length) xs.sum (xs.map abs).sum (flSum fl xs) := by
  have key : ∀ (k : ℕ) (s T a : ℝ), Approx ((1 + u) ^ k) s T a →
      Approx ((1 + u) ^ (k + xs.length)) (s + xs.sum) (T + (xs.map abs).sum) (xs.foldl (fun s x => fl (s + x)) a) := by
    induction xs with
    | nil => intro k s T a h; simpa using h
    | cons x xs ih =>
      intro k s T a h
      have h1 := (h.add (approx_self (x := x) (one_le_pow₀ (by linarith : (1 : ℝ) ≤ 1 + u)))).round hu hfl
      rw [← pow_succ] at h1
      have h2 := ih (k + 1) _ _ _ h1
      simp only [List.sum_cons, List.map_cons, List.length_cons, List.foldl_cons]
      rw [show k + (xs.length + 1) = k + 1 + xs.length by omega, ← add_assoc, ← add_assoc]
      exact h2
  have := key 0 0 0 0 approx_zero
  simpa [flSum] using this

/-- The bound of the error of a rounded mean. -/
noncomputable def meanBound (u : ℝ) (xs : List ℝ) : ℝ := ((1 + u) ^ (xs.length + 1) - 1) * mean (xs.map abs)

theorem approx_div {G s T y : ℝ} {n : ℝ} (hn : 0 < n) (h : Approx G s T y) : Approx G (s / n) (T / n) (y / n) := by
  refine ⟨?_, ?_⟩
  · rw [abs_div, abs_of_pos hn]
    exact div_le_div_of_nonneg_right h.1 hn.le
  · rw [← sub_div, abs_div, abs_of_pos hn, ← mul_div_assoc]
    exact div_le_div_of_nonneg_right h.2 hn.le

/-- The rounded mean. -/
noncomputable def flMean (fl : ℝ → ℝ) (xs : List ℝ) : ℝ := fl (flSum fl xs / xs.length)

theorem meanOf_fin (hp : 1 ≤ p) (h : Nearest p fl) {xs : List ℝ} (hne : xs ≠ []) (hn : xs.length ≤ 2 ^ p) :
    meanOf (xs.map (Fl.fin (fl := fl))) = Fl.fin (flMean fl xs) := by
  unfold meanOf
  have h0 : fl 0 = 0 := by simpa using fl_nat hp h (n := 0) (by positivity)
  rw [sumOf_fin h0, ofNat_fin, List.length_map, fl_nat hp h hn, div_fin]
  · rfl
  · have := List.length_pos_iff.2 hne
    positivity

theorem flMean_near (hu : 0 ≤ u) (hfl : Rel u fl) {xs : List ℝ} (hne : xs ≠ []) :
    |flMean fl xs - mean xs| ≤ meanBound u xs := by
  have hpos : (0 : ℝ) < xs.length := by exact_mod_cast List.length_pos_iff.2 hne
  have := ((approx_div hpos (flSum_approx hu hfl xs)).round hu hfl).2
  rw [← pow_succ] at this
  unfold meanBound mean
  rw [List.length_map]
  exact this

/-! ### Two-sided relative errors -/

/-- `y` is the result of `k` roundings of `x`. -/
def Near (u : ℝ) (k : ℕ) (x y : ℝ) : Prop := 0 ≤ x ∧ (1 - u) ^ k * x ≤ y ∧ y ≤ (1 + u) ^ k * x

theorem Near.nonneg {k : ℕ} {x y : ℝ} (h1 : u < 1) (h : Near u k x y) : 0 ≤ y :=
  (mul_nonneg (pow_nonneg (by linarith) k) h.1).trans h.2.1

theorem near_self {x : ℝ} (hx : 0 ≤ x) : Near u 0 x x := ⟨hx, by simp, by simp⟩

theorem Near.round {k : ℕ} {x y : ℝ} (hu : 0 ≤ u) (h1 : u < 1) (hfl : Rel u fl) (h : Near u k x y) :
    Near u (k + 1) x (fl y) := by
  have hy := h.nonneg h1
  have h2 := abs_le.1 (hfl y)
  rw [abs_of_nonneg hy] at h2
  refine ⟨h.1, ?_, ?_⟩
  · have : (1 - u) * ((1 - u) ^ k * x) ≤ (1 - u) * y := mul_le_mul_of_nonneg_left h.2.1 (by linarith)
    rw [pow_succ]
    nlinarith
  · have : (1 + u) * y ≤ (1 + u) * ((1 + u) ^ k * x) := mul_le_mul_of_nonneg_left h.2.2 (by linarith)
    rw [pow_succ]
    nlinarith

theorem Near.mono {k l : ℕ} {x y : ℝ} (hu : 0 ≤ u) (h1 : u < 1) (hkl : k ≤ l) (h : Near u k x y) : Near u l x y :=
  ⟨h.1, (mul_le_mul_of_nonneg_right (pow_le_pow_of_le_one (by linarith) (by linarith) hkl) h.1).trans h.2.1,
    h.2.2.trans (mul_le_mul_of_nonneg_right (pow_le_pow_right₀ (by linarith) hkl) h.1)⟩

theorem Near.add {k : ℕ} {x y x' y' : ℝ} (h : Near u k x y) (h' : Near u k x' y') : Near u k (x + x') (y + y') :=
  ⟨add_nonneg h.1 h'.1, by rw [mul_add]; exact add_le_add h.2.1 h'.2.1, by rw [mul_add]; exact add_le_add h.2.2 h'.2.2⟩

theorem Near.div {k : ℕ} {x y n : ℝ} (hn : 0 < n) (h : Near u k x y) : Near u k (x / n) (y / n) :=
  ⟨div_nonneg h.1 hn.le, by rw [← mul_div_assoc]; exact div_le_div_of_nonneg_right h.2.1 hn.le,
    by rw [← mul_div_assoc]; exact div_le_div_of_nonneg_right h.2.2 hn.le⟩

theorem Near.const_mul {k : ℕ} {x y c : ℝ} (hc : 0 ≤ c) (h : Near u k x y) : Near u k (c * x) (c * y) :=
  ⟨mul_nonneg hc h.1, by nlinarith [mul_le_mul_of_nonneg_left h.2.1 hc], by nlinarith [mul_le_mul_of_nonneg_left h.2.2 hc]⟩

theorem Near.sqrt {k : ℕ} {x y : ℝ} (hu : 0 ≤ u) (h1 : u < 1) (h : Near u k x y) : Near u k (Real.sqrt x) (Real.sqrt y) := by
  have ha : 0 ≤ (1 - u) ^ k := pow_nonneg (by linarith) k
  have ha1 : (1 - u) ^ k ≤ 1 := pow_le_one₀ (by linarith) (by linarith)
  have hb1 : 1 ≤ (1 + u) ^ k := one_le_pow₀ (by linarith)
  refine ⟨Real.sqrt_nonneg _, ?_, ?_⟩
  · refine le_trans ?_ (Real.sqrt_le_sqrt h.2.1)
    rw [Real.sqrt_mul ha]
    refine mul_le_mul_of_nonneg_right (Real.le_sqrt_of_sq_le ?_) (Real.sqrt_nonneg _)
    nlinarith
  · refine (Real.sqrt_le_sqrt h.2.2).trans ?_
    rw [Real.sqrt_mul (by linarith)]
    refine mul_le_mul_of_nonneg_right (Real.sqrt_le_iff.2 ⟨by linarith, ?_⟩) (Real.sqrt_nonneg _)
    nlinarith

/-- A rounded square of a rounded difference. -/
theorem square_near (hu : 0 ≤ u) (h1 : u < 1) (hfl : Rel u fl) (d : ℝ) : Near u 3 (d ^ 2) (fl (fl d * fl d)) := by
  have h2 : Near u 1 |d| |fl d| := by
    have h3 := hfl d
    have h4 := abs_sub_abs_le_abs_sub (fl d) d
    have h5 := abs_sub_abs_le_abs_sub d (fl d)
    rw [abs_sub_comm] at h5
    exact ⟨abs_nonneg d, by rw [pow_one]; linarith, by rw [pow_one]; linarith⟩
  have h3 : Near u 2 (d ^ 2) (fl d * fl d) := by
    rw [← sq_abs d, ← abs_mul_abs_self (fl d)]
    obtain ⟨a, b, c⟩ := h2
    rw [pow_one] at b c
    refine ⟨by positivity, ?_, ?_⟩
    · have := mul_le_mul b b (mul_nonneg (by linarith) a) (abs_nonneg _)
      nlinarith
    · have := mul_le_mul c c (abs_nonneg _) (mul_nonneg (by linarith) a)
      nlinarith
  exact h3.round hu h1 hfl

/-- The loop that adds squares, on real numbers. -/
noncomputable def flSumSq (fl : ℝ → ℝ) (m : ℝ) (xs : List ℝ) : ℝ :=
  xs.foldl (fun s x => fl (s + fl (fl (x - m) * fl (x - m)))) 0

theorem sumSq_fin (h0 : fl 0 = 0) (m : ℝ) (xs : List ℝ) :
    sumSq (Fl.fin m) (xs.map (Fl.fin (fl := fl))) = Fl.fin (flSumSq fl m xs) := by
  have key : ∀ a : ℝ, (xs.map (Fl.fin (fl := fl))).foldl
      (fun s x => FloatLike.add s (FloatLike.mul (FloatLike.sub x (Fl.fin m)) (FloatLike.sub x (Fl.fin m)))) (Fl.fin a) =
      Fl.fin (xs.foldl (fun s x => fl (s + fl (fl (x - m) * fl (x - m)))) a) := by
    induction xs with
    | nil => intro a; rfl
    | cons x xs ih =>
      intro a
      simp only [List.map_cons, List.foldl_cons, sub_fin, mul_fin, add_fin]
      exact ih _
  unfold sumSq flSumSq
  rw [ofNat_fin, Nat.cast_zero, h0]
  exact key 0

theorem flSumSq_near (hu : 0 ≤ u) (h1 : u < 1) (hfl : Rel u fl) (m : ℝ) (xs : List ℝ) :
    Near u (xs.length + 3) (sqDev m xs) (flSumSq fl m xs) := by
  have key : ∀ (k : ℕ) (s a : ℝ), 3 ≤ k → Near u k s a →
      Near u (k + xs.length) (s + sqDev m xs) (xs.foldl (fun s x => fl (s + fl (fl (x - m) * fl (x - m)))) a) := by
    induction xs with
    | nil => intro k s a _ h; simpa [sqDev] using h
    | cons x xs ih =>
      intro k s a hk h
      have h2 := (h.add ((square_near hu h1 hfl (x - m)).mono hu h1 hk)).round hu h1 hfl
      have h3 := ih (k + 1) _ _ (by omega) h2
      simp only [sqDev, List.map_cons, List.sum_cons, List.length_cons, List.foldl_cons] at h3 ⊢
      rw [show k + (xs.length + 1) = k + 1 + xs.length by omega, ← add_assoc]
      exact h3
  have := key 3 0 0 le_rfl ((near_self le_rfl).mono hu h1 (by omega))
  rw [zero_add] at this
  rw [Nat.add_comm]
  exact this

/-- The sum of squares about any number. -/
theorem sqDev_shift (m : ℝ) {xs : List ℝ} (hne : xs ≠ []) :
    sqDev m xs = sqDev (mean xs) xs + xs.length * (m - mean xs) ^ 2 := by
  have hpos : (xs.length : ℝ) ≠ 0 := by
    have := List.length_pos_iff.2 hne
    positivity
  have key : ∀ c : ℝ, sqDev c xs = (xs.map fun x => x ^ 2).sum - 2 * c * xs.sum + xs.length * c ^ 2 := by
    intro c
    clear hne hpos
    unfold sqDev
    induction xs with
    | nil => simp
    | cons x xs ih =>
      simp only [List.map_cons, List.sum_cons, ih, List.length_cons]
      push_cast
      ring
  have hs : xs.sum = xs.length * mean xs := by
    unfold mean
    field_simp
  rw [key, key, hs]
  ring

/-- The rounded standard deviation. -/
noncomputable def flStd (fl : ℝ → ℝ) (xs : List ℝ) : ℝ :=
  fl (Real.sqrt (fl (flSumSq fl (flMean fl xs) xs / (xs.length - 1))))

theorem flQuotient_near (hu : 0 ≤ u) (h1 : u < 1) (hfl : Rel u fl) {xs : List ℝ} (h2 : 2 ≤ xs.length) :
    Near u (xs.length + 4) (sqDev (flMean fl xs) xs / (xs.length - 1))
      (fl (flSumSq fl (flMean fl xs) xs / (xs.length - 1))) := by
  have : (2 : ℝ) ≤ xs.length := by exact_mod_cast h2
  exact ((flSumSq_near hu h1 hfl _ xs).div (by linarith)).round hu h1 hfl

theorem stdOf_fin (hp : 1 ≤ p) (h : Nearest p fl) (hu : 0 ≤ u) (h1 : u < 1) (hfl : Rel u fl) {xs : List ℝ}
    (h2 : 2 ≤ xs.length) (hn : xs.length ≤ 2 ^ p) :
    stdOf (xs.map (Fl.fin (fl := fl))) = Fl.fin (flStd fl xs) := by
  have hne : xs ≠ [] := by rintro rfl; simp at h2
  have hr : (2 : ℝ) ≤ xs.length := by exact_mod_cast h2
  have h0 : fl 0 = 0 := by simpa using fl_nat hp h (n := 0) (by positivity)
  have e1 : fl ((xs.length : ℝ) - 1) = xs.length - 1 := by
    have := fl_nat hp h (n := xs.length - 1) (by omega)
    rwa [Nat.cast_sub (by omega), Nat.cast_one] at this
  unfold stdOf
  rw [List.length_map, if_pos (by omega), meanOf_fin hp h hne hn, sumSq_fin h0, ofNat_fin, ofNat_fin, fl_nat hp h hn,
    Nat.cast_one, nearest_one hp h, sub_fin, e1, div_fin (by linarith), sqrt_fin]
  · rfl
  · exact (flQuotient_near hu h1 hfl h2).nonneg h1

/-- The rounded standard deviation lies between the exact one and that with the error of the mean added. -/
theorem flStd_bounds (hu : 0 ≤ u) (h1 : u < 1) (hfl : Rel u fl) {xs : List ℝ} (h2 : 2 ≤ xs.length) :
    (1 - u) ^ (xs.length + 5) * sampleStd xs ≤ flStd fl xs ∧
    flStd fl xs ≤ (1 + u) ^ (xs.length + 5) * (sampleStd xs + 2 * meanBound u xs) := by
  have hne : xs ≠ [] := by rintro rfl; simp at h2
  have hr : (2 : ℝ) ≤ xs.length := by exact_mod_cast h2
  have hN := ((flQuotient_near hu h1 hfl h2).sqrt hu h1).round hu h1 hfl
  have hd := flMean_near hu hfl hne
  have hsd := sqDev_nonneg (mean xs) xs
  constructor
  · refine le_trans (mul_le_mul_of_nonneg_left ?_ (pow_nonneg (by linarith) _)) hN.2.1
    unfold sampleStd
    refine Real.sqrt_le_sqrt (div_le_div_of_nonneg_right ?_ (by linarith))
    rw [sqDev_shift (flMean fl xs) hne]
    nlinarith [sq_nonneg (flMean fl xs - mean xs)]
  · refine hN.2.2.trans (mul_le_mul_of_nonneg_left ?_ (pow_nonneg (by linarith) _))
    have hb : 0 ≤ meanBound u xs := (abs_nonneg _).trans hd
    have hs0 : 0 ≤ sampleStd xs := Real.sqrt_nonneg _
    refine Real.sqrt_le_iff.2 ⟨by linarith, ?_⟩
    have hs2 : sampleStd xs ^ 2 = sqDev (mean xs) xs / (xs.length - 1) :=
      Real.sq_sqrt (div_nonneg hsd (by linarith))
    have hdev : (flMean fl xs - mean xs) ^ 2 ≤ meanBound u xs ^ 2 := by
      rw [← sq_abs]
      exact pow_le_pow_left₀ (abs_nonneg _) hd 2
    rw [sqDev_shift (flMean fl xs) hne, add_div]
    have h5 : xs.length * (flMean fl xs - mean xs) ^ 2 / ((xs.length : ℝ) - 1) ≤ 2 * meanBound u xs ^ 2 := by
      rw [div_le_iff₀ (by linarith)]
      nlinarith [sq_nonneg (meanBound u xs)]
    rw [← hs2]
    nlinarith [mul_nonneg hs0 hb, sq_nonneg (meanBound u xs)]

end Imate.RoundedConvergence
