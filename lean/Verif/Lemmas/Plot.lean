import Verif.Model.Plot
import Verif.Lemmas.Convergence
import Verif.Spec.Plot

/-! Facts about the curves of the convergence plot. -/

namespace Imate.Plot
open FloatLike Convergence Spec

theorem nanless_fin (xs : List ℝ) : nanless (xs.map XR.fin) = (xs.map XR.fin : List (XR ℝ)) := by
  unfold nanless
  rw [List.filter_eq_self]
  intro x hx
  obtain ⟨y, -, rfl⟩ := List.mem_map.1 hx
  rfl

theorem nanless_nanless (xs : List (XR ℝ)) : nanless (nanless xs) = nanless xs := by
  unfold nanless
  rw [List.filter_filter]
  simp

theorem nanmean_fin {xs : List ℝ} (h : xs ≠ []) : nanmean (xs.map XR.fin) = (XR.fin (mean xs) : XR ℝ) := by
  unfold nanmean
  rw [nanless_fin, meanOf_fin h]

theorem nanstd_fin {xs : List ℝ} (h : xs ≠ []) :
    nanstd (xs.map XR.fin) = (XR.fin (populationStd xs) : XR ℝ) := by
  have h0 : 0 < xs.length := List.length_pos_iff.2 h
  have h1 : (0 : ℝ) < xs.length := by exact_mod_cast h0
  unfold nanstd
  dsimp only
  rw [nanless_fin, meanOf_fin h, sumSq_fin, List.length_map, ofNat_fin, div_fin _ _ h1.ne',
    sqrt_fin (div_nonneg (sqDev_nonneg _ _) h1.le)]
  rfl

theorem gather_map (f : XR ℝ → XR ℝ) (hf : f .nan = .nan) (col : List (XR ℝ)) (order : List ℕ) (n : ℕ) :
    gather (col.map f) order n = (gather col order n).map f := by
  unfold gather
  rw [List.map_map]
  apply List.map_congr_left
  intro r _
  simp only [Function.comp, List.getD_eq_getElem?_getD, List.getElem?_map]
  cases col[r]? with
  | none => simp [hf]
  | some x => simp

theorem gather_take (col : List (XR ℝ)) (order : List ℕ) {n m : ℕ} (h : m ≤ n) :
    gather col order m = (gather col order n).take m := by
  unfold gather
  rw [← List.map_take, List.take_take, min_eq_left h]

theorem cleaned_rows {col : List (XR ℝ)} {order : List ℕ} {xs : List ℝ} (q : ℝ) (hne : xs ≠ [])
    (hcol : gather col order xs.length = xs.map XR.fin) {i : ℕ} (hi : i < xs.length) :
    nanless (gather (removeOutliers (XR.fin q) col order xs.length) order (i + 1)) =
      (((xs.take (i + 1)).filter (near q xs)).map XR.fin : List (XR ℝ)) := by
  unfold removeOutliers
  dsimp only
  rw [gather_map _ (by
      rw [if_neg]
      show ¬ (XR.lt _ (XR.abs (XR.add XR.nan _)) = true)
      simp only [XR.add, XR.abs]
      cases (mul (XR.fin q) (nanstd (gather col order xs.length))) <;> simp [XR.lt]) _ _ _,
    gather_take col order (show i + 1 ≤ xs.length by omega), hcol, nanmean_fin hne, nanstd_fin hne,
    ← List.map_take]
  generalize xs.take (i + 1) = ys
  have e : (mul (XR.fin q) (XR.fin (populationStd xs)) : XR ℝ) = XR.fin (q * populationStd xs) := rfl
  rw [e]
  unfold nanless
  induction ys with
  | nil => rfl
  | cons y ys ih =>
    simp only [List.map_cons, List.filter_cons]
    have hlt : (lt (XR.fin (q * populationStd xs)) (FloatLike.abs (sub (XR.fin y) (XR.fin (mean xs)))) : Bool) =
        !near q xs y := by
      show decide (q * populationStd xs < |y + -mean xs|) = _
      rw [← sub_eq_add_neg, near, Bool.eq_iff_iff]
      simp
    rw [hlt]
    cases hn : near q xs y
    · simpa [isNan, hn] using ih
    · simpa [isNan, hn] using ih

theorem curve_get {z q : XR ℝ} {col : List (XR ℝ)} {order : List ℕ} {n i : ℕ} (hi : i < n) :
    (curve z q col order n)[i]? = some (cumulative z (removeOutliers q col order n) order i) := by
  unfold curve
  rw [List.getElem?_map, List.getElem?_range hi]
  rfl

theorem mul_fin (a b : ℝ) : (mul (XR.fin a) (XR.fin b) : XR ℝ) = XR.fin (a * b) := rfl

theorem abs_fin (a : ℝ) : (FloatLike.abs (XR.fin a) : XR ℝ) = XR.fin |a| := rfl

theorem cumulative_fin {col : List (XR ℝ)} {order : List ℕ} {xs : List ℝ} (z q : ℝ) (hne : xs ≠ [])
    (hcol : gather col order xs.length = xs.map XR.fin) {i : ℕ} (hi : i < xs.length)
    (hk : (xs.take (i + 1)).filter (near q xs) ≠ []) :
    cumulative (XR.fin z) (removeOutliers (XR.fin q) col order xs.length) order i =
      (let ks := (xs.take (i + 1)).filter (near q xs)
       let a := z * populationStd ks / Real.sqrt ((i + 1 : ℕ) : ℝ)
       ⟨XR.fin (mean ks), XR.fin a, div (XR.fin a) (XR.fin |mean ks|)⟩ : Point ℝ) := by
  unfold cumulative
  dsimp only
  rw [cleaned_rows q hne hcol hi, List.length_map, if_neg (by simpa using hk), nanmean_fin hk, nanstd_fin hk,
    mul_fin, ofNat_fin, sqrt_fin (Nat.cast_nonneg _), div_fin _ _ (by
      have : (0 : ℝ) < ((i + 1 : ℕ) : ℝ) := by positivity
      exact (Real.sqrt_pos.2 this).ne'), abs_fin]

theorem cumulative_empty {col : List (XR ℝ)} {order : List ℕ} {xs : List ℝ} (z : XR ℝ) (q : ℝ) (hne : xs ≠ [])
    (hcol : gather col order xs.length = xs.map XR.fin) {i : ℕ} (hi : i < xs.length)
    (hk : (xs.take (i + 1)).filter (near q xs) = []) :
    cumulative z (removeOutliers (XR.fin q) col order xs.length) order i = ⟨.nan, .nan, .nan⟩ := by
  unfold cumulative
  dsimp only
  rw [cleaned_rows q hne hcol hi, hk]
  rfl

theorem populationStd_nonneg (xs : List ℝ) : 0 ≤ populationStd xs := Real.sqrt_nonneg _

theorem sum_sub (c : ℝ) (xs : List ℝ) : (xs.map (fun x => x - c)).sum = xs.sum - xs.length * c := by
  induction xs with
  | nil => simp
  | cons x xs ih =>
    simp only [List.map_cons, List.sum_cons, List.length_cons, Nat.cast_add, Nat.cast_one]
    rw [ih]; ring

/-- sum and squares: Cauchy-Schwarz for lists -/
theorem sq_sum_le (ys : List ℝ) : ys.sum ^ 2 ≤ ys.length * (ys.map (fun y => y ^ 2)).sum := by
  induction ys with
  | nil => simp
  | cons y ys ih =>
    simp only [List.map_cons, List.sum_cons, List.length_cons, Nat.cast_add, Nat.cast_one]
    have hq : 0 ≤ (ys.map (fun y => y ^ 2)).sum := List.sum_nonneg (by
      intro t ht; obtain ⟨u, -, rfl⟩ := List.mem_map.1 ht; positivity)
    by_cases hn : ys.length = 0
    · have : ys = [] := List.length_eq_zero_iff.1 hn
      subst this; simp
    · have hp : (0 : ℝ) < ys.length := by exact_mod_cast Nat.pos_of_ne_zero hn
      generalize (ys.map (fun y => y ^ 2)).sum = Q at *
      generalize (ys.length : ℝ) = n at *
      generalize ys.sum = s at *
      have h1 : 0 ≤ (n * y - s) ^ 2 := sq_nonneg _
      have h2 : n * ((y + s) ^ 2) ≤ n * ((n + 1) * (y ^ 2 + Q)) := by nlinarith
      exact le_of_mul_le_mul_left h2 hp

/-- no value is farther from the mean than `sqrt (n - 1)` population standard deviations -/
theorem deviation_le {xs : List ℝ} {x : ℝ} (hx : x ∈ xs) :
    |x - mean xs| ≤ Real.sqrt ((xs.length : ℝ) - 1) * populationStd xs := by
  have h0 : 0 < xs.length := List.length_pos_of_mem hx
  have h1 : (1 : ℝ) ≤ xs.length := by exact_mod_cast h0
  obtain ⟨l, r, rfl⟩ := List.append_of_mem hx
  set xs := l ++ x :: r with hxs
  set m := mean xs with hm
  have hsum : (xs.map (fun y => y - m)).sum = 0 := by
    rw [sum_sub, hm, mean]
    field_simp
    ring
  set ys := (l ++ r).map (fun y => y - m) with hys
  have e1 : x - m + ys.sum = 0 := by
    rw [← hsum, hxs, hys]
    simp only [List.map_append, List.map_cons, List.sum_append, List.sum_cons]
    ring
  have e2 : sqDev m xs = (x - m) ^ 2 + (ys.map (fun y => y ^ 2)).sum := by
    unfold sqDev
    rw [hxs, hys, List.map_map]
    simp only [List.map_append, List.map_cons, List.sum_append, List.sum_cons]
    have : ((fun y : ℝ => y ^ 2) ∘ fun y => y - m) = fun y => (y - m) ^ 2 := rfl
    rw [this]
    ring
  have e3 : (ys.length : ℝ) = xs.length - 1 := by
    rw [hys, hxs]
    simp only [List.length_map, List.length_append, List.length_cons]
    push_cast; ring
  have h2 := sq_sum_le ys
  rw [e3] at h2
  have h3 : (x - m) ^ 2 = ys.sum ^ 2 := by
    have : ys.sum = -(x - m) := by linarith
    rw [this]; ring
  rw [populationStd, ← Real.sqrt_mul (by linarith)]
  apply Real.le_sqrt_of_sq_le
  rw [sq_abs, e2, mul_div_assoc', le_div_iff₀ (by linarith)]
  nlinarith

theorem populationStd_le_sampleStd {xs : List ℝ} (h : 2 ≤ xs.length) : populationStd xs ≤ sampleStd xs := by
  have h1 : (2 : ℝ) ≤ xs.length := by exact_mod_cast h
  apply Real.sqrt_le_sqrt
  apply div_le_div_of_nonneg_left (sqDev_nonneg _ _) (by linarith) (by linarith)

/-- population and sample standard deviation -/
theorem populationStd_eq {xs : List ℝ} (h : 2 ≤ xs.length) :
    populationStd xs = sampleStd xs * Real.sqrt (((xs.length : ℝ) - 1) / xs.length) := by
  have h1 : (2 : ℝ) ≤ xs.length := by exact_mod_cast h
  unfold populationStd sampleStd
  rw [← Real.sqrt_mul (div_nonneg (sqDev_nonneg _ _) (by linarith))]
  congr 1
  have : (xs.length : ℝ) - 1 ≠ 0 := by linarith
  field_simp

theorem populationStd_pos {xs : List ℝ} {x y : ℝ} (hx : x ∈ xs) (hy : y ∈ xs) (hxy : x ≠ y) :
    0 < populationStd xs := by
  rcases (populationStd_nonneg xs).lt_or_eq with h | h
  · exact h
  · exfalso
    have h1 := deviation_le hx
    have h2 := deviation_le hy
    rw [← h, mul_zero] at h1 h2
    have e1 := abs_nonpos_iff.1 h1
    have e2 := abs_nonpos_iff.1 h2
    exact hxy (by linarith)

theorem some_near {xs : List ℝ} (hne : xs ≠ []) {q : ℝ} (hq : 1 ≤ q) : xs.filter (near q xs) ≠ [] := by
  have h0 : 0 < xs.length := List.length_pos_iff.2 hne
  have h1 : (1 : ℝ) ≤ xs.length := by exact_mod_cast h0
  obtain ⟨x, hx, hd⟩ := exists_small_dev hne (mean xs) (populationStd xs) (populationStd_nonneg xs) (by
    unfold populationStd
    rw [Real.sq_sqrt (div_nonneg (sqDev_nonneg _ _) (by linarith))]
    rw [mul_div_assoc', le_div_iff₀ (by linarith)]
    exact le_of_eq (by ring))
  intro he
  have : x ∈ xs.filter (near q xs) := by
    rw [List.mem_filter]
    refine ⟨hx, ?_⟩
    simp only [near, decide_eq_true_eq]
    nlinarith [populationStd_nonneg xs]
  rw [he] at this
  simp at this

theorem nanmax_fin (xs : List (XR ℝ)) (h : ∀ x ∈ xs, x = .nan ∨ ∃ v, x = .fin v)
    (hex : ∃ x ∈ xs, ∃ v, x = .fin v) : ∃ v, nanmax xs = .fin v := by
  have hall : ∀ x ∈ nanless xs, ∃ v, x = .fin v := by
    intro x hx
    unfold nanless at hx
    rw [List.mem_filter] at hx
    rcases h x hx.1 with rfl | h'
    · simp [isNan] at hx
    · exact h'
  have hne : nanless xs ≠ [] := by
    obtain ⟨x, hx, v, rfl⟩ := hex
    intro he
    have : XR.fin v ∈ nanless xs := by
      unfold nanless
      rw [List.mem_filter]
      exact ⟨hx, rfl⟩
    rw [he] at this
    simp at this
  unfold nanmax
  cases hn : nanless xs with
  | nil => exact absurd hn hne
  | cons a as =>
    rw [hn] at hall
    obtain ⟨v, rfl⟩ := hall a (by simp)
    have has : ∀ x ∈ as, ∃ v, x = .fin v := fun x hx => hall x (List.mem_cons_of_mem _ hx)
    clear hall hn hne hex h
    simp only
    induction as generalizing v with
    | nil => exact ⟨v, rfl⟩
    | cons b bs ih =>
      obtain ⟨w, rfl⟩ := has b (by simp)
      simp only [List.foldl_cons]
      have hbs : ∀ x ∈ bs, ∃ v, x = .fin v := fun x hx => has x (List.mem_cons_of_mem _ hx)
      split
      · exact ih w hbs
      · exact ih v hbs

theorem nanmax_const (xs : List (XR ℝ)) (hne : xs ≠ []) (v : ℝ) (h : ∀ x ∈ xs, x = .fin v) :
    nanmax xs = .fin v := by
  have h1 : nanless xs = xs := by
    unfold nanless
    rw [List.filter_eq_self]
    intro x hx
    rw [h x hx]
    rfl
  unfold nanmax
  rw [h1]
  cases xs with
  | nil => exact absurd rfl hne
  | cons a as =>
    have ha := h a (by simp)
    have has : ∀ x ∈ as, x = .fin v := fun x hx => h x (List.mem_cons_of_mem _ hx)
    subst ha
    clear h h1 hne
    simp only
    induction as with
    | nil => rfl
    | cons b bs ih =>
      have hb := has b (by simp)
      subst hb
      simp only [List.foldl_cons]
      have : (if lt (XR.fin v) (XR.fin v : XR ℝ) = true then (XR.fin v : XR ℝ) else XR.fin v) = XR.fin v := by
        split <;> rfl
      rw [this]
      exact ih (fun x hx => has x (List.mem_cons_of_mem _ hx))

theorem nanmax_nan (xs : List (XR ℝ)) (h : ∀ x ∈ xs, x = .nan) : nanmax xs = .nan := by
  have h1 : nanless xs = [] := by
    unfold nanless
    rw [List.filter_eq_nil_iff]
    intro x hx
    rw [h x hx]
    simp [isNan]
  unfold nanmax
  rw [h1]

theorem curve_last {z q : XR ℝ} {col : List (XR ℝ)} {order : List ℕ} {n : ℕ} (hn : 0 < n) :
    (curve z q col order n).getLast? =
      some (cumulative z (removeOutliers q col order n) order (n - 1)) := by
  rw [List.getLast?_eq_getElem?]
  have : (curve z q col order n).length = n := by simp [curve]
  rw [this, curve_get (by omega)]

theorem mem_curve {z q : XR ℝ} {col : List (XR ℝ)} {order : List ℕ} {n : ℕ} {p : Point ℝ} :
    p ∈ curve z q col order n ↔
      ∃ i < n, p = cumulative z (removeOutliers q col order n) order i := by
  unfold curve
  simp only [List.mem_map, List.mem_range]
  constructor
  · rintro ⟨i, hi, rfl⟩; exact ⟨i, hi, rfl⟩
  · rintro ⟨i, hi, rfl⟩; exact ⟨i, hi, rfl⟩

end Imate.Plot
