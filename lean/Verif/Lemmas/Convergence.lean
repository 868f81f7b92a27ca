import Verif.Model.Convergence
import Verif.Spec.Stats
import Mathlib.Data.List.Perm.Basic
import Mathlib.Algebra.BigOperators.Group.List.Basic
import Mathlib.Algebra.Order.BigOperators.Group.List
import Mathlib.Tactic.Linarith
import Mathlib.Tactic.Ring
import Mathlib.Tactic.Positivity
import Mathlib.Tactic.FieldSimp
import Mathlib.Tactic.NormNum
set_option linter.unusedSectionVars false

/-! Exact-arithmetic facts about the convergence code. -/

namespace Imate

noncomputable instance : HasSqrt ℝ := ⟨Real.sqrt⟩

namespace XR
variable {K : Type} [Field K] [LinearOrder K] [HasSqrt K]

theorem add_comm' (a b : XR K) : add a b = add b a := by
  cases a <;> cases b <;> simp [add, add_comm]

theorem add_right_comm' (a b c : XR K) : add (add a b) c = add (add a c) b := by
  cases a <;> cases b <;> cases c <;> simp [add, add_right_comm]

end XR

namespace Convergence
open FloatLike Spec

section Perm
variable {K : Type} [Field K] [LinearOrder K] [HasSqrt K]

theorem sumOf_perm {xs ys : List (XR K)} (h : xs.Perm ys) : sumOf xs = sumOf ys := by
  unfold sumOf
  exact h.foldl_eq' (fun x _ y _ z => XR.add_right_comm' z x y) _

theorem meanOf_perm {xs ys : List (XR K)} (h : xs.Perm ys) : meanOf xs = meanOf ys := by
  unfold meanOf; rw [sumOf_perm h, h.length_eq]

theorem sumSq_perm {xs ys : List (XR K)} (m : XR K) (h : xs.Perm ys) : sumSq m xs = sumSq m ys := by
  unfold sumSq
  refine h.foldl_eq' (f := fun s x => add s (mul (sub x m) (sub x m))) ?_ _
  intro x _ y _ z
  exact XR.add_right_comm' _ _ _

theorem stdOf_perm {xs ys : List (XR K)} (h : xs.Perm ys) : stdOf xs = stdOf ys := by
  unfold stdOf; rw [meanOf_perm h, sumSq_perm _ h, h.length_eq]

theorem errorOf_perm {xs ys : List (XR K)} (z : XR K) (h : xs.Perm ys) : errorOf z xs = errorOf z ys := by
  unfold errorOf; rw [stdOf_perm h, h.length_eq]

theorem averageEstimate_perm {xs ys : List (XR K)} (ez oz : XR K) (h : xs.Perm ys) :
    averageEstimate ez oz xs = averageEstimate ez oz ys := by
  simp only [averageEstimate, meanOf_perm h, stdOf_perm h, h.length_eq, h.countP_eq,
    sumOf_perm (h.filter _), sumSq_perm _ (h.filter _)]

end Perm

section Real

theorem foldl_add_fin (xs : List ℝ) (a : ℝ) :
    (xs.map XR.fin).foldl add (XR.fin a) = (XR.fin (a + xs.sum) : XR ℝ) := by
  induction xs generalizing a with
  | nil => simp
  | cons x xs ih =>
    simp only [List.map_cons, List.foldl_cons, List.sum_cons]
    show (xs.map XR.fin).foldl add (XR.fin (a + x)) = _
    rw [ih, add_assoc]

theorem sumOf_fin (xs : List ℝ) : sumOf (xs.map XR.fin) = (XR.fin xs.sum : XR ℝ) := by
  unfold sumOf
  show (xs.map XR.fin).foldl add (XR.fin ((0 : ℕ) : ℝ)) = _
  rw [foldl_add_fin]; simp

theorem div_fin (a b : ℝ) (hb : b ≠ 0) : (div (XR.fin a) (XR.fin b) : XR ℝ) = XR.fin (a / b) := by
  show (if b = 0 then _ else _) = _
  rw [if_neg hb]

theorem meanOf_fin {xs : List ℝ} (h : xs ≠ []) : meanOf (xs.map XR.fin) = (XR.fin (mean xs) : XR ℝ) := by
  unfold meanOf
  rw [sumOf_fin, List.length_map]
  have : ((xs.length : ℕ) : ℝ) ≠ 0 := by
    simpa using h
  exact div_fin _ _ this

theorem sumSq_fin (m : ℝ) (xs : List ℝ) : sumSq (XR.fin m) (xs.map XR.fin) = (XR.fin (sqDev m xs) : XR ℝ) := by
  have key : ∀ (a : ℝ), (xs.map XR.fin).foldl
      (fun s x => add s (mul (sub x (XR.fin m)) (sub x (XR.fin m)))) (XR.fin a) =
      (XR.fin (a + sqDev m xs) : XR ℝ) := by
    unfold sqDev
    induction xs with
    | nil => intro a; simp
    | cons x xs ih =>
      intro a
      simp only [List.map_cons, List.foldl_cons, List.sum_cons]
      have e : (add (XR.fin a) (mul (sub (XR.fin x) (XR.fin m)) (sub (XR.fin x) (XR.fin m))) : XR ℝ) =
          XR.fin (a + (x + -m) * (x + -m)) := rfl
      rw [e, ih]
      congr 1; ring
  unfold sumSq
  show (xs.map XR.fin).foldl _ (XR.fin ((0 : ℕ) : ℝ)) = _
  rw [key]; simp

theorem sqDev_nonneg (m : ℝ) (xs : List ℝ) : 0 ≤ sqDev m xs := by
  unfold sqDev
  apply List.sum_nonneg
  intro y hy
  obtain ⟨x, -, rfl⟩ := List.mem_map.1 hy
  positivity

theorem sqrt_fin {a : ℝ} (h : 0 ≤ a) : (FloatLike.sqrt (XR.fin a) : XR ℝ) = XR.fin (Real.sqrt a) := by
  show (if a < 0 then _ else _) = _
  rw [if_neg (not_lt.2 h)]; rfl

theorem ofNat_fin (n : ℕ) : (FloatLike.ofNat n : XR ℝ) = XR.fin (n : ℝ) := rfl

theorem stdOf_fin {xs : List ℝ} (h : 2 ≤ xs.length) : stdOf (xs.map XR.fin) = (XR.fin (sampleStd xs) : XR ℝ) := by
  have hne : xs ≠ [] := by rintro rfl; simp at h
  have h1 : (2 : ℝ) ≤ xs.length := by exact_mod_cast h
  unfold stdOf
  rw [List.length_map, if_pos (by omega), meanOf_fin hne, sumSq_fin]
  have e : (sub (FloatLike.ofNat xs.length) (FloatLike.ofNat 1) : XR ℝ) = XR.fin ((xs.length : ℝ) - 1) := by
    show XR.fin ((xs.length : ℝ) + -((1 : ℕ) : ℝ)) = _
    congr 1; push_cast; ring
  rw [e, div_fin _ _ (by linarith), sqrt_fin (div_nonneg (sqDev_nonneg _ _) (by linarith))]
  rfl

theorem sampleStd_nonneg (xs : List ℝ) : 0 ≤ sampleStd xs := Real.sqrt_nonneg _

theorem errorOf_fin {xs : List ℝ} (z : ℝ) (h : 2 ≤ xs.length) :
    errorOf (XR.fin z) (xs.map XR.fin) = (XR.fin (standardError z xs) : XR ℝ) := by
  have h1 : (2 : ℝ) ≤ xs.length := by exact_mod_cast h
  unfold errorOf
  rw [stdOf_fin h, List.length_map, ofNat_fin, sqrt_fin (by linarith)]
  show (div (XR.fin (z * sampleStd xs)) _ : XR ℝ) = _
  rw [div_fin _ _ (by
    have : 0 < Real.sqrt (xs.length : ℝ) := Real.sqrt_pos.2 (by linarith)
    exact ne_of_gt this)]
  rfl

theorem max_fin (a b : ℝ) : (FloatLike.max (XR.fin a) (XR.fin b) : XR ℝ) = XR.fin (max a b) := by
  unfold FloatLike.max
  show (if decide (a < b) = true then _ else _) = _
  by_cases h : a < b
  · rw [if_pos (by simpa using h), max_eq_right h.le]
  · rw [if_neg (by simpa using h), max_eq_left (not_lt.1 h)]

theorem pyStdOf_fin {xs : List ℝ} (h : 2 ≤ xs.length) :
    pyStdOf (xs.map XR.fin) = (XR.fin (populationStd xs) : XR ℝ) := by
  have hne : xs ≠ [] := by rintro rfl; simp at h
  have h1 : (2 : ℝ) ≤ xs.length := by exact_mod_cast h
  unfold pyStdOf
  rw [List.length_map, if_pos (by omega), meanOf_fin hne, sumSq_fin, ofNat_fin, div_fin _ _ (by linarith),
    sqrt_fin (div_nonneg (sqDev_nonneg _ _) (by linarith))]
  rfl

theorem isOutlier_fin (m half x : ℝ) :
    isOutlier (XR.fin m) (XR.fin half) (XR.fin x) = (decide (half < |x - m|) : Bool) := by
  show decide (half < |x + -m|) = _
  rw [← sub_eq_add_neg]

/-- the sum of squared deviations bounds the smallest one -/
theorem exists_small_dev {xs : List ℝ} (hne : xs ≠ []) (m c : ℝ) (hc : 0 ≤ c)
    (h : sqDev m xs ≤ xs.length * c ^ 2) : ∃ x ∈ xs, |x - m| ≤ c := by
  by_contra hno
  push Not at hno
  have : xs.length * c ^ 2 < sqDev m xs := by
    unfold sqDev
    clear h
    induction xs with
    | nil => exact absurd rfl hne
    | cons x xs ih =>
      have hx := hno x (by simp)
      have hx2 : c ^ 2 < (x - m) ^ 2 := by
        rw [← sq_abs (x - m)]
        exact pow_lt_pow_left₀ hx hc (by norm_num)
      simp only [List.length_cons, List.map_cons, List.sum_cons, Nat.cast_add, Nat.cast_one]
      by_cases he : xs = []
      · subst he; simp; linarith
      · have := ih he (fun y hy => hno y (List.mem_cons_of_mem _ hy))
        nlinarith
  linarith

theorem mean_mem_Icc {xs : List ℝ} (hne : xs ≠ []) {lo hi : ℝ} (h : ∀ x ∈ xs, lo ≤ x ∧ x ≤ hi) :
    lo ≤ mean xs ∧ mean xs ≤ hi := by
  have hpos : (0 : ℝ) < xs.length := by
    have : 0 < xs.length := List.length_pos_iff.2 hne
    exact_mod_cast this
  have h1 : xs.length * lo ≤ xs.sum ∧ xs.sum ≤ xs.length * hi := by
    clear hpos hne
    induction xs with
    | nil => simp
    | cons x xs ih =>
      have hx := h x (by simp)
      have := ih (fun y hy => h y (List.mem_cons_of_mem _ hy))
      simp only [List.length_cons, List.sum_cons, Nat.cast_add, Nat.cast_one]
      constructor <;> linarith [this.1, this.2, hx.1, hx.2]
  unfold mean
  rw [le_div_iff₀ hpos, div_le_iff₀ hpos]
  constructor <;> linarith [h1.1, h1.2]

end Real
end Convergence
end Imate
