import Verif.Lemmas.Interpolator
import Mathlib.Data.List.GetD

/-! The rational polynomial method. -/

namespace Imate.Interp

open Imate.Spec Matrix Finset

variable {n : ℕ} {P : Problem n}

theorem polyval_reverse {K : Type} [CommSemiring K] (c : List K) (t : K) :
    polyval c.reverse t = ∑ j ∈ range c.length, c.getD j 0 * t ^ j := by
  unfold polyval
  rw [List.foldl_reverse]
  induction c with
  | nil => simp
  | cons a c ih =>
    rw [List.foldr_cons, ih, List.length_cons, sum_range_succ', sum_mul]
    simp only [List.getD_cons_succ, List.getD_cons_zero, pow_zero, mul_one]
    congr 1
    refine sum_congr rfl fun j _ => ?_
    rw [pow_succ]; ring

theorem polyval_ofReal (c : List ℝ) (t : ℝ) :
    polyval (c.map ((↑) : ℝ → ℂ)) (t : ℂ) = ((polyval c t : ℝ) : ℂ) := by
  have : ∀ (c : List ℝ) (a : ℝ), (c.map ((↑) : ℝ → ℂ)).foldl (fun acc a => acc * (t : ℂ) + a) (a : ℂ) =
      ((c.foldl (fun acc a => acc * t + a) a : ℝ) : ℂ) := by
    intro c
    induction c with
    | nil => intro a; simp
    | cons x c ih =>
      intro a
      rw [List.map_cons, List.foldl_cons, List.foldl_cons, ← ih]
      push_cast; rfl
  have h := this c 0
  push_cast at h
  exact h

/-- Coefficients by index, zero beyond the end. -/
noncomputable def coef {k : ℕ} (x : Fin k → ℝ) (j : ℕ) : ℝ := (List.ofFn x).getD j 0

theorem coef_eq {k : ℕ} (x : Fin k → ℝ) (j : Fin k) : coef x j = x j := by
  unfold coef
  rw [List.getD_eq_getElem?_getD, List.getElem?_ofFn]
  simp

theorem rpfNum_eval {m : ℕ} (x : Fin (2 * (m + 1)) → ℝ) (t : ℝ) :
    polyval (rpfNum (m + 1) x) t = t ^ (m + 2) + ∑ j ∈ range (m + 2), coef x j * t ^ j := by
  have hl : ((List.ofFn x).take (m + 1 + 1)).length = m + 2 := by
    rw [List.length_take, List.length_ofFn]; omega
  have : rpfNum (m + 1) x = ((List.ofFn x).take (m + 1 + 1) ++ [1]).reverse := by
    rw [rpfNum, List.reverse_append]; rfl
  rw [this, polyval_reverse, List.length_append, hl, List.length_singleton, sum_range_succ]
  rw [List.getD_append_right _ _ _ _ (by rw [hl])]
  rw [hl]
  simp only [Nat.sub_self, List.getD_cons_zero, one_mul]
  rw [add_comm]
  congr 1
  refine sum_congr rfl fun j hj => ?_
  have hj := mem_range.1 hj
  rw [List.getD_append _ _ _ _ (by rw [hl]; exact hj), List.getD_eq_getElem?_getD, List.getElem?_take,
    if_pos (by omega), coef, List.getD_eq_getElem?_getD]

theorem rpfDen_eval {m : ℕ} (tau0 : ℝ) (x : Fin (2 * (m + 1)) → ℝ) (t : ℝ) :
    polyval (rpfDen (m + 1) tau0 x) t =
      t ^ (m + 1) + coef x 0 / tau0 + ∑ j ∈ range m, coef x (m + 2 + j) * t ^ (j + 1) := by
  have hl : ((List.ofFn x).drop (m + 1 + 1)).length = m := by
    rw [List.length_drop, List.length_ofFn]; omega
  have : rpfDen (m + 1) tau0 x =
      ((((List.ofFn x).headD 0 / tau0) :: (List.ofFn x).drop (m + 1 + 1)) ++ [1]).reverse := by
    rw [rpfDen, List.reverse_append]; rfl
  rw [this, polyval_reverse, List.length_append, List.length_cons, hl, List.length_singleton, sum_range_succ,
    List.getD_append_right _ _ _ _ (by rw [List.length_cons, hl]), List.length_cons, hl, sum_range_succ']
  simp only [Nat.sub_self, List.getD_cons_zero, one_mul, pow_zero, mul_one]
  have h0 : (List.ofFn x).headD 0 = coef x 0 := by
    unfold coef
    cases List.ofFn x <;> rfl
  rw [List.cons_append, List.getD_cons_zero, h0]
  have : ∀ j ∈ range m, (coef x 0 / tau0 :: ((List.ofFn x).drop (m + 1 + 1) ++ [1])).getD (j + 1) 0 * t ^ (j + 1) =
      coef x (m + 2 + j) * t ^ (j + 1) := by
    intro j hj
    have hj := mem_range.1 hj
    rw [List.getD_cons_succ, List.getD_append _ _ _ _ (by rw [hl]; exact hj), List.getD_eq_getElem?_getD,
      List.getElem?_drop, coef, List.getD_eq_getElem?_getD]
  rw [sum_congr rfl this]
  ring

theorem rpf_equation {m : ℕ} {tau0 : ℝ} (h0 : tau0 ≠ 0) {t tau x : Fin (2 * (m + 1)) → ℝ}
    {i : Fin (2 * (m + 1))}
    (h : ∑ j, x j * rpfMatrix (m + 1) tau0 t tau i j = rpfRhs (m + 1) t tau i) :
    polyval (rpfNum (m + 1) x) (t i) = tau i * polyval (rpfDen (m + 1) tau0 x) (t i) := by
  rw [rpfNum_eval, rpfDen_eval]
  simp only [rpfMatrix, rpfRhs, of_apply] at h
  have h1 : ∑ j : Fin (2 * (m + 1)), x j * (if (j : ℕ) = 0 then 1 - tau i / tau0
      else if (j : ℕ) ≤ m + 1 then t i ^ (j : ℕ) else -tau i * t i ^ ((j : ℕ) - (m + 1))) =
      ∑ j ∈ range (2 * (m + 1)), coef x j * (if j = 0 then 1 - tau i / tau0
      else if j ≤ m + 1 then t i ^ j else -tau i * t i ^ (j - (m + 1))) := by
    rw [sum_range]
    exact sum_congr rfl fun j _ => by rw [coef_eq]
  have hr : range (2 * (m + 1)) = range ((m + 2) + m) := by congr 1; ring
  rw [h1, hr, sum_range_add, sum_range_succ'] at h
  have h2 : ∀ j ∈ range (m + 1), coef x (j + 1) * (if j + 1 = 0 then 1 - tau i / tau0
      else if j + 1 ≤ m + 1 then t i ^ (j + 1) else -tau i * t i ^ (j + 1 - (m + 1))) =
      coef x (j + 1) * t i ^ (j + 1) := by
    intro j hj
    have hj := mem_range.1 hj
    rw [if_neg (by omega), if_pos (by omega)]
  have h3 : ∀ j ∈ range m, coef x (m + 2 + j) * (if m + 2 + j = 0 then 1 - tau i / tau0
      else if m + 2 + j ≤ m + 1 then t i ^ (m + 2 + j) else -tau i * t i ^ (m + 2 + j - (m + 1))) =
      -tau i * (coef x (m + 2 + j) * t i ^ (j + 1)) := by
    intro j hj
    rw [if_neg (by omega), if_neg (by omega), show m + 2 + j - (m + 1) = j + 1 by omega]
    ring
  rw [sum_congr rfl h2, sum_congr rfl h3, ← mul_sum] at h
  rw [sum_range_succ' (fun j => coef x j * t i ^ j)]
  simp only [if_true, pow_zero, mul_one] at h ⊢
  have h4 : coef x 0 * (1 - tau i / tau0) = coef x 0 - tau i * (coef x 0 / tau0) := by ring
  rw [h4] at h
  linear_combination h

/-- The rational polynomial takes the values at the points; at zero it is the value or 0/0. -/
theorem rpf_honours {b : Base} {l : List ℝ} (hb : BaseOf P l b) (hl : ∀ t ∈ l, 0 < t) (hne : l ≠ []) {m : Rpf}
    (h : rpfInit b = .ok m) :
    (∀ i, m.interpolate (b.t i) = some (b.tau i * b.normB)) ∧
      (m.interpolate 0 = Option.none ∨ m.interpolate 0 = some (b.tau0 * b.normB)) := by
  have h0 := hb.tau0_pos
  unfold rpfInit at h
  simp only at h
  split_ifs at h with hq ht
  obtain ⟨k, hk⟩ : ∃ k, b.nodes.length / 2 = k + 1 := by
    refine ⟨b.nodes.length / 2 - 1, ?_⟩
    have : b.nodes.length ≠ 0 := by rw [hb.length]; exact fun h => hne (List.length_eq_zero_iff.1 h)
    omega
  generalize b.nodes.length / 2 = q at *
  subst hk
  cases hw : solve (rpfMatrix (k + 1) b.tau0 (fun i => b.t (i.cast hq)) (fun i => b.tau (i.cast hq)))
      (rpfRhs (k + 1) (fun i => b.t (i.cast hq)) (fun i => b.tau (i.cast hq))) with
  | error e => rw [hw] at h; exact absurd h (by simp [bind, Except.bind])
  | ok x =>
    rw [hw] at h
    simp only [bind, Except.bind] at h
    split_ifs at h with hp
    simp only [Except.ok.injEq] at h
    subst h
    constructor
    · intro i
      have he := rpf_equation h0.ne' (solve_ok hw (i.cast hq.symm))
      simp only [Fin.cast_cast, Fin.cast_eq_self] at he
      have hd : polyval (rpfDen (k + 1) b.tau0 x) (b.t i) ≠ 0 := by
        intro hd
        refine hp ⟨(b.t i : ℂ), ?_, ?_⟩
        · rw [polyval_ofReal, hd]; simp
        · have := hl _ (hb.t_mem i)
          simp [Eigen.ltC, this]
      simp only [Rpf.interpolate, if_neg hd, he, hb.finish_eq, mul_div_assoc, div_self hd, mul_one]
    · simp only [Rpf.interpolate]
      split_ifs with hd
      · left
        unfold Base.finish
        rw [if_neg hb.normB_pos.ne']; rfl
      · right
        rw [rpfNum_eval, rpfDen_eval, hb.finish_eq]
        rw [rpfDen_eval] at hd
        rw [sum_range_succ']
        simp only [ne_eq, Nat.add_eq_zero_iff, one_ne_zero, and_false, OfNat.ofNat_ne_zero, not_false_eq_true,
          zero_pow, mul_zero, sum_const_zero, zero_add, add_zero, pow_zero, mul_one] at hd ⊢
        have hx : coef x 0 ≠ 0 := fun h => hd (by rw [h, zero_div])
        congr 2
        field_simp

end Imate.Interp
