import Verif.Spec.Interpolator
import Verif.Lemmas.ExpSums
import Mathlib.Tactic.FieldSimp
import Mathlib.Algebra.Order.Star.Real

/-! Lemmas about the interpolators. -/

namespace Imate.Interp

open Imate.Spec Matrix Finset

variable {n : ℕ} {P : Problem n}

/-! ### Base class -/

theorem solve_ok {k : ℕ} {C : Matrix (Fin k) (Fin k) ℝ} {b w : Fin k → ℝ} (h : solve C b = .ok w) (i : Fin k) :
    ∑ j, w j * C i j = b i := by
  unfold solve at h
  split_ifs at h with hd
  have hw : C⁻¹ *ᵥ b = w := by injection h
  have : C *ᵥ w = b := by
    rw [← hw, mulVec_mulVec, mul_nonsing_inv _ (isUnit_iff_ne_zero.2 hd), one_mulVec]
  rw [← this]
  simp only [mulVec, dotProduct]
  exact sum_congr rfl fun j _ => mul_comm _ _

theorem solve_some {k : ℕ} {C : Matrix (Fin k) (Fin k) ℝ} (hd : C.det ≠ 0) (b : Fin k → ℝ) :
    ∃ w, solve C b = .ok w := by
  unfold solve
  rw [if_neg hd]
  exact ⟨_, rfl⟩

/-- What the constructor of the base class leaves. -/
structure BaseOf (P : Problem n) (l : List ℝ) (b : Base) : Prop where
  points : b.nodes.map Prod.fst = l
  values : ∀ x ∈ b.nodes, P.eval x.1 = .ok (x.2 * b.normB)
  zero : P.eval 0 = .ok (b.tau0 * b.normB)
  normB_pos : 0 < b.normB
  tau0_pos : 0 < b.tau0
  tau_pos : (∀ t ∈ l, 0 ≤ t) → ∀ x ∈ b.nodes, 0 < x.2
  normB_one : P.B = none → b.normB = 1
  normB_eq : ∀ B, P.B = some B → P.norm B = .ok b.normB

theorem dataAt_ok {b : ℝ} (hb : b ≠ 0) : ∀ {l : List ℝ} {r : List (ℝ × ℝ)}, P.dataAt b l = .ok r →
    r.map Prod.fst = l ∧ ∀ x ∈ r, P.eval x.1 = .ok (x.2 * b) := by
  intro l
  induction l with
  | nil =>
    intro r h
    simp only [Problem.dataAt, List.mapM_nil, pure, Except.pure, Except.ok.injEq] at h
    subst h
    simp
  | cons t l ih =>
    intro r h
    unfold Problem.dataAt at h
    rw [List.mapM_cons] at h
    cases hs : P.eval t with
    | error e => rw [hs] at h; exact absurd h (by simp [bind, Except.bind])
    | ok s =>
      rw [hs] at h
      have ih' := @ih
      unfold Problem.dataAt at ih'
      cases hr : (l.mapM fun t => do
          let s ← P.eval t
          Except.ok (t, s / b) : Except PyExc (List (ℝ × ℝ))) with
      | error e => simp only [bind, Except.bind] at hr h; rw [hr] at h; exact absurd h (by simp)
      | ok r' =>
        obtain ⟨h1, h2⟩ := ih' hr
        simp only [bind, Except.bind] at hr h
        rw [hr] at h
        simp only [pure, Except.pure, Except.ok.injEq] at h
        subst h
        refine ⟨by rw [List.map_cons, h1], ?_⟩
        intro x hx
        rcases List.mem_cons.1 hx with rfl | hx
        · rw [div_mul_cancel₀ _ hb]; exact hs
        · exact h2 x hx

theorem dataAt_some (b : ℝ) {l : List ℝ} (h : ∀ t ∈ l, ∃ s, P.eval t = .ok s) : ∃ r, P.dataAt b l = .ok r := by
  induction l with
  | nil => exact ⟨[], rfl⟩
  | cons t l ih =>
    obtain ⟨s, hs⟩ := h t List.mem_cons_self
    obtain ⟨r, hr⟩ := ih fun t ht => h t (List.mem_cons_of_mem _ ht)
    unfold Problem.dataAt at hr ⊢
    rw [List.mapM_cons, hs]
    simp only [bind, Except.bind] at hr ⊢
    rw [hr]
    exact ⟨_, rfl⟩

theorem posDef_matB (hP : GoodProblem P) : P.matB.PosDef := by
  unfold Problem.matB
  cases hB : P.B with
  | none => exact PosDef.one
  | some B => exact hP.posB B hB

theorem posDef_affine (hP : GoodProblem P) {t : ℝ} (ht : 0 ≤ t) : (P.A + t • P.matB).PosDef := by
  rcases ht.eq_or_lt with h | h
  · rw [← h, zero_smul, add_zero]; exact hP.posA
  · exact hP.posA.add ((posDef_matB hP).smul h)

theorem eval_pos (hP : GoodProblem P) {t : ℝ} (ht : 0 ≤ t) : ∃ s, 0 < s ∧ P.eval t = .ok s :=
  hP.norm _ (posDef_affine hP ht)

theorem inputNorms_good (hP : GoodProblem P) : ∃ tau0 b, P.inputNorms = .ok (tau0, b) ∧ 0 < tau0 ∧ 0 < b ∧
    P.eval 0 = .ok (tau0 * b) ∧ (P.B = none → b = 1) ∧ (∀ B, P.B = some B → P.norm B = .ok b) := by
  obtain ⟨a, ha, hA⟩ := hP.norm _ hP.posA
  have h0 : P.eval 0 = .ok a := by unfold Problem.eval; rw [zero_smul, add_zero, hA]
  unfold Problem.inputNorms
  cases hB : P.B with
  | none =>
    refine ⟨a / 1, 1, ?_, by simpa using ha, one_pos, by rw [h0]; simp, fun _ => rfl, fun B h => (by cases h)⟩
    rw [hA]; rfl
  | some B =>
    obtain ⟨b, hb, hBn⟩ := hP.norm _ (hP.posB B hB)
    refine ⟨a / b, b, ?_, div_pos ha hb, hb, by rw [h0, div_mul_cancel₀ _ hb.ne'], fun h => (by cases h),
      fun B' h => (by rw [← Option.some.inj h]; exact hBn)⟩
    rw [hA]
    simp only [bind, Except.bind, hBn]

theorem base_ok (hP : GoodProblem P) {ti : Points} {l : List ℝ} (hti : IsPoints ti l) {b : Base}
    (h : P.base ti = .ok b) : BaseOf P l b := by
  obtain ⟨tau0, nb, hin, htau, hnb, h0, h1, h2⟩ := inputNorms_good hP
  have hl : ti.toList = .ok l := by rcases hti with rfl | rfl <;> rfl
  unfold Problem.base at h
  rw [hin, hl] at h
  simp only [bind, Except.bind] at h
  cases hd : P.dataAt nb l with
  | error e => rw [hd] at h; exact absurd h (by simp)
  | ok r =>
    rw [hd] at h
    simp only [Except.ok.injEq] at h
    subst h
    obtain ⟨h3, h4⟩ := dataAt_ok hnb.ne' hd
    refine ⟨h3, h4, h0, hnb, htau, ?_, h1, h2⟩
    intro hl x hx
    obtain ⟨s, hs, hs'⟩ := eval_pos hP (hl x.1 (by rw [← h3]; exact List.mem_map_of_mem hx))
    have h5 := h4 x hx
    rw [hs'] at h5
    have h6 : s = x.2 * nb := by injection h5
    rw [h6] at hs
    exact pos_of_mul_pos_left hs hnb.le

theorem base_some (hP : GoodProblem P) {ti : Points} {l : List ℝ} (hti : IsPoints ti l) (hl : ∀ t ∈ l, 0 ≤ t) :
    ∃ b, P.base ti = .ok b := by
  obtain ⟨tau0, nb, hin, -⟩ := inputNorms_good hP
  have hl' : ti.toList = .ok l := by rcases hti with rfl | rfl <;> rfl
  obtain ⟨r, hr⟩ := dataAt_some (P := P) nb (l := l) fun t ht => by
    obtain ⟨s, -, hs⟩ := eval_pos hP (hl t ht); exact ⟨s, hs⟩
  unfold Problem.base
  rw [hin, hl']
  simp only [bind, Except.bind, hr]
  exact ⟨_, rfl⟩

theorem BaseOf.finish_eq {l : List ℝ} {b : Base} (hb : BaseOf P l b) (x : ℝ) :
    b.finish (some x) = some (x * b.normB) := by
  unfold Base.finish
  rw [if_neg hb.normB_pos.ne']
  rfl

theorem BaseOf.mem {l : List ℝ} {b : Base} (hb : BaseOf P l b) {t : ℝ} (ht : t ∈ l) :
    ∃ i : Fin b.nodes.length, b.t i = t ∧ P.eval t = .ok (b.tau i * b.normB) := by
  rw [← hb.points] at ht
  obtain ⟨x, hx, rfl⟩ := List.mem_map.1 ht
  obtain ⟨i, hi⟩ := List.get_of_mem hx
  refine ⟨i, by rw [Base.t, hi], ?_⟩
  rw [hb.values x hx, Base.tau, hi]

theorem BaseOf.t_mem {l : List ℝ} {b : Base} (hb : BaseOf P l b) (i : Fin b.nodes.length) : b.t i ∈ l := by
  rw [← hb.points]
  exact List.mem_map_of_mem (List.get_mem _ _)

theorem BaseOf.length {l : List ℝ} {b : Base} (hb : BaseOf P l b) : b.nodes.length = l.length := by
  rw [← hb.points, List.length_map]

theorem BaseOf.t_injective {l : List ℝ} {b : Base} (hb : BaseOf P l b) (hl : l.Nodup) :
    Function.Injective b.t := by
  intro i j hij
  rw [← hb.points] at hl
  have := List.nodup_iff_injective_get.1 hl
  have h := @this (i.cast (by simp)) (j.cast (by simp)) (by
    simp only [List.get_eq_getElem, Fin.val_cast, List.getElem_map]
    exact hij)
  exact Fin.ext (by simpa using congrArg Fin.val h)

/-! ### `mbf` -/

theorem mbf_at_point {b : Base} {l : List ℝ} (hb : BaseOf P l b) {t1 tau1 : ℝ} (h1 : t1 ≠ 0) (h2 : 0 < tau1) :
    (Mbf.mk b t1 tau1).interpolate t1 = some (tau1 * b.normB) := by
  unfold Mbf.interpolate
  simp only [if_neg h1]
  have : t1 ^ 2 + (tau1 ^ 2 - b.tau0 ^ 2 - t1 ^ 2) * (t1 / t1) + b.tau0 ^ 2 = tau1 ^ 2 := by
    rw [div_self h1]; ring
  rw [this, if_neg (not_lt.2 (sq_nonneg _)), Real.sqrt_sq h2.le, hb.finish_eq]

theorem mbf_at_zero {b : Base} {l : List ℝ} (hb : BaseOf P l b) {t1 tau1 : ℝ} (h1 : t1 ≠ 0) :
    (Mbf.mk b t1 tau1).interpolate 0 = some (b.tau0 * b.normB) := by
  unfold Mbf.interpolate
  simp only [if_neg h1]
  have : (0 : ℝ) ^ 2 + (tau1 ^ 2 - b.tau0 ^ 2 - t1 ^ 2) * (0 / t1) + b.tau0 ^ 2 = b.tau0 ^ 2 := by
    rw [zero_div]; ring
  rw [this, if_neg (not_lt.2 (sq_nonneg _)), Real.sqrt_sq hb.tau0_pos.le, hb.finish_eq]

/-! ### `imbf` -/

theorem phi_zero {i : ℕ} (hi : i ≠ 0) : phi i 0 = 0 := by
  unfold phi
  rw [Real.zero_rpow]
  have : (i : ℝ) ≠ 0 := by exact_mod_cast hi
  positivity

theorem basisFun_zero (basis : Basis) (j : ℕ) : basisFun basis j 0 = 0 := by
  cases basis <;> simp [basisFun, phi_zero]

theorem scaleT_pos (nodes : List (ℝ × ℝ)) : 1 ≤ scaleT nodes := by
  unfold scaleT
  induction nodes with
  | nil => simp
  | cons x l ih => simp only [List.map_cons, List.foldr_cons]; exact le_max_of_le_right ih

/-- The constructor of `imbf` leaves an interpolator that takes the values at the points and at zero. -/
theorem imbf_honours {b : Base} {l : List ℝ} (hb : BaseOf P l b) (hl : ∀ t ∈ l, 0 ≤ t) {basis : Basis}
    (hbasis : basis ≠ .other) {m : Imbf} (h : imbfInit basis b = .ok m) :
    (∀ i, m.interpolate (b.t i) = .ok (some (b.tau i * b.normB))) ∧
      m.interpolate 0 = .ok (some (b.tau0 * b.normB)) := by
  have hneg : ∀ i, ¬ b.t i < 0 := fun i => not_lt.2 (hl _ (hb.t_mem i))
  unfold imbfInit at h
  cases basis with
  | nonOrtho =>
    simp only at h
    cases hw : solve (imbfMatrix .nonOrtho b 1) (fun i => b.tau i - b.tau0 - b.t i) with
    | error e => rw [hw] at h; exact absurd h (by simp [bind, Except.bind])
    | ok w =>
      rw [hw] at h
      simp only [bind, Except.bind, Except.ok.injEq] at h
      subst h
      constructor
      · intro i
        have hs := solve_ok hw i
        simp only [imbfMatrix, of_apply, div_one] at hs
        simp only [Imbf.interpolate, if_neg (hneg i), hb.finish_eq, hs]
        congr 3; ring
      · simp [Imbf.interpolate, basisFun_zero, hb.finish_eq]
  | ortho =>
    simp only at h
    split_ifs at h with h1 h2
    cases hw : solve (imbfMatrixOrtho b) (imbfRhsOrtho b) with
    | error e => rw [hw] at h; exact absurd h (by simp [bind, Except.bind])
    | ok w =>
      rw [hw] at h
      simp only [bind, Except.bind, Except.ok.injEq] at h
      subst h
      constructor
      · intro i
        have hs := solve_ok hw i.castSucc
        simp only [imbfMatrixOrtho, imbfRhsOrtho, of_apply, Fin.val_castSucc, i.isLt, dif_pos, Fin.eta] at hs
        simp only [Imbf.interpolate, if_neg (hneg i), hb.finish_eq, hs]
        congr 3; ring
      · simp [Imbf.interpolate, basisFun_zero, hb.finish_eq]
  | ortho2 =>
    simp only at h
    split_ifs at h with h1
    cases hw : solve (imbfMatrix .ortho2 b (scaleT b.nodes)) (fun i => b.tau i - b.tau0 - b.t i) with
    | error e => rw [hw] at h; exact absurd h (by simp [bind, Except.bind])
    | ok w =>
      rw [hw] at h
      simp only [bind, Except.bind, Except.ok.injEq] at h
      subst h
      constructor
      · intro i
        have hs := solve_ok hw i
        simp only [imbfMatrix, of_apply] at hs
        simp only [Imbf.interpolate, if_neg (hneg i), hb.finish_eq, hs]
        congr 3; ring
      · simp [Imbf.interpolate, basisFun_zero, hb.finish_eq]
  | other => exact absurd rfl hbasis

end Imate.Interp
