import Verif.Lemmas.Interpolator
import Mathlib.LinearAlgebra.Lagrange

/-! The spline, radial and Chebyshev methods: values at the points, and when their systems can be solved. -/

namespace Imate.Interp

open Imate.Spec Matrix Finset

variable {n : ℕ} {P : Problem n}

theorem mobius_zero : mobius 0 = -1 := by norm_num [mobius]

theorem mobius_ne_one {t : ℝ} (ht : t + 1 ≠ 0) : mobius t ≠ 1 := by
  unfold mobius
  intro h
  rw [div_eq_one_iff_eq ht] at h
  linarith

theorem mobius_lt {s t : ℝ} (hs : 0 ≤ s) (h : s < t) : mobius s < mobius t := by
  unfold mobius
  rw [div_lt_div_iff₀ (by linarith) (by linarith)]
  nlinarith

theorem mobius_lt_one {t : ℝ} (ht : 0 ≤ t) : mobius t < 1 := by
  unfold mobius
  rw [div_lt_one (by linarith)]
  linarith

theorem ratio1_back {tau0 : ℝ} {x : ℝ × ℝ} (h : tau0 + x.1 ≠ 0) : (ratio1 tau0 x + 1) * (tau0 + x.1) = x.2 := by
  unfold ratio1
  rw [sub_add_cancel, div_mul_cancel₀ _ h]

theorem ratio2_back {tau0 : ℝ} {x : ℝ × ℝ} (h : x.1 ≠ 0) : (ratio2 tau0 x + 1) * x.1 + tau0 = x.2 := by
  unfold ratio2
  rw [sub_add_cancel, div_mul_cancel₀ _ h]
  ring

/-! ### `spl` -/

theorem spline_honours {lib : SplineLib} (hlib : SplineSpec lib) {b : Base} {l : List ℝ} (hb : BaseOf P l b)
    (hl : ∀ t ∈ l, 0 < t) {ft : ℤ} {m : Fitted} (h : splineInit lib ft b = .ok m) :
    (∀ x ∈ b.nodes, m.spline x.1 = .ok (some (x.2 * b.normB))) ∧
      m.spline 0 = .ok (some (b.tau0 * b.normB)) := by
  have hpos : ∀ x ∈ b.nodes, 0 < x.1 := fun x hx => hl _ (by rw [← hb.points]; exact List.mem_map_of_mem hx)
  have htau := hb.tau0_pos
  unfold splineInit at h
  split_ifs at h with h1 h2 h3 h4
  · cases hf : lib.notAKnot ((-1, 0) :: b.nodes.map (fun x => (mobius x.1, ratio1 b.tau0 x)) ++ [(1, 0)]) with
    | error e => rw [hf] at h; exact absurd h (by simp [bind, Except.bind])
    | ok f =>
      rw [hf] at h
      simp only [bind, Except.bind, Except.ok.injEq] at h
      subst h
      have ht := hlib.notAKnot.through _ _ hf
      constructor
      · intro x hx
        have hx0 := hpos x hx
        have h5 : f (mobius x.1) = ratio1 b.tau0 x := ht (mobius x.1, ratio1 b.tau0 x) (by
          refine List.mem_append_left _ (List.mem_cons_of_mem _ (List.mem_map.2 ⟨x, hx, rfl⟩)))
        simp only [Fitted.spline, if_pos h1, if_neg (show ¬ x.1 + 1 = 0 by linarith), h5]
        rw [ratio1_back (by linarith), hb.finish_eq]
      · have h5 : f (-1) = 0 := ht (-1, 0) (by simp)
        simp only [Fitted.spline, if_pos h1, mobius_zero, h5]
        rw [if_neg (by norm_num), hb.finish_eq]
        congr 3; ring
  · cases hf : lib.notAKnot (b.nodes.map (fun x => (mobius x.1, ratio2 b.tau0 x)) ++ [(1, 0)]) with
    | error e => rw [hf] at h; exact absurd h (by simp [bind, Except.bind])
    | ok f =>
      rw [hf] at h
      simp only [bind, Except.bind, Except.ok.injEq] at h
      subst h
      have ht := hlib.notAKnot.through _ _ hf
      constructor
      · intro x hx
        have hx0 := hpos x hx
        have h5 : f (mobius x.1) = ratio2 b.tau0 x := ht (mobius x.1, ratio2 b.tau0 x) (by
          refine List.mem_append_left _ (List.mem_map.2 ⟨x, hx, rfl⟩))
        simp only [Fitted.spline, if_neg h1, if_pos h3, if_neg (show ¬ x.1 + 1 = 0 by linarith), h5]
        rw [ratio2_back hx0.ne', hb.finish_eq]
      · simp only [Fitted.spline, if_neg h1, if_pos h3]
        rw [if_neg (by norm_num), hb.finish_eq]
        congr 3; ring

theorem pairwise_mobius {l : List ℝ} (hl : ∀ t ∈ l, 0 < t) (hs : l.Pairwise (· < ·)) :
    (l.map mobius).Pairwise (· < ·) := by
  rw [List.pairwise_map]
  exact hs.imp_of_mem fun ha _ hab => mobius_lt (hl _ ha).le hab

theorem spline_some {lib : SplineLib} (hlib : SplineSpec lib) {b : Base} {l : List ℝ} (hb : BaseOf P l b)
    (hl : ∀ t ∈ l, 0 < t) (hs : l.Pairwise (· < ·)) (hne : l ≠ []) {ft : ℤ} (hft : ft = 1 ∨ ft = 2) :
    ∃ m, splineInit lib ft b = .ok m := by
  have hpos : ∀ x ∈ b.nodes, 0 < x.1 := fun x hx => hl _ (by rw [← hb.points]; exact List.mem_map_of_mem hx)
  have htau := hb.tau0_pos
  have hlen : 1 ≤ b.nodes.length := by
    rw [hb.length]; exact List.length_pos_iff.2 hne
  have hmap : ∀ g : ℝ × ℝ → ℝ, ((b.nodes.map fun x => (mobius x.1, g x)).map Prod.fst) = l.map mobius := by
    intro g
    rw [← hb.points, List.map_map, List.map_map]; rfl
  unfold splineInit
  rcases hft with rfl | rfl
  · rw [if_pos rfl, if_neg]
    · obtain ⟨f, hf⟩ := hlib.notAKnot.ok ((-1, 0) :: b.nodes.map (fun x => (mobius x.1, ratio1 b.tau0 x)) ++ [(1, 0)])
        (by simp) (by
          rw [List.map_append, List.map_cons, hmap]
          simp only [List.map_cons, List.map_nil]
          rw [List.pairwise_append, List.pairwise_cons]
          refine ⟨⟨?_, pairwise_mobius hl hs⟩, List.pairwise_singleton _ _, ?_⟩
          · intro y hy
            obtain ⟨t, ht, rfl⟩ := List.mem_map.1 hy
            rw [← mobius_zero]
            exact mobius_lt le_rfl (hl t ht)
          · intro y hy z hz
            rw [List.mem_singleton.1 hz]
            rcases List.mem_cons.1 hy with rfl | hy
            · norm_num
            · obtain ⟨t, ht, rfl⟩ := List.mem_map.1 hy
              exact mobius_lt_one (hl t ht).le)
      rw [hf]
      exact ⟨_, rfl⟩
    · rintro ⟨x, hx, h | h⟩ <;> have := hpos x hx <;> linarith
  · rw [if_neg (by decide), if_pos rfl, if_neg]
    · obtain ⟨f, hf⟩ := hlib.notAKnot.ok (b.nodes.map (fun x => (mobius x.1, ratio2 b.tau0 x)) ++ [(1, 0)])
        (by simp; omega) (by
          rw [List.map_append, hmap]
          simp only [List.map_cons, List.map_nil]
          rw [List.pairwise_append]
          refine ⟨pairwise_mobius hl hs, List.pairwise_singleton _ _, ?_⟩
          intro y hy z hz
          rw [List.mem_singleton.1 hz]
          obtain ⟨t, ht, rfl⟩ := List.mem_map.1 hy
          exact mobius_lt_one (hl t ht).le)
      rw [hf]
      exact ⟨_, rfl⟩
    · rintro ⟨x, hx, h | h⟩ <;> have := hpos x hx <;> linarith

/-! ### `rbf` -/

theorem listMin_le : ∀ {l : List ℝ} {x : ℝ}, x ∈ l → listMin l ≤ x
  | [], _, h => by simp at h
  | [y], x, h => by simp at h; simp [listMin, h]
  | y :: z :: l, x, h => by
    simp only [listMin]
    rcases List.mem_cons.1 h with rfl | h
    · exact min_le_left _ _
    · exact (min_le_right _ _).trans (listMin_le h)

theorem le_listMax : ∀ {l : List ℝ} {x : ℝ}, x ∈ l → x ≤ listMax l
  | [], _, h => by simp at h
  | [y], x, h => by simp at h; simp [listMax, h]
  | y :: z :: l, x, h => by
    simp only [listMax]
    rcases List.mem_cons.1 h with rfl | h
    · exact le_max_left _ _
    · exact (le_listMax h).trans (le_max_right _ _)

theorem diff_sum : ∀ (x : ℝ) (l : List ℝ),
    (List.zipWith (· - ·) l (x :: l)).sum = (x :: l).getLast (by simp) - x
  | x, [] => by simp
  | x, y :: l => by
    rw [List.zipWith_cons_cons, List.sum_cons, diff_sum y l,
      List.getLast_cons (a := x) (l := y :: l) (by simp)]
    ring

theorem rbfStep_pos {x : List ℝ} (hs : x.Pairwise (· < ·)) : 0 < rbfStep x := by
  unfold rbfStep
  split_ifs with h
  · unfold meanDiff
    match x, h, hs with
    | [], h, _ => simp at h
    | [_], h, _ => simp at h
    | x :: y :: l, h, hs =>
      rw [List.tail_cons, diff_sum]
      refine div_pos (sub_pos.2 ?_) (by simp; positivity)
      rw [List.getLast_cons (by simp)]
      exact (List.pairwise_cons.1 hs).1 _ (List.getLast_mem _)
  · exact one_pos

theorem rbfLow_lt {x : List ℝ} (h : 0 < rbfStep x) {y : ℝ} (hy : y ∈ x) : rbfLow x < y := by
  have := listMin_le hy
  unfold rbfLow
  split_ifs with h1
  · linarith
  · push Not at h1; linarith

theorem lt_rbfHigh {x : List ℝ} (h : 0 < rbfStep x) {y : ℝ} (hy : y ∈ x) : y < rbfHigh x := by
  have := le_listMax hy
  unfold rbfHigh
  split_ifs with h1
  · linarith
  · push Not at h1; linarith

theorem rbfFit_through {pts : List (ℝ × ℝ)} {eps : ℝ} {f : ℝ → ℝ} (h : rbfFit pts eps = .ok f) :
    ∀ x ∈ pts, f x.1 = x.2 := by
  unfold rbfFit at h
  split_ifs at h with h1
  cases hw : solve (Matrix.of fun i j : Fin pts.length => gauss eps |(pts.get i).1 - (pts.get j).1|)
      (fun i => (pts.get i).2) with
  | error e => rw [hw] at h; exact absurd h (by simp [bind, Except.bind])
  | ok w =>
    rw [hw] at h
    simp only [bind, Except.bind, Except.ok.injEq] at h
    subst h
    intro x hx
    obtain ⟨i, rfl⟩ := List.get_of_mem hx
    exact solve_ok hw i

theorem rbfFit_some {pts : List (ℝ × ℝ)} {eps : ℝ} (he : eps ≠ 0) (hnd : (pts.map Prod.fst).Nodup) :
    ∃ f, rbfFit pts eps = .ok f := by
  unfold rbfFit
  rw [if_neg he]
  have hinj : Function.Injective fun i : Fin pts.length => (pts.get i).1 := by
    intro i j hij
    have hget := List.nodup_iff_injective_get.1 hnd
    have := @hget (i.cast (by simp)) (j.cast (by simp)) (by
      simp only [List.get_eq_getElem, Fin.val_cast, List.getElem_map]
      exact hij)
    exact Fin.ext (by simpa using congrArg Fin.val this)
  obtain ⟨w, hw⟩ := solve_some (det_gauss_ne_zero hinj he) fun i => (pts.get i).2
  have hw' : solve (Matrix.of fun i j : Fin pts.length => gauss eps |(pts.get i).1 - (pts.get j).1|)
      (fun i => (pts.get i).2) = .ok w := hw
  rw [hw']
  exact ⟨_, rfl⟩

theorem pairwise_logb {l : List ℝ} (hl : ∀ t ∈ l, 0 < t) (hs : l.Pairwise (· < ·)) :
    (l.map (Real.logb 10)).Pairwise (· < ·) := by
  rw [List.pairwise_map]
  exact hs.imp_of_mem fun ha _ hab => Real.logb_lt_logb (by norm_num) (hl _ ha) hab

theorem BaseOf.map_logb {b : Base} {l : List ℝ} (hb : BaseOf P l b) :
    (b.nodes.map fun x => Real.logb 10 x.1) = l.map (Real.logb 10) := by
  rw [← hb.points, List.map_map]; rfl

theorem listMin_mem : ∀ {l : List ℝ}, l ≠ [] → listMin l ∈ l
  | [], h => absurd rfl h
  | [x], _ => by simp [listMin]
  | x :: y :: l, _ => by
    simp only [listMin]
    rcases min_choice x (listMin (y :: l)) with h | h <;> rw [h]
    · simp
    · exact List.mem_cons_of_mem _ (listMin_mem (by simp))

theorem listMax_mem : ∀ {l : List ℝ}, l ≠ [] → listMax l ∈ l
  | [], h => absurd rfl h
  | [x], _ => by simp [listMax]
  | x :: y :: l, _ => by
    simp only [listMax]
    rcases max_choice x (listMax (y :: l)) with h | h <;> rw [h]
    · simp
    · exact List.mem_cons_of_mem _ (listMax_mem (by simp))

theorem rbf_inside {l : List ℝ} (hl : ∀ t ∈ l, 0 < t) (hi : RbfInside l) {t : ℝ} (ht : t ∈ l) :
    ¬ (Real.logb 10 t < rbfLow (l.map (Real.logb 10)) ∨ rbfHigh (l.map (Real.logb 10)) < Real.logb 10 t) := by
  have hm : Real.logb 10 t ∈ l.map (Real.logb 10) := List.mem_map_of_mem ht
  rcases hi with hs | hin
  · have hp := rbfStep_pos (pairwise_logb hl hs)
    rintro (h | h)
    · exact lt_asymm h (rbfLow_lt hp hm)
    · exact lt_asymm h (lt_rbfHigh hp hm)
  · have hne : l.map (Real.logb 10) ≠ [] := List.ne_nil_of_mem hm
    obtain ⟨u, hu, hu'⟩ := List.mem_map.1 (listMin_mem hne)
    obtain ⟨v, hv, hv'⟩ := List.mem_map.1 (listMax_mem hne)
    have h1 : rbfLow (l.map (Real.logb 10)) = -4.5 := by
      unfold rbfLow
      rw [if_neg (by rw [← hu']; exact not_le.2 (hin u hu).1)]
    have h2 : rbfHigh (l.map (Real.logb 10)) = 3.5 := by
      unfold rbfHigh
      rw [if_neg (by rw [← hv']; exact not_le.2 (hin v hv).2)]
    rw [h1, h2]
    rintro (h | h)
    · exact lt_asymm h (hin t ht).1
    · exact lt_asymm h (hin t ht).2

theorem rbf_honours {lib : SplineLib} (hlib : SplineSpec lib) {b : Base} {l : List ℝ} (hb : BaseOf P l b)
    (hl : ∀ t ∈ l, 0 < t) {ft : ℤ} (hi : ft = 2 → RbfInside l) {m : Fitted} (h : rbfInit lib ft b = .ok m) :
    (∀ x ∈ b.nodes, m.rbf x.1 = .ok (some (x.2 * b.normB))) ∧
      m.rbf 0 = .ok (some (b.tau0 * b.normB)) := by
  have hpos : ∀ x ∈ b.nodes, 0 < x.1 := fun x hx => hl _ (by rw [← hb.points]; exact List.mem_map_of_mem hx)
  have hmem : ∀ x ∈ b.nodes, x.1 ∈ l := fun x hx => by rw [← hb.points]; exact List.mem_map_of_mem hx
  have htau := hb.tau0_pos
  unfold rbfInit at h
  simp only [hb.map_logb] at h
  split_ifs at h with h1 h2 h3 h4
  · cases hf : lib.clamped (b.nodes.map fun x => (Real.logb 10 x.1, x.2 - b.tau0 - x.1)) with
    | error e => rw [hf] at h; exact absurd h (by simp [bind, Except.bind])
    | ok f =>
      have hs : l.Pairwise (· < ·) := by
        by_contra hns
        have := hlib.clamped.raises (b.nodes.map fun x => (Real.logb 10 x.1, x.2 - b.tau0 - x.1)) (by
          rintro ⟨-, h5⟩
          rw [List.map_map, show (Prod.fst ∘ fun x : ℝ × ℝ => (Real.logb 10 x.1, x.2 - b.tau0 - x.1)) =
            fun x => Real.logb 10 x.1 from rfl, hb.map_logb, List.pairwise_map] at h5
          refine hns (h5.imp_of_mem fun {x y} hx hy hxy => ?_)
          exact (Real.logb_lt_logb_iff (by norm_num) (hl _ hx) (hl _ hy)).1 hxy)
        rw [hf] at this
        exact absurd this (by simp)
      rw [hf] at h
      simp only [bind, Except.bind, Except.ok.injEq] at h
      subst h
      have ht := hlib.clamped.through _ _ hf
      constructor
      · intro x hx
        have hx0 := hpos x hx
        have h5 : f (Real.logb 10 x.1) = x.2 - b.tau0 - x.1 :=
          ht (Real.logb 10 x.1, x.2 - b.tau0 - x.1) (List.mem_map.2 ⟨x, hx, rfl⟩)
        simp only [Fitted.rbf, if_pos h3, Fitted.rbfY, if_neg (not_lt.2 hx0.le), if_neg hx0.ne',
          if_neg (rbf_inside hl (Or.inl hs) (hmem x hx)), h5, Option.map_some]
        rw [hb.finish_eq]
        congr 3; ring
      · simp only [Fitted.rbf, if_pos h3, Fitted.rbfY, lt_irrefl, if_false, if_true, Option.map_some]
        rw [hb.finish_eq]
        congr 3; ring
  · cases hf : rbfFit (rbfExtend (rbfLow (l.map (Real.logb 10))) (rbfHigh (l.map (Real.logb 10)))
      (rbfStep (l.map (Real.logb 10))) (b.nodes.map fun x => (Real.logb 10 x.1, ratio1 b.tau0 x)))
      (rbfStep (l.map (Real.logb 10))) with
    | error e => rw [hf] at h; exact absurd h (by simp [bind, Except.bind])
    | ok f =>
      rw [hf] at h
      simp only [bind, Except.bind, Except.ok.injEq] at h
      subst h
      have h2' : ft = 2 := by tauto
      have ht := rbfFit_through hf
      constructor
      · intro x hx
        have hx0 := hpos x hx
        have h5 : f (Real.logb 10 x.1) = ratio1 b.tau0 x :=
          ht (Real.logb 10 x.1, ratio1 b.tau0 x) (by
            unfold rbfExtend
            exact List.mem_append_left _ (List.mem_append_right _ (List.mem_map.2 ⟨x, hx, rfl⟩)))
        simp only [Fitted.rbf, if_neg h3, if_pos h2', Fitted.rbfY, if_neg (not_lt.2 hx0.le), if_neg hx0.ne',
          if_neg (rbf_inside hl (hi h2') (hmem x hx)), h5, Option.map_some]
        rw [ratio1_back (by linarith), hb.finish_eq]
      · simp only [Fitted.rbf, if_neg h3, if_pos h2', Fitted.rbfY, lt_irrefl, if_false, if_true, Option.map_some]
        rw [hb.finish_eq]
        congr 3; ring

theorem rbf_some {lib : SplineLib} (hlib : SplineSpec lib) {b : Base} {l : List ℝ} (hb : BaseOf P l b)
    (hl : ∀ t ∈ l, 0 < t) (hs : l.Pairwise (· < ·)) {ft : ℤ} (hft : ft = 1 ∧ 2 ≤ l.length ∨ ft = 2) :
    ∃ m, rbfInit lib ft b = .ok m := by
  have hpos : ∀ x ∈ b.nodes, 0 < x.1 := fun x hx => hl _ (by rw [← hb.points]; exact List.mem_map_of_mem hx)
  have htau := hb.tau0_pos
  have hxs := pairwise_logb hl hs
  have hp := rbfStep_pos hxs
  unfold rbfInit
  simp only [hb.map_logb]
  rw [if_neg (by tauto), if_neg (by rintro ⟨x, hx, h⟩; exact absurd (hpos x hx) (not_lt.2 h))]
  rcases hft with ⟨rfl, hlen⟩ | rfl
  · rw [if_pos rfl]
    obtain ⟨f, hf⟩ := hlib.clamped.ok (b.nodes.map fun x => (Real.logb 10 x.1, x.2 - b.tau0 - x.1))
      (by simpa [hb.length] using hlen) (by
        rw [List.map_map, show (Prod.fst ∘ fun x : ℝ × ℝ => (Real.logb 10 x.1, x.2 - b.tau0 - x.1)) =
          fun x => Real.logb 10 x.1 from rfl, hb.map_logb]
        exact hxs)
    rw [hf]
    exact ⟨_, rfl⟩
  · rw [if_neg (by decide), if_neg (by rintro ⟨x, hx, h⟩; have := hpos x hx; linarith)]
    obtain ⟨f, hf⟩ := rbfFit_some (pts := rbfExtend (rbfLow (l.map (Real.logb 10)))
      (rbfHigh (l.map (Real.logb 10))) (rbfStep (l.map (Real.logb 10)))
      (b.nodes.map fun x => (Real.logb 10 x.1, ratio1 b.tau0 x))) hp.ne' (by
        unfold rbfExtend
        have hlh : rbfLow (l.map (Real.logb 10)) < rbfHigh (l.map (Real.logb 10)) := by
          cases hl0 : l.map (Real.logb 10) with
          | nil => norm_num [rbfLow, rbfHigh, listMin, listMax]
          | cons y ys =>
            rw [← hl0]
            exact (rbfLow_lt hp (by rw [hl0]; simp)).trans (lt_rbfHigh hp (y := y) (by rw [hl0]; simp))
        rw [List.map_append, List.map_append, List.map_map,
          show (Prod.fst ∘ fun x : ℝ × ℝ => (Real.logb 10 x.1, ratio1 b.tau0 x)) =
            fun x => Real.logb 10 x.1 from rfl, hb.map_logb]
        have : (List.map Prod.fst [((rbfLow (l.map (Real.logb 10)) - rbfStep (l.map (Real.logb 10)), 0) : ℝ × ℝ),
            (rbfLow (l.map (Real.logb 10)) - rbfStep (l.map (Real.logb 10)) / 2, 0),
            (rbfLow (l.map (Real.logb 10)), 0)] ++ l.map (Real.logb 10) ++
            List.map Prod.fst [((rbfHigh (l.map (Real.logb 10)), 0) : ℝ × ℝ),
            (rbfHigh (l.map (Real.logb 10)) + rbfStep (l.map (Real.logb 10)) / 2, 0),
            (rbfHigh (l.map (Real.logb 10)) + rbfStep (l.map (Real.logb 10)), 0)]).Pairwise (· < ·) := by
          generalize hL : rbfLow (l.map (Real.logb 10)) = L at *
          generalize hH : rbfHigh (l.map (Real.logb 10)) = H at *
          generalize hD : rbfStep (l.map (Real.logb 10)) = D at *
          have h1 : ∀ y ∈ l.map (Real.logb 10), L < y := fun y hy => by
            rw [← hL]; exact rbfLow_lt (by rw [hD]; exact hp) hy
          have h2 : ∀ y ∈ l.map (Real.logb 10), y < H := fun y hy => by
            rw [← hH]; exact lt_rbfHigh (by rw [hD]; exact hp) hy
          simp only [List.map_cons, List.map_nil]
          rw [List.pairwise_append, List.pairwise_append]
          refine ⟨⟨?_, hxs, ?_⟩, ?_, ?_⟩
          · simp only [List.pairwise_cons, List.mem_cons, List.not_mem_nil, or_false, forall_eq_or_imp, forall_eq,
              IsEmpty.forall_iff, implies_true, List.Pairwise.nil, and_true]
            refine ⟨⟨by linarith, by linarith⟩, by linarith⟩
          · intro u hu v hv
            have := h1 v hv
            simp only [List.mem_cons, List.not_mem_nil, or_false] at hu
            rcases hu with rfl | rfl | rfl <;> linarith
          · simp only [List.pairwise_cons, List.mem_cons, List.not_mem_nil, or_false, forall_eq_or_imp, forall_eq,
              IsEmpty.forall_iff, implies_true, List.Pairwise.nil, and_true]
            refine ⟨⟨by linarith, by linarith⟩, by linarith⟩
          · intro u hu v hv
            simp only [List.mem_cons, List.not_mem_nil, or_false] at hv
            have hu' : u < H := by
              rcases List.mem_append.1 hu with hu | hu
              · simp only [List.mem_cons, List.not_mem_nil, or_false] at hu
                rcases hu with rfl | rfl | rfl <;> linarith
              · exact h2 u hu
            rcases hv with rfl | rfl | rfl <;> linarith
        exact this.imp fun h => h.ne)
    rw [hf]
    exact ⟨_, rfl⟩

/-! ### `crf` -/

theorem cheb_independent : ∀ {k : ℕ} {v : Fin k → ℝ},
    (∑ j : Fin k, Polynomial.C (v j) * (1 - Polynomial.Chebyshev.T ℝ ((j : ℕ) + 1 : ℤ)) = 0) → v = 0 := by
  intro k
  induction k with
  | zero => intro v _; exact Subsingleton.elim _ _
  | succ k ih =>
    intro v h
    have hdeg : ∀ m : ℕ, (Polynomial.Chebyshev.T ℝ ((m : ℤ) + 1)).natDegree = m + 1 := by
      intro m
      rw [Polynomial.Chebyshev.natDegree_T]; omega
    rw [Fin.sum_univ_castSucc] at h
    have hlast : v (Fin.last k) = 0 := by
      have hc := congrArg (fun p => Polynomial.coeff p (k + 1)) h
      simp only [Polynomial.coeff_add, Polynomial.finsetSum_coeff, Polynomial.coeff_C_mul,
        Polynomial.coeff_sub, Polynomial.coeff_zero, Polynomial.coeff_one, Fin.val_castSucc, Fin.val_last] at hc
      rw [Finset.sum_eq_zero, zero_add, if_neg (by omega), zero_sub] at hc
      · have hl : (Polynomial.Chebyshev.T ℝ ((k : ℤ) + 1)).coeff (k + 1) ≠ 0 := by
          have := Polynomial.Chebyshev.leadingCoeff_T ℝ ((k : ℤ) + 1)
          rw [Polynomial.leadingCoeff, hdeg] at this
          rw [this]
          positivity
        rcases mul_eq_zero.1 hc with h1 | h1
        · exact h1
        · exact absurd (neg_eq_zero.1 h1) hl
      · intro j _
        rw [if_neg (by omega), Polynomial.coeff_eq_zero_of_natDegree_lt (by rw [hdeg]; omega)]
        ring
    rw [hlast, Polynomial.C_0, zero_mul, add_zero] at h
    have hrest := ih (v := fun j => v j.castSucc) (by simpa using h)
    funext j
    refine Fin.lastCases hlast (fun j => ?_) j
    exact congrFun hrest j

theorem crfMatrix_det {pts : List (ℝ × ℝ)} (hnd : (pts.map Prod.fst).Nodup) (h1 : ∀ x ∈ pts, x.1 ≠ 1) :
    (crfMatrix pts).det ≠ 0 := by
  classical
  intro hdet
  obtain ⟨v, hv, h⟩ := Matrix.exists_mulVec_eq_zero_iff.2 hdet
  have hinj : Function.Injective fun i : Fin pts.length => (pts.get i).1 := by
    intro i j hij
    have hget := List.nodup_iff_injective_get.1 hnd
    have := @hget (i.cast (by simp)) (j.cast (by simp)) (by
      simp only [List.get_eq_getElem, Fin.val_cast, List.getElem_map]
      exact hij)
    exact Fin.ext (by simpa using congrArg Fin.val this)
  set p : Polynomial ℝ := ∑ j : Fin pts.length,
    Polynomial.C (v j) * (1 - Polynomial.Chebyshev.T ℝ ((j : ℕ) + 1 : ℤ)) with hp
  have heval : ∀ x, p.eval x = ∑ j : Fin pts.length, v j * (1 - chebyt (j + 1) x) := by
    intro x
    rw [hp, Polynomial.eval_finsetSum]
    refine sum_congr rfl fun j _ => ?_
    simp [chebyt]
  have hp0 : p = 0 := by
    refine Polynomial.eq_zero_of_degree_lt_of_eval_finset_eq_zero
      (insert 1 (univ.image fun i : Fin pts.length => (pts.get i).1)) ?_ ?_
    · rw [card_insert_of_notMem, card_image_of_injective _ hinj, card_univ, Fintype.card_fin]
      · refine lt_of_le_of_lt (Polynomial.degree_sum_le _ _) ?_
        rw [Finset.sup_lt_iff (WithBot.bot_lt_coe _)]
        intro j _
        refine lt_of_le_of_lt (Polynomial.degree_mul_le _ _) ?_
        refine lt_of_le_of_lt (add_le_add Polynomial.degree_C_le le_rfl) ?_
        rw [zero_add]
        refine lt_of_le_of_lt (Polynomial.degree_sub_le _ _) ?_
        rw [Polynomial.Chebyshev.degree_T, Polynomial.degree_one]
        rw [max_lt_iff]
        have := j.isLt
        constructor
        · exact_mod_cast Nat.succ_pos _
        · have h3 : ((j : ℕ) + 1 : ℤ).natAbs < pts.length + 1 := by omega
          exact_mod_cast h3
      · intro hmem
        obtain ⟨i, -, hi⟩ := mem_image.1 hmem
        exact h1 _ (List.get_mem pts i) hi
    · intro x hx
      rcases mem_insert.1 hx with rfl | hx
      · rw [heval]
        refine sum_eq_zero fun j _ => ?_
        simp [chebyt, Polynomial.Chebyshev.T_eval_one]
      · obtain ⟨i, -, rfl⟩ := mem_image.1 hx
        have h2 := congrFun h i
        simp only [mulVec, dotProduct, crfMatrix, of_apply, crfFun, Pi.zero_apply] at h2
        rw [heval]
        have h3 : (0.5 : ℝ) * ∑ j : Fin pts.length, v j * (1 - chebyt (j + 1) (pts.get i).1) = 0 := by
          rw [mul_sum, ← h2]
          refine sum_congr rfl fun j _ => by ring
        rcases mul_eq_zero.1 h3 with h4 | h4
        · norm_num at h4
        · exact h4
  exact hv (cheb_independent (hp ▸ hp0))

theorem crf_honours {b : Base} {l : List ℝ} (hb : BaseOf P l b) (hl : ∀ t ∈ l, 0 < t) {opt : ℝ}
    {scale : Option ℝ} (hscale : 0 < scale.getD |opt|) {ft : ℤ} {m : Crf}
    (h : crfInit opt scale ft b = .ok m) :
    (∀ x ∈ b.nodes, m.interpolate x.1 = .ok (some (x.2 * b.normB))) ∧
      m.interpolate 0 = .ok (some (b.tau0 * b.normB)) := by
  have hpos : ∀ x ∈ b.nodes, 0 < x.1 := fun x hx => hl _ (by rw [← hb.points]; exact List.mem_map_of_mem hx)
  have htau := hb.tau0_pos
  unfold crfInit at h
  generalize hs : scale.getD |opt| = s at *
  have habs : |s| = s := abs_of_pos hscale
  simp only at h
  split_ifs at h with h1 h2
  · exfalso
    rcases h2 with h2 | ⟨x, hx, h2 | h2⟩
    · linarith
    · have : 0 < x.1 / |s| := div_pos (hpos x hx) (by rw [habs]; exact hscale)
      linarith
    · have := hpos x hx
      split_ifs at h2 <;> linarith
  · cases hw : solve (crfMatrix (crfPoints ft s b)) (fun i => ((crfPoints ft s b).get i).2) with
    | error e => rw [hw] at h; exact absurd h (by simp [bind, Except.bind])
    | ok w =>
      rw [hw] at h
      simp only [bind, Except.bind, Except.ok.injEq] at h
      subst h
      have hsys : ∀ x ∈ crfPoints ft s b, ∑ j, w j * crfFun j x.1 = x.2 := by
        intro x hx
        obtain ⟨i, rfl⟩ := List.get_of_mem hx
        exact solve_ok hw i
      have hy : ∀ t : ℝ, 0 ≤ t → (Crf.mk b ft s (crfPoints ft s b).length (some w)).y t =
          some (∑ j, w j * crfFun j (mobius (t / s))) := by
        intro t ht
        unfold Crf.y
        have : 0 ≤ t / s := div_nonneg ht hscale.le
        rw [if_neg]
        · rfl
        · rintro (h3 | h3)
          · exact hscale.ne' h3
          · simp only at h3; linarith
      have hft : ft = 1 ∨ ft = 2 := by tauto
      rcases hft with rfl | rfl
      · constructor
        · intro x hx
          have hx0 := hpos x hx
          have h3 := hsys (mobius (x.1 / s), ratio1 b.tau0 x) (by
            unfold crfPoints
            simp only [if_true, habs]
            exact List.mem_cons_of_mem _ (List.mem_map.2 ⟨x, hx, rfl⟩))
          simp only at h3
          simp only [Crf.interpolate, if_true]
          rw [hy x.1 hx0.le, h3, Option.map_some, ratio1_back (by linarith), hb.finish_eq]
        · have h3 := hsys (-1, 0) (by unfold crfPoints; simp)
          simp only at h3
          simp only [Crf.interpolate, if_true]
          rw [hy 0 le_rfl, zero_div, mobius_zero, h3, Option.map_some, hb.finish_eq]
          congr 3; ring
      · have h21 : ¬ ((2 : ℤ) = 1) := by decide
        constructor
        · intro x hx
          have hx0 := hpos x hx
          have h3 := hsys (mobius (x.1 / s), ratio2 b.tau0 x) (by
            unfold crfPoints
            simp only [if_neg h21, habs]
            exact List.mem_map.2 ⟨x, hx, rfl⟩)
          simp only at h3
          simp only [Crf.interpolate, if_neg h21, if_true]
          rw [hy x.1 hx0.le, h3, Option.map_some, ratio2_back hx0.ne', hb.finish_eq]
        · simp only [Crf.interpolate, if_neg h21, if_true]
          rw [hy 0 le_rfl, Option.map_some, hb.finish_eq]
          congr 3; ring

theorem crf_some {b : Base} {l : List ℝ} (hb : BaseOf P l b) (hl : ∀ t ∈ l, 0 < t) (hnd : l.Nodup) (opt : ℝ)
    {scale : Option ℝ} {ft : ℤ} (hft : ft = 1 ∨ ft = 2) : ∃ m, crfInit opt scale ft b = .ok m := by
  have hpos : ∀ x ∈ b.nodes, 0 < x.1 := fun x hx => hl _ (by rw [← hb.points]; exact List.mem_map_of_mem hx)
  unfold crfInit
  generalize scale.getD |opt| = s
  rw [if_neg (by tauto)]
  simp only
  split_ifs with h2
  · exact ⟨_, rfl⟩
  · have hs : s ≠ 0 := fun h => h2 (Or.inl h)
    have hs' : 0 < |s| := abs_pos.2 hs
    have hnd' : (l.map fun t => mobius (t / |s|)).Nodup := by
      refine List.Nodup.map_on (fun x hx y hy hxy => ?_) hnd
      rcases lt_trichotomy x y with h | h | h
      · exact absurd hxy (mobius_lt (div_nonneg (hl x hx).le hs'.le) ((div_lt_div_iff_of_pos_right hs').2 h)).ne
      · exact h
      · exact absurd hxy (mobius_lt (div_nonneg (hl y hy).le hs'.le) ((div_lt_div_iff_of_pos_right hs').2 h)).ne'
    have hmap : ∀ g : ℝ × ℝ → ℝ, ((b.nodes.map fun x => (mobius (x.1 / |s|), g x)).map Prod.fst) =
        l.map fun t => mobius (t / |s|) := by
      intro g
      rw [← hb.points, List.map_map, List.map_map]; rfl
    have hx1 : ∀ t ∈ l, mobius (t / |s|) < 1 := fun t ht => mobius_lt_one (div_nonneg (hl t ht).le hs'.le)
    have hdet : (crfMatrix (crfPoints ft s b)).det ≠ 0 := by
      apply crfMatrix_det
      · unfold crfPoints
        rcases hft with rfl | rfl
        · simp only [if_true, List.map_cons, hmap]
          rw [List.nodup_cons]
          refine ⟨?_, hnd'⟩
          intro hm
          obtain ⟨t, ht, h⟩ := List.mem_map.1 hm
          have := mobius_lt le_rfl (div_pos (hl t ht) hs')
          rw [h, mobius_zero] at this
          exact lt_irrefl _ this
        · simp only [show ¬ ((2 : ℤ) = 1) by decide, if_false, hmap]
          exact hnd'
      · intro x hx
        unfold crfPoints at hx
        have key : ∀ g : ℝ × ℝ → ℝ, x ∈ (b.nodes.map fun x => (mobius (x.1 / |s|), g x)) → x.1 ≠ 1 := by
          intro g hg
          obtain ⟨y, hy, rfl⟩ := List.mem_map.1 hg
          exact (hx1 _ (by rw [← hb.points]; exact List.mem_map_of_mem hy)).ne
        rcases hft with rfl | rfl
        · simp only [if_true] at hx
          rcases List.mem_cons.1 hx with rfl | hx
          · norm_num
          · exact key _ hx
        · simp only [show ¬ ((2 : ℤ) = 1) by decide, if_false] at hx
          exact key _ hx
    obtain ⟨w, hw⟩ := solve_some hdet fun i => ((crfPoints ft s b).get i).2
    rw [hw]
    exact ⟨_, rfl⟩

end Imate.Interp
