import Verif.Props.Interpolator

/-!
# C40 and C44: arguments that are documented and refused, and points that are not honoured
-/

namespace Imate.Props

open Imate.Spec Imate.Interp Imate.Eigen Matrix Finset

variable {n : ℕ} {P : Problem n}

theorem create_mbf (st : Interp.Settings) (ti : Points) : P.create st "mbf" ti = (P.mbf st.np ti).map .mbf := by
  unfold Problem.create
  rw [show ("mbf" : String).toLower = "mbf" by decide +kernel, if_neg (by decide +kernel), if_neg (by decide +kernel),
    if_pos rfl]

theorem create_imbf (st : Interp.Settings) (ti : Points) :
    P.create st "imbf" ti = (P.imbf st.np ti st.basis).map .imbf := by
  unfold Problem.create
  rw [show ("imbf" : String).toLower = "imbf" by decide +kernel, if_neg (by decide +kernel),
    if_neg (by decide +kernel), if_neg (by decide +kernel), if_pos rfl]

theorem create_rbf (st : Interp.Settings) (ti : Points) :
    P.create st "rbf" ti = (P.rbf st.np st.spline ti st.funcType).map .rbf := by
  unfold Problem.create
  rw [show ("rbf" : String).toLower = "rbf" by decide +kernel, if_neg (by decide +kernel),
    if_neg (by decide +kernel), if_neg (by decide +kernel), if_neg (by decide +kernel), if_pos rfl]

theorem create_crf (st : Interp.Settings) (ti : Points) :
    P.create st "crf" ti = (P.crf st.np st.opt ti st.scale st.funcType).map .crf := by
  unfold Problem.create
  rw [show ("crf" : String).toLower = "crf" by decide +kernel, if_neg (by decide +kernel),
    if_neg (by decide +kernel), if_neg (by decide +kernel), if_neg (by decide +kernel), if_neg (by decide +kernel),
    if_pos rfl]

theorem create_spl (st : Interp.Settings) (ti : Points) :
    P.create st "spl" ti = (P.spline st.np st.spline ti st.funcType).map .spl := by
  unfold Problem.create
  rw [show ("spl" : String).toLower = "spl" by decide +kernel, if_neg (by decide +kernel),
    if_neg (by decide +kernel), if_neg (by decide +kernel), if_neg (by decide +kernel), if_neg (by decide +kernel),
    if_neg (by decide +kernel), if_pos rfl]

theorem create_rpf (st : Interp.Settings) (ti : Points) : P.create st "rpf" ti = (P.rpf ti).map .rpf := by
  unfold Problem.create
  rw [show ("rpf" : String).toLower = "rpf" by decide +kernel, if_neg (by decide +kernel),
    if_neg (by decide +kernel), if_neg (by decide +kernel), if_neg (by decide +kernel), if_neg (by decide +kernel),
    if_neg (by decide +kernel), if_neg (by decide +kernel), if_pos rfl]

theorem base_float (hP : GoodProblem P) (x : ℝ) : P.base (.float x) = .error .typeError := by
  obtain ⟨a, b, h, -⟩ := inputNorms_good hP
  simp only [Problem.base, h, Points.toList, bind, Except.bind]

/-- C44: a single number, which is documented, raises `TypeError` with five of the methods and `ValueError` with the
Chebyshev functions. -/
theorem single_number_raises (hP : GoodProblem P) (st : Interp.Settings) (x : ℝ) :
    (∀ kind ∈ ["mbf", "imbf", "rbf", "spl", "rpf"], P.create st kind (.float x) = .error .typeError) ∧
      P.create st "crf" (.float x) = .error .valueError := by
  have hb := base_float hP x
  constructor
  · intro kind hk
    simp only [List.mem_cons, List.not_mem_nil, or_false] at hk
    rcases hk with rfl | rfl | rfl | rfl | rfl
    · rw [create_mbf]; simp only [Problem.mbf, hb, bind, Except.bind, Except.map]
    · rw [create_imbf]
      simp only [Problem.imbf, checkPoints, Points.eqEmpty, hb, bind, Except.bind, Except.map, Bool.false_eq_true,
        if_false]
    · rw [create_rbf]
      simp only [Problem.rbf, checkPoints, Points.eqEmpty, hb, bind, Except.bind, Except.map, Bool.false_eq_true,
        if_false]
    · rw [create_spl]
      simp only [Problem.spline, checkPoints, Points.eqEmpty, hb, bind, Except.bind, Except.map, Bool.false_eq_true,
        if_false]
    · rw [create_rpf]; rfl
  · rw [create_crf]; rfl

/-- C44: the documented default `ti=None` raises with every method that has points; so does the default `ti=[]` of the
signature with every method but `mbf`. -/
theorem default_points_raise (st : Interp.Settings) :
    (∀ kind ∈ ["mbf", "imbf", "rbf", "crf", "spl", "rpf"], ∃ e, P.create st kind .none = .error e) ∧
      (∀ kind ∈ ["imbf", "rbf", "crf", "spl", "rpf"], P.create st kind (.list []) = .error .valueError) ∧
      P.create st "mbf" .none = .error .attributeError := by
  refine ⟨?_, ?_, by rw [create_mbf]; rfl⟩
  · intro kind hk
    simp only [List.mem_cons, List.not_mem_nil, or_false] at hk
    rcases hk with rfl | rfl | rfl | rfl | rfl | rfl
    · rw [create_mbf]; exact ⟨_, rfl⟩
    · rw [create_imbf]; exact ⟨_, rfl⟩
    · rw [create_rbf]; exact ⟨_, rfl⟩
    · rw [create_crf]; exact ⟨_, rfl⟩
    · rw [create_spl]; exact ⟨_, rfl⟩
    · rw [create_rpf]; exact ⟨_, rfl⟩
  · intro kind hk
    simp only [List.mem_cons, List.not_mem_nil, or_false] at hk
    rcases hk with rfl | rfl | rfl | rfl | rfl
    · rw [create_imbf]; rfl
    · rw [create_rbf]; rfl
    · rw [create_crf]; rfl
    · rw [create_spl]; rfl
    · rw [create_rpf]
      simp [Problem.rpf, Points.toList, bind, Except.bind, Except.map]

/-- C44: an array of two or more points raises under NumPy 1.25 and later with four of the methods, although the same
points in a list are accepted. -/
theorem array_points_raise {st : Interp.Settings} (hnp : st.np = numpy125) {l : List ℝ} (hl : 2 ≤ l.length) :
    ∀ kind ∈ ["imbf", "rbf", "crf", "spl"], P.create st kind (.array l) = .error .valueError := by
  intro kind hk
  have he : Points.eqEmpty numpy125 (.array l) = .error .valueError := by
    simp only [Points.eqEmpty, numpy125, if_pos hl]
  simp only [List.mem_cons, List.not_mem_nil, or_false] at hk
  rcases hk with rfl | rfl | rfl | rfl
  · rw [create_imbf, hnp]; simp only [Problem.imbf, checkPoints, he, bind, Except.bind, Except.map]
  · rw [create_rbf, hnp]; simp only [Problem.rbf, checkPoints, he, bind, Except.bind, Except.map]
  · rw [create_crf, hnp]; simp only [Problem.crf, crfPointsArg, he, bind, Except.bind, Except.map]
  · rw [create_spl, hnp]; simp only [Problem.spline, checkPoints, he, bind, Except.bind, Except.map]

/-- C44: before NumPy 1.25, and for the rational polynomials always, an array is as good as a list. -/
theorem array_points_as_list {st : Interp.Settings} {l : List ℝ} (hne : l ≠ []) :
    (st.np = numpyOld → ∀ kind ∈ ["mbf", "imbf", "rbf", "spl", "rpf"],
      P.create st kind (.array l) = P.create st kind (.list l)) ∧
      P.create st "rpf" (.array l) = P.create st "rpf" (.list l) := by
  have hb : P.base (.array l) = P.base (.list l) := rfl
  have hr : P.create st "rpf" (.array l) = P.create st "rpf" (.list l) := by
    rw [create_rpf, create_rpf]; rfl
  have hemp : l.isEmpty = false := by cases l <;> simp_all
  refine ⟨fun hnp kind hk => ?_, hr⟩
  have he : Points.eqEmpty numpyOld (.array l) = Points.eqEmpty numpyOld (.list l) := by
    simp only [Points.eqEmpty, numpyOld, hemp]
  have hc : checkPoints numpyOld (.array l) = checkPoints numpyOld (.list l) := by
    simp only [checkPoints, he]
  simp only [List.mem_cons, List.not_mem_nil, or_false] at hk
  rcases hk with rfl | rfl | rfl | rfl | rfl
  · rw [create_mbf, create_mbf, hnp]; simp only [Problem.mbf, hb, mbfPoint, he]
  · rw [create_imbf, create_imbf, hnp]; simp only [Problem.imbf, hb, hc]
  · rw [create_rbf, create_rbf, hnp]; simp only [Problem.rbf, hb, hc]
  · rw [create_spl, create_spl, hnp]; simp only [Problem.spline, hb, hc]
  · exact hr

/-- C44: `InterpolateSchatten` documents any number of points and the class of the method up to nine.  Nine points raise
`IndexError` with `'ortho'`, ten or more raise `TypeError` with both orthogonal bases. -/
theorem imbf_many_points_raise (hP : GoodProblem P) {st : Interp.Settings} {l : List ℝ} (hl : ∀ t ∈ l, 0 < t) :
    (st.basis = .ortho → l.length = 9 → P.create st "imbf" (.list l) = .error .indexError) ∧
      (st.basis = .ortho ∨ st.basis = .ortho2 → 9 < l.length →
        P.create st "imbf" (.list l) = .error .typeError) := by
  obtain ⟨b, hb⟩ := base_some hP (ti := .list l) (.inl rfl) fun t ht => (hl t ht).le
  have hlen := (base_ok hP (.inl rfl) hb).length
  have hc : l ≠ [] → checkPoints st.np (.list l) = .ok () := by
    intro hne
    have hemp : l.isEmpty = false := by cases l <;> simp_all
    simp only [checkPoints, Points.eqEmpty, hemp, bind, Except.bind, Bool.false_eq_true, if_false]
  constructor
  · intro hbs h9
    rw [create_imbf, hbs]
    simp only [Problem.imbf, hc (by rintro rfl; simp at h9), hb, bind, Except.bind, imbfInit]
    rw [if_neg (by omega), if_pos (by omega)]; rfl
  · intro hbs h9
    rw [create_imbf]
    have hne : l ≠ [] := by rintro rfl; simp at h9
    rcases hbs with hbs | hbs
    · simp only [Problem.imbf, hbs, hc hne, hb, bind, Except.bind, imbfInit]
      rw [if_pos (by omega)]; rfl
    · simp only [Problem.imbf, hbs, hc hne, hb, bind, Except.bind, imbfInit]
      rw [if_pos (by omega)]; rfl

/-- C44: an unknown basis is accepted by the constructor, and every interpolation raises `UnboundLocalError`. -/
theorem imbf_unknown_basis (hP : GoodProblem P) {st : Interp.Settings} (hbs : st.basis = .other) {l : List ℝ}
    (hne : l ≠ []) (hl : ∀ t ∈ l, 0 < t) :
    ∃ f, P.create st "imbf" (.list l) = .ok f ∧ ∀ t, P.interpolate f t = .error .unboundLocal := by
  obtain ⟨b, hb⟩ := base_some hP (ti := .list l) (.inl rfl) fun t ht => (hl t ht).le
  have hemp : l.isEmpty = false := by cases l <;> simp_all
  refine ⟨.imbf ⟨b, .other, 0, fun _ => 0⟩, ?_, fun t => rfl⟩
  rw [create_imbf, hbs]
  simp only [Problem.imbf, checkPoints, Points.eqEmpty, hemp, hb, bind, Except.bind, imbfInit, Bool.false_eq_true,
    if_false]
  rfl

/-- C44: `rbf` with `func_type=1` and one point, and with points that do not increase, raises; so does `spl` with points
that do not increase. -/
theorem unsorted_points_raise (hP : GoodProblem P) {st : Interp.Settings} (hlib : SplineSpec st.spline) {l : List ℝ}
    (hne : l ≠ []) (hl : ∀ t ∈ l, 0 < t) (hs : ¬ l.Pairwise (· < ·)) :
    (st.funcType = 1 → P.create st "rbf" (.list l) = .error .valueError) ∧
      (st.funcType = 1 ∨ st.funcType = 2 → P.create st "spl" (.list l) = .error .valueError) := by
  obtain ⟨b, hb⟩ := base_some hP (ti := .list l) (.inl rfl) fun t ht => (hl t ht).le
  have hb' := base_ok hP (.inl rfl) hb
  have hemp : l.isEmpty = false := by cases l <;> simp_all
  have hpos : ∀ x ∈ b.nodes, 0 < x.1 := fun x hx => hl _ (by rw [← hb'.points]; exact List.mem_map_of_mem hx)
  have htau := hb'.tau0_pos
  have hc : checkPoints st.np (.list l) = .ok () := by
    simp only [checkPoints, Points.eqEmpty, hemp, bind, Except.bind, Bool.false_eq_true, if_false]
  have hmob : ¬ (l.map mobius).Pairwise (· < ·) := by
    intro h
    rw [List.pairwise_map] at h
    refine hs (h.imp_of_mem fun {s t} hs ht hst => ?_)
    by_contra hlt
    push Not at hlt
    rcases hlt.eq_or_lt with e | e
    · rw [e] at hst; exact lt_irrefl _ hst
    · exact lt_asymm hst (mobius_lt (hl t ht).le e)
  have hlog : ¬ (l.map (Real.logb 10)).Pairwise (· < ·) := by
    intro h
    rw [List.pairwise_map] at h
    refine hs (h.imp_of_mem fun {s t} hs ht hst => ?_)
    exact (Real.logb_lt_logb_iff (by norm_num) (hl s hs) (hl t ht)).1 hst
  constructor
  · intro hft
    rw [create_rbf, hft]
    simp only [Problem.rbf, hc, hb, bind, Except.bind, rbfInit]
    rw [if_neg (by simp), if_neg (by push Not; exact hpos), if_pos trivial]
    rw [hlib.clamped.raises]
    · rfl
    · rintro ⟨-, h⟩
      rw [List.map_map] at h
      have : b.nodes.map (Prod.fst ∘ fun x : ℝ × ℝ => (Real.logb 10 x.1, x.2 - b.tau0 - x.1)) =
          l.map (Real.logb 10) := by rw [← hb'.points, List.map_map]; rfl
      rw [this] at h
      exact hlog h
  · intro hft
    rw [create_spl]
    simp only [Problem.spline, hc, hb, bind, Except.bind, splineInit]
    rcases hft with hft | hft
    · rw [hft, if_pos rfl, if_neg (by
        push Not; exact fun x hx => ⟨by have := hpos x hx; linarith, by have := hpos x hx; linarith⟩)]
      rw [hlib.notAKnot.raises]
      · rfl
      · rintro ⟨-, h⟩
        simp only [List.cons_append, List.map_cons, List.map_append, List.map_map] at h
        have h2 := (List.pairwise_append.1 (List.pairwise_cons.1 h).2).1
        have : b.nodes.map (Prod.fst ∘ fun x : ℝ × ℝ => (mobius x.1, ratio1 b.tau0 x)) = l.map mobius := by
          rw [← hb'.points, List.map_map]; rfl
        rw [this] at h2
        exact hmob h2
    · rw [hft, if_neg (by norm_num), if_pos rfl, if_neg (by
        push Not; exact fun x hx => ⟨by have := hpos x hx; linarith, by have := hpos x hx; linarith⟩)]
      rw [hlib.notAKnot.raises]
      · rfl
      · rintro ⟨-, h⟩
        simp only [List.map_append, List.map_map] at h
        have h2 := (List.pairwise_append.1 h).1
        have : b.nodes.map (Prod.fst ∘ fun x : ℝ × ℝ => (mobius x.1, ratio2 b.tau0 x)) = l.map mobius := by
          rw [← hb'.points, List.map_map]; rfl
        rw [this] at h2
        exact hmob h2

theorem rbf_one_point_raises (hP : GoodProblem P) {st : Interp.Settings} (hlib : SplineSpec st.spline)
    (hft : st.funcType = 1) {t : ℝ} (ht : 0 < t) : P.create st "rbf" (.list [t]) = .error .valueError := by
  have hl : ∀ s ∈ [t], 0 < s := by simpa using ht
  obtain ⟨b, hb⟩ := base_some hP (ti := .list [t]) (.inl rfl) fun s hs => (hl s hs).le
  have hb' := base_ok hP (.inl rfl) hb
  have hpos : ∀ x ∈ b.nodes, 0 < x.1 := fun x hx => hl _ (by rw [← hb'.points]; exact List.mem_map_of_mem hx)
  have hlen := hb'.length
  rw [create_rbf, hft]
  simp only [Problem.rbf, checkPoints, Points.eqEmpty, List.isEmpty_cons, hb, bind, Except.bind, rbfInit,
    Bool.false_eq_true, if_false]
  rw [if_neg (by simp), if_neg (by push Not; exact hpos), if_pos trivial, hlib.clamped.raises]
  · rfl
  · rintro ⟨h, -⟩
    simp [hlen] at h

/-- C44: the rational polynomials refuse every even number of points when `A` is a multiple of `B`. -/
theorem rpf_affine_raises (hP : GoodProblem P) {c : ℝ} (hc : 0 < c) (hA : P.A = c • P.matB)
    (hS : ComputesSchatten P) (st : Interp.Settings) {l : List ℝ} (hne : l ≠ []) (hl : ∀ t ∈ l, 0 < t)
    (heven : Even l.length) (hn : 0 < n) : P.create st "rpf" (.list l) = .error .linAlgError := by
  classical
  obtain ⟨b, hb⟩ := base_some hP (ti := .list l) (.inl rfl) fun s hs => (hl s hs).le
  have hb' := base_ok hP (.inl rfl) hb
  have hB := posDef_matB hP
  have hevalt : ∀ t, 0 ≤ t → P.eval t = .ok ((c + t) * schattenNorm P.matB P.p) := by
    intro t ht
    unfold Problem.eval
    rw [hA, ← add_smul, hS _ (hB.smul (by linarith)), schattenNorm_smul hB hn (by linarith)]
  have hnb : b.normB = schattenNorm P.matB P.p := by
    cases h : P.B with
    | none =>
      rw [hb'.normB_one h]
      unfold Problem.matB
      rw [h, Option.getD_none, schattenNorm_one hn]
    | some B =>
      have h1 := hb'.normB_eq B h
      rw [hS _ (hP.posB B h)] at h1
      unfold Problem.matB
      rw [h, Option.getD_some]
      exact (by injection h1 : schattenNorm B P.p = b.normB).symm
  have h0 : b.tau0 = c := by
    have h := hb'.zero
    rw [hevalt 0 le_rfl, ← hnb] at h
    have : (c + 0) * b.normB = b.tau0 * b.normB := by injection h
    rw [add_zero] at this
    exact (mul_right_cancel₀ hb'.normB_pos.ne' this).symm
  have hti : ∀ i, b.tau i = c + b.t i := by
    intro i
    have h := hb'.values (b.nodes.get i) (List.get_mem _ _)
    have hp := hl _ (hb'.t_mem i)
    change P.eval (b.t i) = .ok (b.tau i * b.normB) at h
    rw [hevalt _ hp.le, ← hnb] at h
    have : (c + b.t i) * b.normB = b.tau i * b.normB := by injection h
    exact (mul_right_cancel₀ hb'.normB_pos.ne' this).symm
  have hlen := hb'.length
  have hq : 2 * (b.nodes.length / 2) = b.nodes.length := by
    obtain ⟨k, hk⟩ := heven; omega
  have hpos : 1 ≤ b.nodes.length / 2 := by
    have : l.length ≠ 0 := fun h => hne (List.length_eq_zero_iff.1 h)
    omega
  rw [create_rpf]
  simp only [Problem.rpf, Points.toList, bind, Except.bind, if_neg hne, hb, rpfInit]
  rw [dif_pos hq, if_neg (by rw [h0]; exact hc.ne')]
  have hdet : (rpfMatrix (b.nodes.length / 2) b.tau0 (fun i => b.t (i.cast hq)) fun i => b.tau (i.cast hq)).det = 0 := by
    generalize b.nodes.length / 2 = q at *
    refine Matrix.exists_mulVec_eq_zero_iff.1
      ⟨fun j => if (j : ℕ) = 0 then c else if (j : ℕ) = 1 then 1 else 0, ?_, ?_⟩
    · intro h
      have := congrFun h ⟨0, by omega⟩
      simp [hc.ne'] at this
    · funext i
      simp only [mulVec, dotProduct, rpfMatrix, of_apply, Pi.zero_apply]
      rw [Finset.sum_eq_add (⟨0, by omega⟩ : Fin (2 * q)) ⟨1, by omega⟩ (by simp)]
      · simp only [if_true, one_ne_zero, if_false, h0, hti, pow_one]
        rw [if_pos hpos]
        field_simp
        ring
      · rintro j - ⟨hj0, hj1⟩
        have e0 : ¬ (j : ℕ) = 0 := fun h => hj0 (Fin.ext h)
        have e1 : ¬ (j : ℕ) = 1 := fun h => hj1 (Fin.ext h)
        simp [e0, e1]
      · simp
      · simp
  have hsol : solve (rpfMatrix (b.nodes.length / 2) b.tau0 (fun i => b.t (i.cast hq)) fun i => b.tau (i.cast hq))
      (rpfRhs (b.nodes.length / 2) (fun i => b.t (i.cast hq)) fun i => b.tau (i.cast hq)) =
      .error .linAlgError := by
    unfold solve
    rw [if_pos hdet]
  rw [hsol]
  rfl

end Imate.Props
