import Verif.Props.InterpolatorFindings

/-!
# C40 and C44: two interpolants that miss a point, and cases that meet the hypotheses
-/

namespace Imate.Props

open Imate.Spec Imate.Interp Imate.Eigen Matrix Finset

/-- A routine that meets `SplineSpec`: the values at the points, and zero elsewhere. -/
noncomputable def tableFit (pts : List (ℝ × ℝ)) : Except PyExc (ℝ → ℝ) :=
  open Classical in
  if 2 ≤ pts.length ∧ (pts.map Prod.fst).Pairwise (· < ·) then
    .ok fun x => ((pts.find? fun y => decide (y.1 = x)).map Prod.snd).getD 0
  else .error .valueError

theorem tableFit_spec : FitsPoints tableFit where
  through := by
    classical
    intro pts f h x hx
    unfold tableFit at h
    split_ifs at h with hc
    injection h with h
    subst h
    obtain ⟨y, hy⟩ := Option.isSome_iff_exists.1
      (List.find?_isSome (p := fun y : ℝ × ℝ => decide (y.1 = x.1)).2 ⟨x, hx, by simp⟩)
    have h1 : y.1 = x.1 := by simpa using List.find?_some hy
    have hym := List.mem_of_find?_eq_some hy
    have hnd : (pts.map Prod.fst).Nodup := hc.2.imp fun h => ne_of_lt h
    have : y = x := List.inj_on_of_nodup_map hnd hym hx h1
    simp only [hy, Option.map_some, Option.getD_some, this]
  ok := by
    intro pts h1 h2
    exact ⟨_, by unfold tableFit; rw [if_pos ⟨h1, h2⟩]⟩
  raises := by
    intro pts h
    unfold tableFit
    rw [if_neg h]

/-- Settings with the given options. -/
noncomputable def exampleSettings (lib : Eigen.Lib) (basis : Basis) (funcType : ℤ) (scale : Option ℝ) :
    Interp.Settings := ⟨numpyOld, ⟨tableFit, tableFit⟩, lib, 1, basis, funcType, scale, 1⟩

theorem exampleSettings_spline (lib : Eigen.Lib) (basis : Basis) (funcType : ℤ) (scale : Option ℝ) :
    SplineSpec (exampleSettings lib basis funcType scale).spline := ⟨tableFit_spec, tableFit_spec⟩

theorem exampleSettings_numpy (lib : Eigen.Lib) (basis : Basis) (funcType : ℤ) (scale : Option ℝ) :
    NumpySpec (exampleSettings lib basis funcType scale).np := by
  intro l h
  simp [exampleSettings, numpyOld] at h

theorem numpy125_spec : NumpySpec numpy125 := by
  intro l h
  unfold numpy125 at h
  simp only at h
  split_ifs at h
  simp at h

theorem diagProblem_good (p : ℝ) (sparse : Bool) : GoodProblem (diagProblem p sparse) :=
  goodProblem_of (by norm_num) (diagProblem_pos _ _) (diagProblem_B _ _) (diagProblem_schatten _ _)

theorem diagProblem_eval_two (sparse : Bool) (t : ℝ) :
    (diagProblem 2 sparse).eval t = .ok (Real.sqrt (17 / 2 + 5 * t + t ^ 2)) := by
  unfold Problem.eval
  rw [diagProblem_affine]
  change Except.ok (schattenNorm _ 2) = _
  rw [schattenNorm_two (isHermitian_diagonal _), diagonal_mul_diagonal, trace_diagonal]
  congr 2
  simp only [Fin.sum_univ_two, cons_val_zero, cons_val_one]
  push_cast
  ring

/-- The base of `diag(1, 4)` with `p = 2`. -/
theorem diagProblem_base {sparse : Bool} {l : List ℝ} {b : Base} (hb : BaseOf (diagProblem 2 sparse) l b) :
    b.normB = 1 ∧ b.tau0 = Real.sqrt (17 / 2) ∧ b.nodes = l.map fun t => (t, Real.sqrt (17 / 2 + 5 * t + t ^ 2)) := by
  have h1 : b.normB = 1 := hb.normB_one rfl
  have h0 := hb.zero
  rw [diagProblem_eval_two, h1] at h0
  have h0' : Real.sqrt (17 / 2 + 5 * 0 + 0 ^ 2) = b.tau0 * 1 := by injection h0
  refine ⟨h1, by rw [← mul_one b.tau0, ← h0']; norm_num, ?_⟩
  rw [← hb.points, List.map_map]
  conv_lhs => rw [← List.map_id b.nodes]
  refine List.map_congr_left fun x hx => ?_
  have := hb.values x hx
  rw [diagProblem_eval_two, h1, mul_one] at this
  have e : Real.sqrt (17 / 2 + 5 * x.1 + x.1 ^ 2) = x.2 := by injection this
  simp only [id, Function.comp, e]

/-- The norm of `diag(1, 4) + t I` is below its bound. -/
theorem diagProblem_below {t : ℝ} (ht : 0 < t) :
    Real.sqrt (17 / 2 + 5 * t + t ^ 2) < Real.sqrt (17 / 2) + t := by
  rw [Real.sqrt_lt' (by positivity)]
  have h := Real.sq_sqrt (show (0 : ℝ) ≤ 17 / 2 by norm_num)
  have h2 : (5 / 2 : ℝ) < Real.sqrt (17 / 2) := Real.lt_sqrt_of_sq_lt (by norm_num)
  nlinarith

theorem crf_two_points {pts : List (ℝ × ℝ)} {y : ℝ} (hp : pts = [(-1, 0), (1 / 2, y)]) {w : Fin pts.length → ℝ}
    (h : solve (crfMatrix pts) (fun i => (pts.get i).2) = .ok w) : ∑ j, w j * crfFun j 2 = -4 * y := by
  subst hp
  have e0 := solve_ok h (0 : Fin 2)
  have e1 := solve_ok h (1 : Fin 2)
  have c0 : ∀ x, crfFun 0 x = (1 - x) / 2 := fun x => by
    simp only [crfFun, chebyt, zero_add]
    rw [Nat.cast_one, Polynomial.Chebyshev.T_one, Polynomial.eval_X]; ring
  have c1 : ∀ x, crfFun 1 x = 1 - x ^ 2 := fun x => by
    simp only [crfFun, chebyt]
    rw [show ((1 + 1 : ℕ) : ℤ) = 2 by norm_num, Polynomial.Chebyshev.T_two]
    simp only [Polynomial.eval_sub, Polynomial.eval_mul, Polynomial.eval_pow, Polynomial.eval_X, Polynomial.eval_one,
      Polynomial.eval_ofNat]
    ring
  have s0 : ∑ j : Fin 2, w j * crfFun (j : ℕ) (-1) = 0 := e0
  have s1 : ∑ j : Fin 2, w j * crfFun (j : ℕ) (1 / 2) = y := e1
  change ∑ j : Fin 2, w j * crfFun (j : ℕ) 2 = -4 * y
  rw [Fin.sum_univ_two] at s0 s1 ⊢
  simp only [Fin.val_zero, Fin.val_one, c0, c1] at s0 s1 ⊢
  linarith

/-- C40: with a negative `scale`, which the constructor accepts, the Chebyshev interpolant misses its own point. -/
theorem crf_negative_scale (lib : Eigen.Lib) : ∃ f s x,
    (diagProblem 2 false).create (exampleSettings lib .nonOrtho 1 (some (-1))) "crf" (.list [3]) = .ok f ∧
      (diagProblem 2 false).eval 3 = .ok s ∧ (diagProblem 2 false).interpolate f 3 = .ok (some x) ∧ s < x := by
  set P := diagProblem 2 false with hPdef
  have hP : GoodProblem P := diagProblem_good _ _
  obtain ⟨b, hb⟩ := base_some hP (ti := .list [3]) (.inl rfl) (by simp)
  have hb' := base_ok hP (.inl rfl) hb
  obtain ⟨hn, h0, hnodes⟩ := diagProblem_base hb'
  simp only [List.map_cons, List.map_nil] at hnodes
  set v := Real.sqrt (17 / 2 + 5 * 3 + 3 ^ 2) with hv
  have hlt : v < b.tau0 + 3 := by rw [h0]; exact diagProblem_below (by norm_num)
  have h0pos := hb'.tau0_pos
  have hpts : crfPoints 1 (-1) b = [(-1, 0), (1 / 2, v / (b.tau0 + 3) - 1)] := by
    simp only [crfPoints, hnodes, List.map_cons, List.map_nil, if_true, ratio1, mobius]
    norm_num
  have hfin : ¬ crfNonFinite 1 (-1) b := by
    unfold crfNonFinite
    rw [hnodes]
    simp only [List.mem_singleton, exists_eq_left, if_true]
    norm_num
    linarith
  have hdet : (crfMatrix (crfPoints 1 (-1) b)).det ≠ 0 := by
    refine crfMatrix_det ?_ ?_
    · rw [hpts]; norm_num
    · rw [hpts]; intro x hx
      simp only [List.mem_cons, List.not_mem_nil, or_false] at hx
      rcases hx with rfl | rfl <;> norm_num
  obtain ⟨w, hw⟩ := solve_some hdet fun i => ((crfPoints 1 (-1) b).get i).2
  have hinit : crfInit 1 (some (-1)) 1 b = .ok ⟨b, 1, -1, _, some w⟩ := by
    unfold crfInit
    simp only [Option.getD_some]
    rw [if_neg (by simp), if_neg hfin, hw]
    rfl
  refine ⟨.crf ⟨b, 1, -1, _, some w⟩, v, (-4 * (v / (b.tau0 + 3) - 1) + 1) * (b.tau0 + 3), ?_,
    diagProblem_eval_two _ _, ?_, ?_⟩
  · rw [create_crf]
    simp only [exampleSettings, Problem.crf, crfPointsArg, Points.eqEmpty, List.isEmpty_cons, hb, bind, Except.bind,
      Bool.false_eq_true, if_false, hinit]
    rfl
  · simp only [Problem.interpolate, Crf.interpolate, Crf.y, if_true]
    rw [if_neg (by norm_num), Option.map_some, Option.map_some, hb'.finish_eq, hn, mul_one]
    rw [show mobius (3 / -1) = 2 by norm_num [mobius], crf_two_points hpts hw]
  · have : (-4 * (v / (b.tau0 + 3) - 1) + 1) * (b.tau0 + 3) = 5 * (b.tau0 + 3) - 4 * v := by
      field_simp
      ring
    rw [this]
    linarith

/-- C40: points that do not increase are accepted by the Gaussian radial functions, and the interpolant is cut off at
one of them. -/
theorem rbf_cuts_off_point (lib : Eigen.Lib) : ∃ f s x,
    (diagProblem 2 false).create (exampleSettings lib .nonOrtho 2 none) "rbf" (.list [1, 10, 100, 1 / 100000]) =
        .ok f ∧
      (diagProblem 2 false).eval (1 / 100000) = .ok s ∧
      (diagProblem 2 false).interpolate f (1 / 100000) = .ok (some x) ∧ s < x := by
  set P := diagProblem 2 false with hPdef
  have hP : GoodProblem P := diagProblem_good _ _
  have hlpos : ∀ t ∈ [(1 : ℝ), 10, 100, 1 / 100000], 0 < t := by
    intro t ht
    simp only [List.mem_cons, List.not_mem_nil, or_false] at ht
    rcases ht with rfl | rfl | rfl | rfl <;> norm_num
  obtain ⟨b, hb⟩ := base_some hP (ti := .list [1, 10, 100, 1 / 100000]) (.inl rfl) fun t ht => (hlpos t ht).le
  have hb' := base_ok hP (.inl rfl) hb
  obtain ⟨hn, h0, -⟩ := diagProblem_base hb'
  have h0pos := hb'.tau0_pos
  have l1 : Real.logb 10 1 = 0 := Real.logb_one
  have l10 : Real.logb 10 10 = 1 := Real.logb_self_eq_one (by norm_num)
  have l100 : Real.logb 10 100 = 2 := by
    rw [show (100 : ℝ) = 10 ^ (2 : ℝ) by norm_num, Real.logb_rpow (by norm_num) (by norm_num)]
  have l5 : Real.logb 10 (1 / 100000) = -5 := by
    rw [show (1 / 100000 : ℝ) = 10 ^ (-5 : ℝ) by
      rw [Real.rpow_neg (by norm_num)]; norm_num, Real.logb_rpow (by norm_num) (by norm_num)]
  have hx : b.nodes.map (fun x => Real.logb 10 x.1) = [0, 1, 2, -5] := by
    rw [show b.nodes.map (fun x => Real.logb 10 x.1) = (b.nodes.map Prod.fst).map (Real.logb 10) by
      rw [List.map_map]; rfl, hb'.points]
    simp only [List.map_cons, List.map_nil, l1, l10, l100, l5]
  have hstep : rbfStep [0, 1, 2, -5] = -5 / 3 := by norm_num [rbfStep, meanDiff]
  have hlow : rbfLow [0, 1, 2, -5] = -10 / 3 := by
    have : listMin [(0 : ℝ), 1, 2, -5] = -5 := by norm_num [listMin]
    rw [rbfLow, this, hstep]; norm_num
  have hhigh : rbfHigh [0, 1, 2, -5] = 3.5 := by
    have : listMax [(0 : ℝ), 1, 2, -5] = 2 := by norm_num [listMax]
    rw [rbfHigh, this]; norm_num
  have hfst : (rbfExtend (-10 / 3) 3.5 (-5 / 3) (b.nodes.map fun x => (Real.logb 10 x.1, ratio1 b.tau0 x))).map
      Prod.fst = [-5 / 3, -5 / 2, -10 / 3, 0, 1, 2, -5, 3.5, 8 / 3, 11 / 6] := by
    simp only [rbfExtend, List.map_append, List.map_map, Function.comp_def, hx]
    norm_num
  obtain ⟨g, hg⟩ := rbfFit_some (pts := rbfExtend (-10 / 3) 3.5 (-5 / 3)
    (b.nodes.map fun x => (Real.logb 10 x.1, ratio1 b.tau0 x))) (eps := -5 / 3) (by norm_num)
    (by rw [hfst]; norm_num)
  have hpos : ∀ x ∈ b.nodes, 0 < x.1 := fun x hx => hlpos _ (by rw [← hb'.points]; exact List.mem_map_of_mem hx)
  have hinit : ∀ slib, rbfInit slib 2 b = .ok ⟨b, 2, g, -10 / 3, 3.5⟩ := by
    intro slib
    unfold rbfInit
    simp only
    rw [if_neg (by simp), if_neg (by push Not; exact hpos), if_neg (by norm_num), if_neg (by
      push Not; exact fun x hx => by have := hpos x hx; linarith), hx, hstep, hlow, hhigh, hg]
    rfl
  refine ⟨.rbf ⟨b, 2, g, -10 / 3, 3.5⟩, _, b.tau0 + 1 / 100000, ?_, diagProblem_eval_two _ _, ?_, ?_⟩
  · rw [create_rbf]
    simp only [exampleSettings, Problem.rbf, checkPoints, Points.eqEmpty, List.isEmpty_cons, hb, bind, Except.bind,
      Bool.false_eq_true, if_false, hinit]
    rfl
  · simp only [Problem.interpolate, Fitted.rbf, Fitted.rbfY]
    rw [if_neg (by norm_num), if_pos trivial, if_neg (by norm_num), if_neg (by norm_num), if_pos (by
      left; rw [l5]; norm_num), Option.map_some, hb'.finish_eq, hn]
    norm_num
  · rw [h0]; exact diagProblem_below (by norm_num)

/-! ### The hypotheses are met -/

/-- Three points with the default method. -/
example (lib : Eigen.Lib) : ∃ f, (diagProblem 3 false).create (exampleSettings lib .ortho2 1 none) "IMBF"
    (.list [1, 2, 5]) = .ok f ∧ (∀ t ∈ [(1 : ℝ), 2, 5], ExactAt (diagProblem 3 false) f t) := by
  have hk : ("IMBF" : String).toLower = "imbf" := by decide +kernel
  have hl : ∀ t ∈ [(1 : ℝ), 2, 5], 0 < t := by simp
  obtain ⟨f, hf⟩ := increasing_points_accepted_partial (diagProblem_good 3 false)
    (exampleSettings_spline lib .ortho2 1 none) (kind := "IMBF") (l := [1, 2, 5]) (by simp) hl (by norm_num)
    (.inr (.inr (.inl ⟨hk, by simp [exampleSettings], by simp [exampleSettings]⟩)))
  refine ⟨f, hf, (interpolant_honours_data_partial (diagProblem_good 3 false)
    (exampleSettings_spline lib .ortho2 1 none) (exampleSettings_numpy lib .ortho2 1 none) (.inl rfl) hl ?_ ?_ hf).1⟩
  · exact ⟨fun _ => by simp [exampleSettings], fun _ => by simp [exampleSettings], fun h => by
      rw [hk] at h; exact absurd h (by decide +kernel)⟩
  · rw [hk]; decide +kernel

/-- Two points with a spline. -/
example (lib : Eigen.Lib) : ∃ f, (diagProblem (-1) true).create (exampleSettings lib .ortho2 2 none) "spl"
    (.list [1, 2]) = .ok f ∧ ExactAt (diagProblem (-1) true) f 0 := by
  have hk : ("spl" : String).toLower = "spl" := by decide +kernel
  have hl : ∀ t ∈ [(1 : ℝ), 2], 0 < t := by simp
  obtain ⟨f, hf⟩ := increasing_points_accepted_partial (diagProblem_good (-1) true)
    (exampleSettings_spline lib .ortho2 2 none) (kind := "spl") (l := [1, 2]) (by simp) hl (by norm_num)
    (.inr (.inr (.inr (.inr (.inr ⟨hk, .inr rfl⟩)))))
  refine ⟨f, hf, ?_⟩
  rcases (interpolant_honours_data_partial (diagProblem_good (-1) true)
    (exampleSettings_spline lib .ortho2 2 none) (exampleSettings_numpy lib .ortho2 2 none) (.inl rfl) hl
    ⟨fun h => by rw [hk] at h; exact absurd h (by decide +kernel), fun h => by
      rw [hk] at h; exact absurd h (by decide +kernel), fun h => by rw [hk] at h; exact absurd h (by decide +kernel)⟩
    (by rw [hk]; decide +kernel) hf).2 with h | ⟨h, -⟩
  · exact h
  · rw [hk] at h; exact absurd h (by decide +kernel)

example (lib : Eigen.Lib) : ∃ l f, chebyshevRationalRoots 4 = .ok l ∧ l.length = (4 : ℤ) ∧ l.Pairwise (· < ·) ∧
    (∀ t ∈ l, 0 < t) ∧
      (diagProblem 3 false).create (exampleSettings lib .ortho2 1 (some 2)) "crf" (.int 4) = .ok f ∧
      (∀ t ∈ l, ExactAt (diagProblem 3 false) f t) ∧ ExactAt (diagProblem 3 false) f 0 :=
  crf_integer_points (diagProblem_good _ _) (by norm_num) (.inl rfl) (by simp [exampleSettings])

example (lib : Eigen.Lib) : (diagProblem 3 false).create (exampleSettings lib .ortho2 1 none) "imbf" (.float 1) =
    .error .typeError :=
  (single_number_raises (diagProblem_good _ _) _ 1).1 "imbf" (by simp)

example (lib : Eigen.Lib) : (diagProblem 3 false).create (exampleSettings lib .ortho2 1 none) "imbf"
    (.list (List.replicate 10 1)) = .error .typeError :=
  (imbf_many_points_raise (diagProblem_good _ _) (by simp)).2 (.inr rfl) (by simp)

example (lib : Eigen.Lib) : (diagProblem 3 false).create (exampleSettings lib .ortho2 1 none) "spl"
    (.list [2, 1]) = .error .valueError :=
  (unsorted_points_raise (diagProblem_good _ _) (exampleSettings_spline lib .ortho2 1 none) (by simp) (by simp)
    (by norm_num)).2 (.inl rfl)

example (st : Interp.Settings) :
    (⟨(2 : ℝ) • 1, none, false, 3, fun M => .ok (schattenNorm M 3)⟩ : Problem 2).create st "rpf" (.list [1, 2, 3, 5]) =
      .error .linAlgError :=
  have hA : ((2 : ℝ) • (1 : Matrix (Fin 2) (Fin 2) ℝ)).PosDef := PosDef.one.smul (by norm_num)
  rpf_affine_raises (goodProblem_of (by norm_num) hA (by intro B h; cases h) fun _ _ => rfl) (c := 2) (by norm_num) rfl
    (fun _ _ => rfl) st (by simp) (by simp) ⟨2, rfl⟩ (by norm_num)

example (lib : Eigen.Lib) : (diagProblem 3 false).create (exampleSettings lib .ortho2 1 none) "rbf"
    (.list [3]) = .error .valueError :=
  rbf_one_point_raises (diagProblem_good _ _) (exampleSettings_spline lib .ortho2 1 none) rfl (by norm_num)

example (lib : Eigen.Lib) : ∃ f, (diagProblem 3 false).create (exampleSettings lib .other 1 none) "imbf"
    (.list [3]) = .ok f ∧ ∀ t, (diagProblem 3 false).interpolate f t = .error .unboundLocal :=
  imbf_unknown_basis (diagProblem_good _ _) rfl (by simp) (by simp)

end Imate.Props
