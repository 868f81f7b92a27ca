import Verif.Props.InterpPlot
import Verif.Props.InterpolatorCases

/-! C90: concrete plots. -/

namespace Imate.Props

open Imate.Spec Imate.Interp Matrix

namespace InterpPlot

/-- The one-by-one matrices `(a)` and `(b)` and `p = 1`. -/
noncomputable def scalarProblem (a b : ℝ) : Problem 1 :=
  ⟨diagonal fun _ => a, some (diagonal fun _ => b), false, 1, fun M => .ok (schattenNorm M 1)⟩

theorem scalar_norm {x : ℝ} (hx : 0 < x) : schattenNorm (diagonal fun _ : Fin 1 => x) 1 = x := by
  rw [schattenNorm_diagonal one_ne_zero]
  simp [abs_of_pos hx]

theorem scalar_affine (a b t : ℝ) :
    (scalarProblem a b).A + t • (scalarProblem a b).matB = diagonal fun _ => a + t * b := by
  ext i j
  fin_cases i; fin_cases j
  simp [scalarProblem, Problem.matB]

theorem scalar_problem {a b : ℝ} (ha : 0 < a) (hb : 0 < b) : PlotProblem (scalarProblem a b) where
  size := one_pos
  posA := Interp.posDef_diagonal fun _ => ha
  posB := by
    intro B h
    have : (diagonal fun _ : Fin 1 => b) = B := by simpa [scalarProblem] using h
    rw [← this]; exact Interp.posDef_diagonal fun _ => hb
  schatten := fun _ _ => rfl

theorem scalar_value {a b t : ℝ} (ha : 0 < a) (hb : 0 < b) (ht : 0 ≤ t) :
    schattenNorm ((scalarProblem a b).A + t • (scalarProblem a b).matB) 1 = a + t * b := by
  rw [scalar_affine, scalar_norm (by positivity)]

theorem scalar_trace {a b t : ℝ} (ha : 0 < a) (hb : 0 < b) (ht : 0 ≤ t) :
    ofNorm .trace 1 1 (a + t * b) = a + t * b := by
  simp [ofNorm]

theorem ext_constructed (lib : Eigen.Lib) {n : ℕ} (P : Problem n) : Constructed P .ext :=
  ⟨exampleSettings lib .nonOrtho 1 none, "ext", .list [], [], .inl rfl, by
    unfold Problem.create
    rw [if_pos (by decide +kernel)]⟩

theorem scalar_ext {a b : ℝ} (ha : 0 < a) (hb : 0 < b) {t : ℝ} (ht : 0 ≤ t) :
    0 < a + t * b ∧ (scalarProblem a b).interpolate .ext t = .ok (some (a + t * b)) := by
  refine ⟨by positivity, ?_⟩
  simp only [Problem.interpolate, Problem.eval]
  rw [show (scalarProblem a b).norm ((scalarProblem a b).A + t • (scalarProblem a b).matB) =
    .ok (schattenNorm ((scalarProblem a b).A + t • (scalarProblem a b).matB) 1) from rfl, scalar_value ha hb ht]
  rfl

theorem sqrt_ten_gt : (3 : ℝ) < Real.sqrt 10 := Real.lt_sqrt_of_sq_lt (by norm_num)

/-- `1 + t` at `t = 4, 10`: the value 11 is above the top of the plot of the norm. -/
theorem schatten_plot_hides_example (lib : Eigen.Lib) :
    ∃ F, (scalarProblem 1 1).plot .schatten .ext (.array [4, 10]) false false = .ok F ∧ (10, some 11) ∈ F.curve ∧
      Hidden F.limits 11 := by
  have hP := scalar_problem one_pos one_pos
  have hf := ext_constructed lib (scalarProblem 1 1)
  have hk : PlotsFunction .schatten .ext := fun _ => ⟨fun _ => by simp, fun _ => by simp⟩
  have hl : ∀ t ∈ [(4 : ℝ), 10], 0 ≤ t := by simp
  have hti : ∀ t ∈ Interpolator.ext.ti, (0 : ℝ) ≤ t := by simp [Interpolator.ti, Interpolator.base]
  have hv : ∀ t ∈ [(4 : ℝ), 10], 0 < 1 + t * 1 ∧ (scalarProblem 1 1).interpolate .ext t = .ok (some (1 + t * 1)) :=
    fun t ht => scalar_ext one_pos one_pos (hl t ht)
  obtain ⟨F, hF⟩ := (plot_works_iff_partial hP (q := .schatten) trivial hf hk (by simp) hl hti hv false false).1
    (by simp)
  obtain ⟨-, hc, -, -⟩ := plot_shows_function hP (q := .schatten) trivial hf hk hl hti hv hF
  have hc' : F.curve = [(4, some 5), (10, some 11)] := by
    rw [hc]; norm_num [normalized, ofNorm]
  refine ⟨F, hF, by rw [hc']; simp, ?_⟩
  refine schatten_plot_hides_largest hP hf hk hl hti hv hF (k := 1) (s := 4) (y := 5) (t := 10) (z := 11)
    (by rw [hc']; simp) (by rw [hc']; simp) (by norm_num) (by norm_num) (by
      have := sqrt_ten_gt
      norm_num; linarith) ?_
  intro r x hx
  rw [hc'] at hx
  simp only [List.mem_cons, Prod.mk.injEq, Option.some.injEq, List.not_mem_nil, or_false] at hx
  rcases hx with ⟨-, rfl⟩ | ⟨-, rfl⟩ <;> norm_num

/-- `1 + t` at `t = 3, 89`: the value 4 is below the bottom of the plot of the trace. -/
theorem trace_plot_hides_example (lib : Eigen.Lib) :
    ∃ F, (scalarProblem 1 1).plot .trace .ext (.array [3, 89]) false false = .ok F ∧ (3, some 4) ∈ F.curve ∧
      Hidden F.limits 4 := by
  have hP := scalar_problem one_pos one_pos
  have hp : OrderOf .trace (scalarProblem 1 1).p := one_ne_zero
  have hf := ext_constructed lib (scalarProblem 1 1)
  have hk : PlotsFunction .trace .ext := fun h => by cases h
  have hl : ∀ t ∈ [(3 : ℝ), 89], 0 ≤ t := by simp
  have hti : ∀ t ∈ Interpolator.ext.ti, (0 : ℝ) ≤ t := by simp [Interpolator.ti, Interpolator.base]
  have hv : ∀ t ∈ [(3 : ℝ), 89], 0 < 1 + t * 1 ∧ (scalarProblem 1 1).interpolate .ext t = .ok (some (1 + t * 1)) :=
    fun t ht => scalar_ext one_pos one_pos (hl t ht)
  obtain ⟨F, hF⟩ := (plot_works_iff_partial hP (q := .trace) hp hf hk (by simp) hl hti hv false false).1
    (by simp)
  obtain ⟨-, hc, -, -⟩ := plot_shows_function hP (q := .trace) hp hf hk hl hti hv hF
  have hc' : F.curve = [(3, some 4), (89, some 90)] := by
    rw [hc]
    have : (scalarProblem 1 1).p = 1 := rfl
    rw [this]
    norm_num [normalized, ofNorm]
  refine ⟨F, hF, by rw [hc']; simp, ?_⟩
  refine trace_plot_hides_smallest hP hp hf hl hti hv hF (k := 1) (s := 3) (y := 4) (t := 89) (z := 90)
    (by rw [hc']; simp) (by rw [hc']; simp) (by norm_num) (by norm_num) (by
      have := sqrt_ten_gt
      norm_num; linarith) ?_
  intro r x hx
  rw [hc'] at hx
  simp only [List.mem_cons, Prod.mk.injEq, Option.some.injEq, List.not_mem_nil, or_false] at hx
  rcases hx with ⟨-, rfl⟩ | ⟨-, rfl⟩ <;> norm_num

/-- `A = (1)`, `B = (2)`, kind `crf` with the point 1: the plot with `normalize=False` shows a curve that is nowhere the
documented one. -/
theorem finite_plot_unnormalized_example (lib : Eigen.Lib) :
    ∃ f, (scalarProblem 1 2).create (exampleSettings lib .nonOrtho 1 (some 1)) "crf" (.list [1]) = .ok f ∧
      ∃ F, (scalarProblem 1 2).plot .schatten f (.array [0, 1]) false true = .ok F ∧
      ∃ y : ℝ → ℝ, F.exact = some ([0, 1].map fun t => ((t - 1) / (t + 1), some (y t))) ∧ ∀ t ∈ [(0 : ℝ), 1],
        ∀ nm : Bool, y t ≠ exactCurve .schatten (scalarProblem 1 2) nm t /
          (exactCurve .schatten (scalarProblem 1 2) nm 0 + t) - 1 := by
  have hP := scalar_problem (a := 1) (b := 2) one_pos two_pos
  obtain ⟨f, hf⟩ := increasing_points_accepted_partial hP.good (st := exampleSettings lib .nonOrtho 1 (some 1))
    (exampleSettings_spline _ _ _ _) (kind := "crf") (l := [1]) (by simp) (by simp) (by simp)
    (.inr (.inr (.inr (.inr (.inl ⟨by decide +kernel, .inl rfl⟩)))))
  have hex := interpolant_honours_data_partial hP.good (exampleSettings_spline _ _ _ _)
    (exampleSettings_numpy lib .nonOrtho 1 (some 1)) (.inl rfl) (l := [1]) (by simp)
    ⟨fun h => absurd h (by decide +kernel), fun _ => by simp [exampleSettings], fun h => absurd h (by decide +kernel)⟩
    (by decide +kernel) hf
  have hcon : Constructed (scalarProblem 1 2) f := ⟨_, _, _, _, .inl rfl, hf⟩
  have hcrf : finiteKind f = some (1, 1) ∧ f.ti = [1] := by
    have hf' := hf
    unfold Problem.create at hf'
    rw [if_neg (by decide +kernel), if_neg (by decide +kernel), if_neg (by decide +kernel), if_neg (by decide +kernel),
      if_neg (by decide +kernel), if_pos (by decide +kernel)] at hf'
    obtain ⟨m, hm, rfl⟩ := map_inv hf'
    obtain ⟨l, hb⟩ := constructed_base hP.good hcon m.base rfl
    unfold Problem.crf at hm
    obtain ⟨ti', ht', hm1⟩ := bind_inv hm
    obtain ⟨b, hb', hm2⟩ := bind_inv hm1
    have ht : ti' = .list [1] := by
      simpa [crfPointsArg, Points.eqEmpty, bind, Except.bind] using ht'.symm
    subst ht
    obtain ⟨e1, e2, -⟩ := crfInit_base hm2
    have hsc : m.scale = 1 := by
      unfold crfInit at hm2
      simp only at hm2
      split_ifs at hm2
      · injection hm2 with hm2; rw [← hm2]; rfl
      · obtain ⟨w, -, hm3⟩ := bind_inv hm2
        injection hm3 with hm3; rw [← hm3]; rfl
    refine ⟨by simp only [finiteKind, e2, hsc]; rfl, ?_⟩
    simp only [Interpolator.ti, Interpolator.base, e1]
    exact (base_ok hP.good (.inl rfl) hb').points
  have hval : ∀ t ∈ [(0 : ℝ), 1], 0 < 1 + t * 2 ∧ (scalarProblem 1 2).interpolate f t = .ok (some (1 + t * 2)) := by
    have key : ∀ t, 0 ≤ t → ExactAt (scalarProblem 1 2) f t →
        0 < 1 + t * 2 ∧ (scalarProblem 1 2).interpolate f t = .ok (some (1 + t * 2)) := by
      rintro t ht ⟨s, hs, hs'⟩
      have : (scalarProblem 1 2).eval t = .ok (1 + t * 2) := by
        unfold Problem.eval
        rw [show (scalarProblem 1 2).norm ((scalarProblem 1 2).A + t • (scalarProblem 1 2).matB) =
          .ok (schattenNorm ((scalarProblem 1 2).A + t • (scalarProblem 1 2).matB) 1) from rfl,
          scalar_value one_pos two_pos ht]
      rw [hs] at this
      injection this with this
      exact ⟨by positivity, by rw [hs', this]⟩
    intro t ht
    simp only [List.mem_cons, List.not_mem_nil, or_false] at ht
    rcases ht with rfl | rfl
    · refine key 0 le_rfl ?_
      rcases hex.2 with h | ⟨h, -⟩
      · exact h
      · exact absurd h (by decide +kernel)
    · exact key 1 zero_le_one (hex.1 1 (by simp))
  have hl : ∀ t ∈ [(0 : ℝ), 1], 0 ≤ t := by simp
  have hti : ∀ t ∈ f.ti, (0 : ℝ) ≤ t := by rw [hcrf.2]; simp
  obtain ⟨F, hF⟩ := (finite_plot_works_iff_partial hP hcon hcrf.1 (by simp) hl hti hval false true).1 (by
    intro _ t ht
    have : (scalarProblem 1 2).p = 1 := rfl
    rw [this, scalar_value one_pos two_pos (hl t ht)]
    linarith [hl t ht])
  refine ⟨f, hf, F, hF, ?_⟩
  refine finite_plot_unnormalized_wrong hP hcon hcrf.1 one_pos hl hti hval ?_ hF
  have : schattenNorm (scalarProblem 1 2).matB (scalarProblem 1 2).p = 2 := scalar_norm two_pos
  rw [this]; norm_num

/-- The matrix `diag(1/99, 1)`, `B = None` and `p = -1`. -/
noncomputable def smallProblem : Problem 2 :=
  ⟨diagonal ![1 / 99, 1], none, false, -1, fun M => .ok (schattenNorm M (-1))⟩

theorem small_problem : PlotProblem smallProblem where
  size := two_pos
  posA := Interp.posDef_diagonal fun i => by fin_cases i <;> simp
  posB := by intro B h; cases h
  schatten := fun _ _ => rfl

theorem small_affine (t : ℝ) : smallProblem.A + t • smallProblem.matB = diagonal ![1 / 99 + t, 1 + t] := by
  ext i j
  fin_cases i <;> fin_cases j <;> simp [smallProblem, Problem.matB]

theorem small_value {t : ℝ} (ht : 0 ≤ t) :
    schattenNorm (smallProblem.A + t • smallProblem.matB) (-1) = 2 / (1 / (1 / 99 + t) + 1 / (1 + t)) := by
  rw [small_affine, schattenNorm_diagonal (by norm_num)]
  simp only [Fin.sum_univ_two, cons_val_zero, cons_val_one, Real.rpow_neg_one]
  have h1 : (0 : ℝ) < 1 / 99 + t := by positivity
  have h2 : (0 : ℝ) < 1 + t := by positivity
  have h3 : 0 < ((1 / 99 + t)⁻¹ + (1 + t)⁻¹) / ((2 : ℕ) : ℝ) := by positivity
  rw [abs_of_pos h3, show (1 : ℝ) / -1 = -1 by norm_num, Real.rpow_neg_one, inv_div, one_div (1 / 99 + t),
    one_div (1 + t)]
  norm_num

/-- With an interpolation from one point, `plot(compare=True)` raises `ValueError`: the error at `t = 1/99` is more than
100 percent. -/
theorem compare_plot_fails_example (lib : Eigen.Lib) (nm : Bool) :
    ∃ f, smallProblem.create (exampleSettings lib .nonOrtho 1 none) "mbf" (.list [1]) = .ok f ∧
      (∃ F, smallProblem.plot .schatten f (.array [1 / 99, 1]) nm false = .ok F) ∧
      smallProblem.plot .schatten f (.array [1 / 99, 1]) nm true = .error .valueError := by
  have hP := small_problem
  have hp : smallProblem.p = -1 := rfl
  obtain ⟨f, hf⟩ := increasing_points_accepted_partial hP.good (st := exampleSettings lib .nonOrtho 1 none)
    (exampleSettings_spline _ _ _ _) (kind := "mbf") (l := [1]) (by simp) (by simp) (by simp)
    (.inr (.inl ⟨by decide +kernel, rfl⟩))
  have hcon : Constructed smallProblem f := ⟨_, _, _, _, .inl rfl, hf⟩
  have hf' := hf
  unfold Problem.create at hf'
  rw [if_neg (by decide +kernel), if_neg (by decide +kernel), if_pos (by decide +kernel)] at hf'
  obtain ⟨m, hm, rfl⟩ := map_inv hf'
  obtain ⟨b, s, t1, hb, ht1, hs, rfl⟩ := base_mbf (.inl rfl) hm
  have hb := base_ok hP.good (.inl rfl) hb
  have ht : t1 = 1 := by
    rcases mbfPoint_inv (exampleSettings_numpy lib .nonOrtho 1 none) (.inl rfl) ht1 with ⟨h, -⟩ | h
    · simp at h
    · simpa using h.symm
  subst ht
  have hnb : b.normB = 1 := hb.normB_one rfl
  have htau : b.tau0 = 1 / 50 := by
    have h := hb.zero
    unfold Problem.eval at h
    rw [show smallProblem.norm (smallProblem.A + (0 : ℝ) • smallProblem.matB) =
      .ok (schattenNorm (smallProblem.A + (0 : ℝ) • smallProblem.matB) (-1)) from rfl, small_value le_rfl] at h
    injection h with h
    rw [hnb] at h
    norm_num at h
    rw [← h]
  have hs1 : s = 200 / 149 := by
    unfold Problem.eval at hs
    rw [show smallProblem.norm (smallProblem.A + (1 : ℝ) • smallProblem.matB) =
      .ok (schattenNorm (smallProblem.A + (1 : ℝ) • smallProblem.matB) (-1)) from rfl, small_value zero_le_one] at hs
    injection hs with hs
    rw [← hs]; norm_num
  set v : ℝ → ℝ := fun t => Real.sqrt (t ^ 2 + ((200 / 149) ^ 2 - (1 / 50) ^ 2 - 1) * t + (1 / 50) ^ 2) with hvdef
  have hl : ∀ t ∈ [(1 / 99 : ℝ), 1], 0 ≤ t := by
    intro t ht
    simp only [List.mem_cons, List.not_mem_nil, or_false] at ht
    rcases ht with rfl | rfl <;> norm_num
  have hv : ∀ t ∈ [(1 / 99 : ℝ), 1], 0 < v t ∧
      smallProblem.interpolate (.mbf ⟨b, 1, s / b.normB⟩) t = .ok (some (v t)) := by
    intro t ht
    have h0 := hl t ht
    have hpos : 0 < t ^ 2 + ((200 / 149) ^ 2 - (1 / 50) ^ 2 - 1) * t + (1 / 50 : ℝ) ^ 2 := by
      have : (0 : ℝ) ≤ ((200 / 149) ^ 2 - (1 / 50) ^ 2 - 1) * t := mul_nonneg (by norm_num) h0
      positivity
    refine ⟨Real.sqrt_pos.2 hpos, ?_⟩
    simp only [Problem.interpolate, Mbf.interpolate, Base.finish, hnb, htau, hs1, one_ne_zero, if_false, div_one,
      mul_one, one_pow]
    rw [if_neg (not_lt.2 hpos.le)]
    rfl
  have hk : PlotsFunction .schatten (.mbf ⟨b, 1, s / b.normB⟩) := fun _ => ⟨fun _ => by simp, fun _ => by simp⟩
  have hti : ∀ t ∈ (Interpolator.mbf ⟨b, 1, s / b.normB⟩).ti, 0 ≤ t := by simp [Interpolator.ti]
  refine ⟨_, hf, ?_, ?_⟩
  · exact (plot_works_iff_partial hP (q := .schatten) trivial hcon hk (by simp) hl hti hv nm false).1 (by simp)
  · refine (plot_works_iff_partial hP (q := .schatten) trivial hcon hk (by simp) hl hti hv nm true).2
      ⟨rfl, by decide, 1 / 99, by simp, ?_⟩
    change 2 * schattenNorm (smallProblem.A + (1 / 99 : ℝ) • smallProblem.matB) (-1) ≤ v (1 / 99)
    rw [small_value (by norm_num)]
    apply Real.le_sqrt_of_sq_le
    norm_num

/-! ### The hypotheses are met -/

/-- With `compare=True` and all options: the plots of an exact interpolator. -/
example (lib : Eigen.Lib) (nm : Bool) :
    ∃ F, (scalarProblem 1 2).plot .schatten .ext (.array [1, 5]) nm true = .ok F := by
  have hl : ∀ t ∈ [(1 : ℝ), 5], 0 ≤ t := by simp
  refine (plot_works_iff_partial (scalar_problem one_pos two_pos) (q := .schatten) trivial (ext_constructed lib _)
    (fun _ => ⟨fun _ => by simp, fun _ => by simp⟩) (by simp) hl (by simp [Interpolator.ti, Interpolator.base])
    (fun t ht => scalar_ext one_pos two_pos (hl t ht)) nm true).1 ?_
  intro _ _ t ht
  have : functionOf .schatten (scalarProblem 1 2).p ((scalarProblem 1 2).A + t • (scalarProblem 1 2).matB) =
    1 + t * 2 := scalar_value one_pos two_pos (hl t ht)
  rw [this]
  simp only [ofNorm]
  linarith [hl t ht]

example (f : Interpolator) : (scalarProblem 1 2).plot .trace f (.list [1, 2]) true true = .error .attributeError :=
  (plot_rejects (P := scalarProblem 1 2) .trace f true true).2.2 [1, 2]

example (lib : Eigen.Lib) : (scalarProblem 1 2).plot .schatten .ext (.array []) true true = .error .valueError :=
  (plot_empty_array (scalar_problem one_pos two_pos) (q := .schatten) trivial (ext_constructed lib _)
    (by simp [Interpolator.ti, Interpolator.base]) true true).1 fun _ => ⟨fun _ => by simp, fun _ => by simp⟩

example (m : Fitted) : (Interpolator.spl m).getScale = .error .runtimeError :=
  (get_scale (.spl m)).2 fun _ => by simp

end InterpPlot

end Imate.Props
