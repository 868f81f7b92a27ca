import Verif.Lemmas.InterpPlot

/-!
# C90: the plots of the interpolators
-/

namespace Imate.Props

open Imate.Spec Imate.Interp Matrix

variable {n : ℕ} {P : Problem n}

namespace InterpPlot

/-! ### Kinds that are plotted against `t` -/

/-- The parts of a plot before the limits and errors. -/
theorem plotLog_eq (hP : PlotProblem P) {q : Quantity} (hq : OrderOf q P.p) {f : Interpolator} (hf : Constructed P f)
    {l : List ℝ} (h1 : l.length ≠ 1) (hl : ∀ t ∈ l, 0 ≤ t) (hti : ∀ t ∈ f.ti, 0 ≤ t) {v : ℝ → ℝ}
    (hv : ∀ t ∈ l, 0 < v t ∧ P.interpolate f t = .ok (some (v t))) (nm cmp : Bool) :
    P.plotLog q f (.array l) nm cmp = (do
      let limits ← q.limits (l.map fun t => some (normalized q P.p P.matB nm (ofNorm q n P.p (v t))))
        (if cmp then (l.map fun t => some (exactCurve q P nm t)) else [])
      let errors ← (if cmp then q.errors (l.map fun t => some (normalized q P.p P.matB nm (ofNorm q n P.p (v t))))
          (some (l.map fun t => some (exactCurve q P nm t))) else .ok none)
      .ok ⟨f.ti.map fun t => (t, some (exactCurve q P nm t)),
        l.map fun t => (t, some (normalized q P.p P.matB nm (ofNorm q n P.p (v t)))),
        if cmp then some (l.map fun t => (t, some (exactCurve q P nm t))) else none, limits,
        errors.map fun e => l.zip e⟩) := by
  unfold Problem.plotLog
  simp only [PlotArg.check, if_neg h1, plotValues_eq hv, Problem.plotCompare, plotExact_eq hP hq hl,
    plotExact_eq hP hq hti, factor_eq hP hq hf, bind, Except.bind, List.map_map, Function.comp_def,
    scaled_eq hP hq, Except.map, zip_map_self]
  cases cmp <;>
  · simp only [if_true, Option.map_some, Option.map_none, Option.getD_some, Option.getD_none, List.map_map,
      Function.comp_def, scaled_eq hP hq, zip_map_self, Bool.false_eq_true, if_false]
    rfl

/-- C90: the points, the curve of the interpolator, the exact curve and the errors that are drawn are the documented
ones, for every kind but `crf` and `spl`, for every order, with and without normalization; the error is the relative
error in percent, and the absolute error for the determinant, and does not depend on `normalize`. -/
theorem plot_shows_function (hP : PlotProblem P) {q : Quantity} (hq : OrderOf q P.p) {f : Interpolator}
    (hf : Constructed P f) (hk : PlotsFunction q f) {l : List ℝ} (hl : ∀ t ∈ l, 0 ≤ t) (hti : ∀ t ∈ f.ti, 0 ≤ t)
    {v : ℝ → ℝ} (hv : ∀ t ∈ l, 0 < v t ∧ P.interpolate f t = .ok (some (v t))) {nm cmp : Bool} {F : Figure}
    (h : P.plot q f (.array l) nm cmp = .ok F) :
    F.points = f.ti.map (fun t => (t, some (exactCurve q P nm t))) ∧
      F.curve = l.map (fun t => (t, some (normalized q P.p P.matB nm (ofNorm q n P.p (v t))))) ∧
      F.exact = (if cmp then some (l.map fun t => (t, some (exactCurve q P nm t))) else none) ∧
      F.errors = if cmp then some (l.map fun t =>
        (t, some (plottedError q (ofNorm q n P.p (v t)) (functionOf q P.p (P.A + t • P.matB))))) else none := by
  rw [plot_eq_log hk] at h
  have h1 : l.length ≠ 1 := by
    intro h1
    simp [Problem.plotLog, PlotArg.check, h1, bind, Except.bind] at h
  rw [plotLog_eq hP hq hf h1 hl hti hv] at h
  obtain ⟨lim, -, h⟩ := bind_inv h
  obtain ⟨e, he, h⟩ := bind_inv h
  injection h with h
  subst h
  refine ⟨rfl, rfl, rfl, ?_⟩
  simp only
  cases cmp with
  | false =>
    simp only [Bool.false_eq_true, if_false, Except.ok.injEq] at he
    subst he; rfl
  | true =>
    simp only [if_true, Quantity.errors, zipWith_map_self] at he
    have hz : (l.map fun t => q.error (some (normalized q P.p P.matB nm (ofNorm q n P.p (v t))))
        (some (exactCurve q P nm t))) =
        l.map fun t => some (rawError q (ofNorm q n P.p (v t)) (functionOf q P.p (P.A + t • P.matB))) := by
      refine List.map_congr_left fun t ht => ?_
      exact error_eq hP hq nm _ fun hlg => functionOf_pos hP hq hlg (hl t ht)
    rw [hz] at he
    simp only [if_true]
    cases q with
    | logdet =>
      simp only [Except.ok.injEq] at he
      subst he
      simp only [Option.map_some, zip_map_self]
      rfl
    | schatten =>
      obtain ⟨d, -, he⟩ := map_inv he
      subst he
      simp only [Option.map_some, List.map_map, Function.comp_def, zip_map_self]
      rfl
    | trace =>
      obtain ⟨d, -, he⟩ := map_inv he
      subst he
      simp only [Option.map_some, List.map_map, Function.comp_def, zip_map_self]
      rfl

/-- C90: the points that `plot` marks are the points the interpolator was made with; the kinds that use no points mark none. -/
theorem marked_points (hP : GoodProblem P) {st : Settings} {kind : String} {ti : Points} {l : List ℝ}
    (hti : IsPoints ti l) {f : Interpolator} (h : P.create st kind ti = .ok f) :
    (kind = "ext" ∨ kind = "eig" → f.ti = []) ∧
    (kind = "imbf" ∨ kind = "rbf" ∨ kind = "crf" ∨ kind = "spl" ∨ kind = "rpf" → f.ti = l) ∧
    (kind = "mbf" → ∀ t, ti = .list [t] → f.ti = [t]) := by
  have hb := created_base hP hti h
  refine ⟨?_, ?_, ?_⟩
  · rintro (rfl | rfl)
    · have e : P.create st "ext" ti = .ok .ext := by
        unfold Problem.create; rw [if_pos (by decide +kernel)]
      rw [e] at h; injection h with h; subst h; rfl
    · have e : P.create st "eig" ti = (P.eig st.eig st.ratio).map .eig := by
        unfold Problem.create; rw [if_neg (by decide +kernel), if_pos (by decide +kernel)]
      rw [e] at h
      obtain ⟨m, -, rfl⟩ := map_inv h; rfl
  · rintro (rfl | rfl | rfl | rfl | rfl)
    · have e : P.create st "imbf" ti = (P.imbf st.np ti st.basis).map .imbf := by
        unfold Problem.create
        rw [if_neg (by decide +kernel), if_neg (by decide +kernel), if_neg (by decide +kernel), if_pos (by decide +kernel)]
      rw [e] at h
      obtain ⟨m, -, rfl⟩ := map_inv h
      exact (hb _ rfl).points
    · have e : P.create st "rbf" ti = (P.rbf st.np st.spline ti st.funcType).map .rbf := by
        unfold Problem.create
        rw [if_neg (by decide +kernel), if_neg (by decide +kernel), if_neg (by decide +kernel), if_neg (by decide +kernel),
          if_pos (by decide +kernel)]
      rw [e] at h
      obtain ⟨m, -, rfl⟩ := map_inv h
      exact (hb _ rfl).points
    · have e : P.create st "crf" ti = (P.crf st.np st.opt ti st.scale st.funcType).map .crf := by
        unfold Problem.create
        rw [if_neg (by decide +kernel), if_neg (by decide +kernel), if_neg (by decide +kernel), if_neg (by decide +kernel),
          if_neg (by decide +kernel), if_pos (by decide +kernel)]
      rw [e] at h
      obtain ⟨m, -, rfl⟩ := map_inv h
      exact (hb _ rfl).points
    · have e : P.create st "spl" ti = (P.spline st.np st.spline ti st.funcType).map .spl := by
        unfold Problem.create
        rw [if_neg (by decide +kernel), if_neg (by decide +kernel), if_neg (by decide +kernel), if_neg (by decide +kernel),
          if_neg (by decide +kernel), if_neg (by decide +kernel), if_pos (by decide +kernel)]
      rw [e] at h
      obtain ⟨m, -, rfl⟩ := map_inv h
      exact (hb _ rfl).points
    · have e : P.create st "rpf" ti = (P.rpf ti).map .rpf := by
        unfold Problem.create
        rw [if_neg (by decide +kernel), if_neg (by decide +kernel), if_neg (by decide +kernel), if_neg (by decide +kernel),
          if_neg (by decide +kernel), if_neg (by decide +kernel), if_neg (by decide +kernel), if_pos (by decide +kernel)]
      rw [e] at h
      obtain ⟨m, -, rfl⟩ := map_inv h
      exact (hb _ rfl).points
  · rintro rfl t rfl
    have e : P.create st "mbf" (.list [t]) = (P.mbf st.np (.list [t])).map .mbf := by
      unfold Problem.create
      rw [if_neg (by decide +kernel), if_neg (by decide +kernel), if_pos (by decide +kernel)]
    rw [e] at h
    obtain ⟨m, hm, rfl⟩ := map_inv h
    obtain ⟨b, s, t1, -, h1, -, rfl⟩ := base_mbf (Or.inl rfl) hm
    have h2 : mbfPoint st.np b.tau0 (.list [t]) = .ok t := rfl
    rw [h2] at h1
    injection h1 with h1
    subst h1; rfl

/-- The limits of the vertical axis are computed. -/
theorem limits_ok {q : Quantity} {l : List ℝ} {y e : ℝ → ℝ} (h0 : l ≠ []) (hy : q ≠ .logdet → ∀ t ∈ l, 0 < y t)
    (he : q ≠ .logdet → ∀ t ∈ l, 0 < e t) (cmp : Bool) :
    ∃ lim, q.limits (l.map fun t => some (y t)) (if cmp then l.map fun t => some (e t) else []) = .ok lim := by
  have hne : (if cmp then l.map e else []) ++ l.map y ≠ [] := by simp [h0]
  have hall : (if cmp then l.map fun t => some (e t) else []) ++ (l.map fun t => some (y t)) =
      ((if cmp then l.map e else []) ++ l.map y).map some := by
    cases cmp <;> simp [Function.comp_def]
  have hpos : q ≠ .logdet → ∀ x ∈ (if cmp then l.map e else []) ++ l.map y, 0 < x := by
    intro hq x hx
    rw [List.mem_append] at hx
    rcases hx with hx | hx
    · cases cmp with
      | false => simp at hx
      | true =>
        obtain ⟨t, ht, rfl⟩ := List.mem_map.1 hx
        exact he hq t ht
    · obtain ⟨t, ht, rfl⟩ := List.mem_map.1 hx
      exact hy hq t ht
  cases q with
  | schatten =>
    simp only [Quantity.limits, hall]
    rw [logLimits_pos _ _ hne (hpos (by decide))]
    exact ⟨_, rfl⟩
  | trace =>
    simp only [Quantity.limits, hall]
    rw [logLimits_pos _ _ hne (hpos (by decide))]
    exact ⟨_, rfl⟩
  | logdet =>
    refine ⟨(none, none), ?_⟩
    simp [Quantity.limits, h0]

theorem rawError_lt {y e : ℝ} (hy : 0 < y) (he : 0 < e) : |1 - y / e| < 1 ↔ y < 2 * e := by
  rw [abs_lt]
  have h1 : 0 < y / e := div_pos hy he
  have h2 : y / e < 2 ↔ y < 2 * e := div_lt_iff₀ he
  rw [← h2]
  constructor
  · intro h; linarith [h.1]
  · intro h; constructor <;> linarith

/-- C90: when `plot` works.  Partial: it was documented to work for every array of more than one point; with
`compare=True` the norm and the trace are plotted exactly when every interpolated value is below twice the exact value,
otherwise `ValueError` is raised (a negative number of decimals in the labels of the error). -/
theorem plot_works_iff_partial (hP : PlotProblem P) {q : Quantity} (hq : OrderOf q P.p) {f : Interpolator}
    (hf : Constructed P f) (hk : PlotsFunction q f) {l : List ℝ} (h2 : 2 ≤ l.length) (hl : ∀ t ∈ l, 0 ≤ t)
    (hti : ∀ t ∈ f.ti, 0 ≤ t) {v : ℝ → ℝ} (hv : ∀ t ∈ l, 0 < v t ∧ P.interpolate f t = .ok (some (v t)))
    (nm cmp : Bool) :
    ((cmp = true → q ≠ .logdet → ∀ t ∈ l, ofNorm q n P.p (v t) < 2 * functionOf q P.p (P.A + t • P.matB)) →
        ∃ F, P.plot q f (.array l) nm cmp = .ok F) ∧
      ((cmp = true ∧ q ≠ .logdet ∧ ∃ t ∈ l, 2 * functionOf q P.p (P.A + t • P.matB) ≤ ofNorm q n P.p (v t)) →
        P.plot q f (.array l) nm cmp = .error .valueError) := by
  have h1 : l.length ≠ 1 := by omega
  have h0 : l ≠ [] := by rintro rfl; simp at h2
  rw [plot_eq_log hk, plotLog_eq hP hq hf h1 hl hti hv]
  obtain ⟨lim, hlim⟩ := limits_ok (q := q) (l := l)
    (y := fun t => normalized q P.p P.matB nm (ofNorm q n P.p (v t))) (e := exactCurve q P nm) h0
    (fun hq' t ht => normalized_pos hP hq hq' nm (ofNorm_pos hq' hP.size (hv t ht).1))
    (fun hq' t ht => normalized_pos hP hq hq' nm (functionOf_pos hP hq hq' (hl t ht))) cmp
  have hz : (l.map fun t => q.error (some (normalized q P.p P.matB nm (ofNorm q n P.p (v t))))
      (some (exactCurve q P nm t))) =
      (l.map fun t => rawError q (ofNorm q n P.p (v t)) (functionOf q P.p (P.A + t • P.matB))).map some := by
    rw [List.map_map]
    refine List.map_congr_left fun t ht => ?_
    exact error_eq hP hq nm _ fun hlg => functionOf_pos hP hq hlg (hl t ht)
  simp only [hlim, bind, Except.bind]
  cases cmp with
  | false => exact ⟨fun _ => ⟨_, rfl⟩, fun h => by simp at h⟩
  | true =>
    simp only [if_true, Quantity.errors, zipWith_map_self]
    rw [hz]
    have hraw : q ≠ .logdet → ∀ t ∈ l,
        (|rawError q (ofNorm q n P.p (v t)) (functionOf q P.p (P.A + t • P.matB))| < 1 ↔
          ofNorm q n P.p (v t) < 2 * functionOf q P.p (P.A + t • P.matB)) := by
      intro hq' t ht
      have a := ofNorm_pos (p := P.p) hq' hP.size (hv t ht).1
      have b := functionOf_pos hP hq hq' (hl t ht)
      have := rawError_lt a b
      cases q with
      | logdet => exact absurd rfl hq'
      | schatten => exact this
      | trace => exact this
    constructor
    · intro hc
      by_cases hq' : q = .logdet
      · subst hq'; exact ⟨_, rfl⟩
      · obtain ⟨d, hd⟩ := percentDecimals_ok
          (l := l.map fun t => rawError q (ofNorm q n P.p (v t)) (functionOf q P.p (P.A + t • P.matB)))
          (by simpa using h0) (by
            intro e he
            obtain ⟨t, ht, rfl⟩ := List.mem_map.1 he
            exact (hraw hq' t ht).2 (hc trivial hq' t ht))
        cases q with
        | logdet => exact absurd rfl hq'
        | schatten => simp only [hd, Except.map]; exact ⟨_, rfl⟩
        | trace => simp only [hd, Except.map]; exact ⟨_, rfl⟩
    · rintro ⟨-, hq', t, ht, hc⟩
      have hd := percentDecimals_error
        (l := l.map fun t => rawError q (ofNorm q n P.p (v t)) (functionOf q P.p (P.A + t • P.matB)))
        (List.mem_map.2 ⟨t, ht, rfl⟩) (not_lt.1 fun h => absurd ((hraw hq' t ht).1 h) (not_lt.2 hc))
      cases q with
      | logdet => exact absurd rfl hq'
      | schatten => simp only [hd, Except.map]
      | trace => simp only [hd, Except.map]

/-- The limits of a plot that succeeded. -/
theorem plot_limits (hP : PlotProblem P) {q : Quantity} (hq : OrderOf q P.p) {f : Interpolator}
    (hf : Constructed P f) (hk : PlotsFunction q f) {l : List ℝ} (hl : ∀ t ∈ l, 0 ≤ t) (hti : ∀ t ∈ f.ti, 0 ≤ t)
    {v : ℝ → ℝ} (hv : ∀ t ∈ l, 0 < v t ∧ P.interpolate f t = .ok (some (v t))) {nm cmp : Bool} {F : Figure}
    (h : P.plot q f (.array l) nm cmp = .ok F) :
    q.limits (l.map fun t => some (normalized q P.p P.matB nm (ofNorm q n P.p (v t))))
        (if cmp then l.map fun t => some (exactCurve q P nm t) else []) = .ok F.limits := by
  rw [plot_eq_log hk] at h
  have h1 : l.length ≠ 1 := by
    intro h1
    simp [Problem.plotLog, PlotArg.check, h1, bind, Except.bind] at h
  rw [plotLog_eq hP hq hf h1 hl hti hv] at h
  obtain ⟨lim, hlim, h⟩ := bind_inv h
  obtain ⟨e, -, h⟩ := bind_inv h
  injection h with h
  subst h
  exact hlim

/-- All values drawn. -/
theorem drawn_append (l : List ℝ) (y e : ℝ → ℝ) (cmp : Bool) :
    (if cmp then l.map fun t => some (e t) else []) ++ (l.map fun t => some (y t)) =
      ((if cmp then l.map e else []) ++ l.map y).map some := by
  cases cmp <;> simp [Function.comp_def]

/-- C90: what the limits of the vertical axis show.  The norm is never hidden at the bottom and the trace never at the
top; the other side is within a factor `√10`; the determinant is shown completely.  Partial: at the other side values
can be hidden (`schatten_plot_hides_largest`, `trace_plot_hides_smallest`). -/
theorem plot_limits_show_partial (hP : PlotProblem P) {q : Quantity} (hq : OrderOf q P.p) {f : Interpolator}
    (hf : Constructed P f) (hk : PlotsFunction q f) {l : List ℝ} (hl : ∀ t ∈ l, 0 ≤ t) (hti : ∀ t ∈ f.ti, 0 ≤ t)
    {v : ℝ → ℝ} (hv : ∀ t ∈ l, 0 < v t ∧ P.interpolate f t = .ok (some (v t))) {nm cmp : Bool} {F : Figure}
    (h : P.plot q f (.array l) nm cmp = .ok F) {t y : ℝ}
    (hy : (t, some y) ∈ F.curve ∨ ∃ e, F.exact = some e ∧ (t, some y) ∈ e) :
    match q with
    | .schatten => ∃ b top, F.limits = (some b, some top) ∧ b ≤ y ∧ y ≤ Real.sqrt 10 * top
    | .trace => ∃ b top, F.limits = (some b, some top) ∧ b ≤ Real.sqrt 10 * y ∧ y ≤ top
    | .logdet => F.limits = (none, none) := by
  have hlim := plot_limits hP hq hf hk hl hti hv h
  obtain ⟨-, hc, hex, -⟩ := plot_shows_function hP hq hf hk hl hti hv h
  set Y := fun t => normalized q P.p P.matB nm (ofNorm q n P.p (v t)) with hY
  set L := (if cmp then l.map (exactCurve q P nm) else []) ++ l.map Y with hL
  have hmem : y ∈ L := by
    rw [hL, List.mem_append]
    rcases hy with hy | ⟨e, he, hy⟩
    · rw [hc] at hy
      obtain ⟨s, hs, hs'⟩ := List.mem_map.1 hy
      right
      simp only [Prod.mk.injEq, Option.some.injEq] at hs'
      exact List.mem_map.2 ⟨s, hs, hs'.2⟩
    · left
      cases cmp with
      | false => rw [hex] at he; simp at he
      | true =>
        rw [hex] at he
        simp only [if_true, Option.some.injEq] at he
        subst he
        obtain ⟨s, hs, hs'⟩ := List.mem_map.1 hy
        simp only [Prod.mk.injEq, Option.some.injEq] at hs'
        exact List.mem_map.2 ⟨s, hs, hs'.2⟩
  have hne : L ≠ [] := List.ne_nil_of_mem hmem
  have hpos : q ≠ .logdet → ∀ x ∈ L, 0 < x := by
    intro hq' x hx
    rw [hL, List.mem_append] at hx
    rcases hx with hx | hx
    · cases cmp with
      | false => simp at hx
      | true =>
        obtain ⟨t, ht, rfl⟩ := List.mem_map.1 hx
        exact normalized_pos hP hq hq' nm (functionOf_pos hP hq hq' (hl t ht))
    · obtain ⟨t, ht, rfl⟩ := List.mem_map.1 hx
      exact normalized_pos hP hq hq' nm (ofNorm_pos hq' hP.size (hv t ht).1)
  cases q with
  | schatten =>
    simp only [Quantity.limits] at hlim
    rw [drawn_append l Y] at hlim
    obtain ⟨b, top, h1, h2⟩ := schattenLimits_show hne (hpos (by decide))
    rw [h1] at hlim
    injection hlim with hlim
    exact ⟨b, top, hlim.symm, h2 y hmem⟩
  | trace =>
    simp only [Quantity.limits] at hlim
    rw [drawn_append l Y] at hlim
    obtain ⟨b, top, h1, h2⟩ := traceLimits_show hne (hpos (by decide))
    rw [h1] at hlim
    injection hlim with hlim
    exact ⟨b, top, hlim.symm, h2 y hmem⟩
  | logdet =>
    simp only [Quantity.limits] at hlim
    split_ifs at hlim
    injection hlim with hlim
    exact hlim.symm

/-- The largest value of a plot of the norm is hidden whenever it is above a power of ten by less than the factor `√10`
and another value is below that power. -/
theorem schatten_plot_hides_largest (hP : PlotProblem P) {f : Interpolator} (hf : Constructed P f)
    (hk : PlotsFunction .schatten f) {l : List ℝ} (hl : ∀ t ∈ l, 0 ≤ t) (hti : ∀ t ∈ f.ti, 0 ≤ t)
    {v : ℝ → ℝ} (hv : ∀ t ∈ l, 0 < v t ∧ P.interpolate f t = .ok (some (v t))) {nm : Bool} {F : Figure}
    (h : P.plot .schatten f (.array l) nm false = .ok F) {k : ℤ} {s t y z : ℝ}
    (hs : (s, some y) ∈ F.curve) (ht : (t, some z) ∈ F.curve) (h1 : y < (10 : ℝ) ^ k) (h2 : (10 : ℝ) ^ k < z)
    (h3 : z < Real.sqrt 10 * (10 : ℝ) ^ k) (h4 : ∀ r x, (r, some x) ∈ F.curve → x ≤ z) : Hidden F.limits z := by
  have hlim := plot_limits hP (q := .schatten) trivial hf hk hl hti hv h
  obtain ⟨-, hc, -, -⟩ := plot_shows_function hP (q := .schatten) trivial hf hk hl hti hv h
  set Y := fun t => normalized .schatten P.p P.matB nm (ofNorm .schatten n P.p (v t)) with hY
  rw [hc] at hs ht h4
  have hmem : ∀ {r x : ℝ}, (r, some x) ∈ l.map (fun t => (t, some (Y t))) → x ∈ l.map Y := by
    intro r x hx
    obtain ⟨s, hs, hs'⟩ := List.mem_map.1 hx
    simp only [Prod.mk.injEq, Option.some.injEq] at hs'
    exact List.mem_map.2 ⟨s, hs, hs'.2⟩
  obtain ⟨b, hb⟩ := schattenLimits_hide (l := l.map Y) (k := k) (m := y) (M := z)
    (by
      intro x hx
      obtain ⟨t, ht, rfl⟩ := List.mem_map.1 hx
      exact normalized_pos hP (q := .schatten) trivial (by decide) nm (ofNorm_pos (by decide) hP.size (hv t ht).1))
    (hmem hs) (hmem ht) h1 h2
    (by rw [add_comm, Real.rpow_add (by norm_num), ← sqrt_ten, Real.rpow_intCast]; exact h3)
    (by
      intro x hx
      obtain ⟨r, hr, rfl⟩ := List.mem_map.1 hx
      exact h4 r _ (List.mem_map.2 ⟨r, hr, rfl⟩))
  have e := drawn_append l Y (exactCurve .schatten P nm) false
  simp only [Quantity.limits] at hlim
  rw [e] at hlim
  simp only [Bool.false_eq_true, if_false, List.nil_append] at hlim
  rw [hb] at hlim
  injection hlim with hlim
  exact .inr ⟨_, by rw [← hlim], h2⟩

/-- The smallest value of a plot of the trace is hidden whenever it is below a power of ten by less than the factor `√10`
and another value is above that power. -/
theorem trace_plot_hides_smallest (hP : PlotProblem P) (hp : P.p ≠ 0) {f : Interpolator} (hf : Constructed P f)
    {l : List ℝ} (hl : ∀ t ∈ l, 0 ≤ t) (hti : ∀ t ∈ f.ti, 0 ≤ t)
    {v : ℝ → ℝ} (hv : ∀ t ∈ l, 0 < v t ∧ P.interpolate f t = .ok (some (v t))) {nm : Bool} {F : Figure}
    (h : P.plot .trace f (.array l) nm false = .ok F) {k : ℤ} {s t y z : ℝ}
    (hs : (s, some y) ∈ F.curve) (ht : (t, some z) ∈ F.curve) (h1 : y < (10 : ℝ) ^ k) (h2 : (10 : ℝ) ^ k < z)
    (h3 : (10 : ℝ) ^ k < Real.sqrt 10 * y) (h4 : ∀ r x, (r, some x) ∈ F.curve → y ≤ x) : Hidden F.limits y := by
  have hk : PlotsFunction .trace f := fun h => by cases h
  have hlim := plot_limits hP (q := .trace) hp hf hk hl hti hv h
  obtain ⟨-, hc, -, -⟩ := plot_shows_function hP (q := .trace) hp hf hk hl hti hv h
  set Y := fun t => normalized .trace P.p P.matB nm (ofNorm .trace n P.p (v t)) with hY
  rw [hc] at hs ht h4
  have hmem : ∀ {r x : ℝ}, (r, some x) ∈ l.map (fun t => (t, some (Y t))) → x ∈ l.map Y := by
    intro r x hx
    obtain ⟨s, hs, hs'⟩ := List.mem_map.1 hx
    simp only [Prod.mk.injEq, Option.some.injEq] at hs'
    exact List.mem_map.2 ⟨s, hs, hs'.2⟩
  obtain ⟨b, hb⟩ := traceLimits_hide (l := l.map Y) (k := k) (m := y) (M := z)
    (by
      intro x hx
      obtain ⟨t, ht, rfl⟩ := List.mem_map.1 hx
      exact normalized_pos hP (q := .trace) hp (by decide) nm (ofNorm_pos (by decide) hP.size (hv t ht).1))
    (hmem hs) (hmem ht)
    (by
      rw [Real.rpow_sub (by norm_num), ← sqrt_ten, Real.rpow_intCast, div_lt_iff₀ (by positivity), mul_comm]
      exact h3)
    h1 h2
    (by
      intro x hx
      obtain ⟨r, hr, rfl⟩ := List.mem_map.1 hx
      exact h4 r _ (List.mem_map.2 ⟨r, hr, rfl⟩))
  have e := drawn_append l Y (exactCurve .trace P nm) false
  simp only [Quantity.limits] at hlim
  rw [e] at hlim
  simp only [Bool.false_eq_true, if_false, List.nil_append] at hlim
  rw [hb] at hlim
  injection hlim with hlim
  exact .inl ⟨_, by rw [← hlim], h1⟩

/-! ### Kinds `crf` and `spl` of `InterpolateSchatten` -/

/-- The function types of a constructed interpolator. -/
theorem finiteKind_type {f : Interpolator} (hf : Constructed P f) {k : ℤ} {α : ℝ} (h : finiteKind f = some (k, α)) :
    k = 1 ∨ k = 2 := by
  obtain ⟨st, kind, ti, l, hti, hc⟩ := hf
  unfold Problem.create at hc
  split_ifs at hc with h1 h2 h3 h4 h5 h6 h7 h8
  · injection hc with hc; subst hc; cases h
  · obtain ⟨m, hm, rfl⟩ := map_inv hc; cases h
  · obtain ⟨m, hm, rfl⟩ := map_inv hc; cases h
  · obtain ⟨m, hm, rfl⟩ := map_inv hc; cases h
  · obtain ⟨m, hm, rfl⟩ := map_inv hc; cases h
  · obtain ⟨m, hm, rfl⟩ := map_inv hc
    unfold Problem.crf at hm
    obtain ⟨ti', ht', hm⟩ := bind_inv hm
    obtain ⟨b', hb', hm⟩ := bind_inv hm
    obtain ⟨-, h1, h2⟩ := crfInit_base hm
    simp only [finiteKind, Option.some.injEq, Prod.mk.injEq] at h
    rw [← h.1, h1]; exact h2
  · obtain ⟨m, hm, rfl⟩ := map_inv hc
    unfold Problem.spline at hm
    obtain ⟨-, -, hm⟩ := bind_inv hm
    obtain ⟨b', hb', hm⟩ := bind_inv hm
    obtain ⟨-, h1, h2⟩ := splineInit_base hm
    simp only [finiteKind, Option.some.injEq, Prod.mk.injEq] at h
    rw [← h.1, h1]; exact h2
  · obtain ⟨m, hm, rfl⟩ := map_inv hc; cases h

theorem plot_eq_finite {f : Interpolator} {k : ℤ} {α : ℝ} (h : finiteKind f = some (k, α)) : ∃ b, f.base = some b ∧
    ∀ t nm cmp, P.plot .schatten f t nm cmp = P.plotFinite f b k α t nm cmp := by
  cases f with
  | crf m =>
    simp only [finiteKind, Option.some.injEq, Prod.mk.injEq] at h
    obtain ⟨rfl, rfl⟩ := h
    exact ⟨_, rfl, fun _ _ _ => rfl⟩
  | spl m =>
    simp only [finiteKind, Option.some.injEq, Prod.mk.injEq] at h
    obtain ⟨rfl, rfl⟩ := h
    exact ⟨_, rfl, fun _ _ _ => rfl⟩
  | _ => cases h

theorem finiteX_eq {α t : ℝ} (hα : 0 < α) (ht : 0 ≤ t) : finiteX α t = (t - α) / (t + α) := by
  unfold finiteX
  have : t + α ≠ 0 := by positivity
  have : t / α + 1 ≠ 0 := by positivity
  field_simp

theorem finiteY_eq {k : ℤ} {tau0 t : ℝ} (h0 : 0 < tau0) (ht : 0 ≤ t) (ht2 : k = 2 → 0 < t) (hk : k = 1 ∨ k = 2)
    (tau : ℝ → ℝ) : finiteY k tau0 t (some (tau t)) = some (finiteCurve k tau tau0 t) := by
  unfold finiteY finiteCurve
  rcases hk with rfl | rfl
  · simp [divO, (by positivity : tau0 + t ≠ 0)]
  · simp [divO, (ht2 rfl).ne']

theorem finite_zip {k : ℤ} {α tau0 : ℝ} (hα : 0 < α) (h0 : 0 < tau0) (hk : k = 1 ∨ k = 2) (tau : ℝ → ℝ) :
    ∀ {l : List ℝ}, (∀ t ∈ l, 0 ≤ t) → (k = 2 → ∀ t ∈ l, 0 < t) →
    (l.map (finiteX α)).zip (List.zipWith (finiteY k tau0) l (l.map fun t => some (tau t))) =
      l.map fun t => ((t - α) / (t + α), some (finiteCurve k tau tau0 t))
  | [], _, _ => rfl
  | x :: l, h1, h2 => by
    simp only [List.map_cons, List.zipWith_cons_cons, List.zip_cons_cons]
    rw [finite_zip hα h0 hk tau (fun t ht => h1 t (List.mem_cons_of_mem _ ht))
      (fun h t ht => h2 h t (List.mem_cons_of_mem _ ht)), finiteX_eq hα (h1 x List.mem_cons_self),
      finiteY_eq h0 (h1 x List.mem_cons_self) (fun h => h2 h x List.mem_cons_self) hk]

theorem finite_vals {k : ℤ} {tau0 : ℝ} (h0 : 0 < tau0) (hk : k = 1 ∨ k = 2) (tau : ℝ → ℝ) :
    ∀ {l : List ℝ}, (∀ t ∈ l, 0 ≤ t) → (k = 2 → ∀ t ∈ l, 0 < t) →
    List.zipWith (finiteY k tau0) l (l.map fun t => some (tau t)) = l.map fun t => some (finiteCurve k tau tau0 t)
  | [], _, _ => rfl
  | x :: l, h1, h2 => by
    simp only [List.map_cons, List.zipWith_cons_cons]
    rw [finite_vals h0 hk tau (fun t ht => h1 t (List.mem_cons_of_mem _ ht))
      (fun h t ht => h2 h t (List.mem_cons_of_mem _ ht)),
      finiteY_eq h0 (h1 x List.mem_cons_self) (fun h => h2 h x List.mem_cons_self) hk]

/-- C90, kinds `crf` and `spl`: what is drawn.  `x = (t - α) / (t + α)`; the vertical coordinate is formed from the
function that `normalize` selects, but always from the normalized value at zero `‖A‖/‖B‖`; so it is the documented one
for `normalize=True`. -/
theorem finite_plot_draws (hP : PlotProblem P) {f : Interpolator} (hf : Constructed P f) {k : ℤ} {α : ℝ}
    (hk : finiteKind f = some (k, α)) (hα : 0 < α) {l : List ℝ} (hl : ∀ t ∈ l, 0 ≤ t) (hti : ∀ t ∈ f.ti, 0 ≤ t)
    (hl2 : k = 2 → ∀ t ∈ l, 0 < t) (hti2 : k = 2 → ∀ t ∈ f.ti, 0 < t)
    {v : ℝ → ℝ} (hv : ∀ t ∈ l, 0 < v t ∧ P.interpolate f t = .ok (some (v t))) {nm cmp : Bool} {F : Figure}
    (h : P.plot .schatten f (.array l) nm cmp = .ok F) :
    let y : (ℝ → ℝ) → ℝ → ℝ × Option ℝ := fun tau t => ((t - α) / (t + α), some (finiteCurve k tau
      (schattenNorm P.A P.p / schattenNorm P.matB P.p) t))
    F.points = f.ti.map (y (exactCurve .schatten P nm)) ∧
      F.curve = l.map (y fun t => normalized .schatten P.p P.matB nm (v t)) ∧
      F.exact = (if cmp then some (l.map (y (exactCurve .schatten P nm))) else none) ∧
      (F.errors = if cmp then some (l.map fun t =>
        (t, some (100 * (1 - v t / schattenNorm (P.A + t • P.matB) P.p)))) else none) ∧
      ∀ x z, (x, some z) ∈ F.curve → ¬ Hidden F.limits z := by
  intro y
  have hk' := finiteKind_type hf hk
  have hq : OrderOf .schatten P.p := trivial
  obtain ⟨b, hb, hplot⟩ := plot_eq_finite (P := P) hk
  obtain ⟨L, hbase⟩ := constructed_base hP.good hf b hb
  rw [hplot] at h
  have h1 : l.length ≠ 1 := by
    intro h1
    simp [Problem.plotFinite, PlotArg.check, h1, bind, Except.bind] at h
  have hft : ¬ (k ≠ 1 ∧ k ≠ 2) := by rcases hk' with rfl | rfl <;> simp
  have h0 := hbase.tau0_pos
  unfold Problem.plotFinite at h
  simp only [PlotArg.check, if_neg h1, plotValues_eq hv, Problem.plotCompare, plotExact_eq hP hq hl,
    plotExact_eq hP hq hti, factor_eq hP hq hf, bind, Except.bind, List.map_map, Function.comp_def,
    scaled_eq hP hq, Except.map, if_neg hft] at h
  rw [finite_zip hα h0 hk' _ hti hti2, finite_zip hα h0 hk' _ hl hl2, finite_vals h0 hk' _ hl hl2] at h
  have hlim : ∀ x ∈ l, ¬ Hidden (finiteLimits (l.map fun t => some (finiteCurve k
      (fun t => normalized .schatten P.p P.matB nm (ofNorm .schatten n P.p (v t))) b.tau0 t)))
      (finiteCurve k (fun t => normalized .schatten P.p P.matB nm (ofNorm .schatten n P.p (v t))) b.tau0 x) := by
    intro x hx hh
    unfold finiteLimits at hh
    split_ifs at hh with c1 c2
    · obtain ⟨z, hz, hz0⟩ := c1 _ (List.mem_map.2 ⟨x, hx, rfl⟩)
      injection hz with hz
      rw [hz] at hh
      rcases hh with ⟨w, hw, hh⟩ | ⟨w, hw, hh⟩
      · injection hw with hw; linarith
      · cases hw
    · obtain ⟨z, hz, hz0⟩ := c2 _ (List.mem_map.2 ⟨x, hx, rfl⟩)
      injection hz with hz
      rw [hz] at hh
      rcases hh with ⟨w, hw, hh⟩ | ⟨w, hw, hh⟩
      · cases hw
      · injection hw with hw; linarith
    · rcases hh with ⟨w, hw, hh⟩ | ⟨w, hw, hh⟩ <;> cases hw
  have htau := tau0_eq hP hbase
  have hmem : ∀ {c : List (ℝ × Option ℝ)} {lim}, c = l.map (fun t => ((t - α) / (t + α), some (finiteCurve k
      (fun t => normalized .schatten P.p P.matB nm (ofNorm .schatten n P.p (v t))) b.tau0 t))) →
      lim = finiteLimits (l.map fun t => some (finiteCurve k
        (fun t => normalized .schatten P.p P.matB nm (ofNorm .schatten n P.p (v t))) b.tau0 t)) →
      ∀ x z, (x, some z) ∈ c → ¬ Hidden lim z := by
    rintro c lim rfl rfl x z hxz
    obtain ⟨t, ht, e⟩ := List.mem_map.1 hxz
    simp only [Prod.mk.injEq, Option.some.injEq] at e
    rw [← e.2]
    exact hlim t ht
  cases cmp with
  | false =>
    simp only [Bool.false_eq_true, if_false, Option.map_none, finiteErrors, Option.isSome_none, false_and,
      Quantity.errors, Except.ok.injEq] at h
    subst h
    refine ⟨?_, ?_, rfl, rfl, hmem rfl rfl⟩
    · simp only [y, ← htau]; rfl
    · simp only [y, ← htau]; rfl
  | true =>
    have hz : (l.map fun t => Quantity.schatten.error
        (some (normalized .schatten P.p P.matB nm (ofNorm .schatten n P.p (v t))))
        (some (normalized .schatten P.p P.matB nm (functionOf .schatten P.p (P.A + t • P.matB))))) =
        l.map fun t => some (rawError .schatten (v t) (schattenNorm (P.A + t • P.matB) P.p)) := by
      refine List.map_congr_left fun t ht => ?_
      exact error_eq hP hq nm _ fun hlg => functionOf_pos hP hq hlg (hl t ht)
    simp only [if_true, Option.map_some, List.map_map, Function.comp_def, scaled_eq hP hq, finiteErrors,
      Option.isSome_some, true_and] at h
    split at h
    · cases h
    · rename_i e he
      split_ifs at he
      simp only [Quantity.errors, zipWith_map_self] at he
      rw [hz] at he
      obtain ⟨d, -, he⟩ := map_inv he
      simp only [Except.ok.injEq] at h
      subst h
      subst he
      refine ⟨?_, ?_, ?_, ?_, hmem rfl rfl⟩
      · simp only [y, ← htau]; rfl
      · simp only [y, ← htau]; rfl
      · simp only [y, ← htau, if_true]
        congr 1
        exact finite_zip hα h0 hk' (exactCurve .schatten P nm) hl hl2
      · simp only [if_true, Option.map_some, List.map_map, Function.comp_def, zip_map_self]
        rfl

/-- C90: for `normalize=True` and the function type 1 the plot is the documented `y_p` of the exact function. -/
theorem finite_plot_documented_partial (hP : PlotProblem P) {f : Interpolator} (hf : Constructed P f) {α : ℝ}
    (hk : finiteKind f = some (1, α)) (hα : 0 < α) {l : List ℝ} (hl : ∀ t ∈ l, 0 ≤ t) (hti : ∀ t ∈ f.ti, 0 ≤ t)
    {v : ℝ → ℝ} (hv : ∀ t ∈ l, 0 < v t ∧ P.interpolate f t = .ok (some (v t))) {F : Figure}
    (h : P.plot .schatten f (.array l) true true = .ok F) :
    let tau : ℝ → ℝ := fun t => schattenNorm (P.A + t • P.matB) P.p / schattenNorm P.matB P.p
    F.points = f.ti.map (fun t => ((t - α) / (t + α), some (tau t / (tau 0 + t) - 1))) ∧
      F.exact = some (l.map fun t => ((t - α) / (t + α), some (tau t / (tau 0 + t) - 1))) := by
  intro tau
  obtain ⟨h1, -, h3, -⟩ := finite_plot_draws hP hf hk hα hl hti (by norm_num) (by norm_num) hv h
  have h0 : tau 0 = schattenNorm P.A P.p / schattenNorm P.matB P.p := by
    simp only [tau, zero_smul, add_zero]
  rw [h1, h3]
  constructor
  · refine List.map_congr_left fun t _ => ?_
    rw [h0]; rfl
  · simp only [if_true]
    congr 1
    refine List.map_congr_left fun t _ => ?_
    rw [h0]; rfl

/-- With `normalize=False` and a matrix `B` whose norm is not one, every point of the exact curve is wrong: neither the
documented `y_p` of the normalized nor of the function itself. -/
theorem finite_plot_unnormalized_wrong (hP : PlotProblem P) {f : Interpolator} (hf : Constructed P f) {α : ℝ}
    (hk : finiteKind f = some (1, α)) (hα : 0 < α) {l : List ℝ} (hl : ∀ t ∈ l, 0 ≤ t) (hti : ∀ t ∈ f.ti, 0 ≤ t)
    {v : ℝ → ℝ} (hv : ∀ t ∈ l, 0 < v t ∧ P.interpolate f t = .ok (some (v t)))
    (hB : schattenNorm P.matB P.p ≠ 1) {F : Figure} (h : P.plot .schatten f (.array l) false true = .ok F) :
    ∃ y : ℝ → ℝ, F.exact = some (l.map fun t => ((t - α) / (t + α), some (y t))) ∧ ∀ t ∈ l, ∀ nm : Bool,
      y t ≠ exactCurve .schatten P nm t / (exactCurve .schatten P nm 0 + t) - 1 := by
  obtain ⟨-, -, h3, -⟩ := finite_plot_draws hP hf hk hα hl hti (by norm_num) (by norm_num) hv h
  refine ⟨_, h3, fun t ht nm he => ?_⟩
  have hX := schattenNorm_pos (posDef_affine hP.good (hl t ht)) hP.size P.p
  have hA := schattenNorm_pos hP.posA hP.size P.p
  have hBp := schattenNorm_pos (posDef_matB hP.good) hP.size P.p
  have ht0 := hl t ht
  simp only [finiteCurve, if_true, exactCurve, normalized, functionOf, zero_smul, add_zero, Bool.false_eq_true,
    if_false, sub_left_inj] at he
  set a := schattenNorm P.A P.p
  set b := schattenNorm P.matB P.p
  set x := schattenNorm (P.A + t • P.matB) P.p
  cases nm with
  | true =>
    simp only [if_true] at he
    have hd : 0 < a / b + t := by positivity
    rw [div_eq_div_iff hd.ne' hd.ne'] at he
    have h5 := mul_right_cancel₀ hd.ne' he
    have : x * b = x := by rwa [eq_div_iff hBp.ne'] at h5
    exact hB (mul_left_cancel₀ hX.ne' (by rw [this, mul_one]))
  | false =>
    simp only [Bool.false_eq_true, if_false] at he
    have hd : 0 < a / b + t := by positivity
    have hd2 : 0 < a + t := by positivity
    rw [div_eq_div_iff hd.ne' hd2.ne'] at he
    have h5 : a + t = a / b + t := mul_left_cancel₀ hX.ne' he
    have h6 : a * b = a := by
      have : a = a / b := by linarith
      rwa [eq_div_iff hBp.ne'] at this
    exact hB (mul_left_cancel₀ hA.ne' (by rw [h6, mul_one]))

/-- C90, kinds `crf` and `spl`: as for the other kinds, `plot` works exactly when every interpolated value is below twice
the exact value, or without `compare`. -/
theorem finite_plot_works_iff_partial (hP : PlotProblem P) {f : Interpolator} (hf : Constructed P f) {k : ℤ} {α : ℝ}
    (hk : finiteKind f = some (k, α)) {l : List ℝ} (h2 : 2 ≤ l.length) (hl : ∀ t ∈ l, 0 ≤ t) (hti : ∀ t ∈ f.ti, 0 ≤ t)
    {v : ℝ → ℝ} (hv : ∀ t ∈ l, 0 < v t ∧ P.interpolate f t = .ok (some (v t))) (nm cmp : Bool) :
    ((cmp = true → ∀ t ∈ l, v t < 2 * schattenNorm (P.A + t • P.matB) P.p) →
        ∃ F, P.plot .schatten f (.array l) nm cmp = .ok F) ∧
      ((cmp = true ∧ ∃ t ∈ l, 2 * schattenNorm (P.A + t • P.matB) P.p ≤ v t) →
        P.plot .schatten f (.array l) nm cmp = .error .valueError) := by
  have h1 : l.length ≠ 1 := by omega
  have h0 : l ≠ [] := by rintro rfl; simp at h2
  have hq : OrderOf .schatten P.p := trivial
  have hk' := finiteKind_type hf hk
  have hft : ¬ (k ≠ 1 ∧ k ≠ 2) := by rcases hk' with rfl | rfl <;> simp
  obtain ⟨b, hb, hplot⟩ := plot_eq_finite (P := P) hk
  rw [hplot]
  unfold Problem.plotFinite
  simp only [PlotArg.check, if_neg h1, plotValues_eq hv, Problem.plotCompare, plotExact_eq hP hq hl,
    plotExact_eq hP hq hti, factor_eq hP hq hf, bind, Except.bind, List.map_map, Function.comp_def,
    scaled_eq hP hq, Except.map, if_neg hft]
  cases cmp with
  | false =>
    simp only [Bool.false_eq_true, if_false, Option.map_none, finiteErrors, Option.isSome_none, false_and,
      Quantity.errors]
    exact ⟨fun _ => ⟨_, rfl⟩, fun h => h.elim⟩
  | true =>
    have hz : (l.map fun t => Quantity.schatten.error
        (some (normalized .schatten P.p P.matB nm (ofNorm .schatten n P.p (v t))))
        (some (normalized .schatten P.p P.matB nm (functionOf .schatten P.p (P.A + t • P.matB))))) =
        (l.map fun t => rawError .schatten (v t) (schattenNorm (P.A + t • P.matB) P.p)).map some := by
      rw [List.map_map]
      refine List.map_congr_left fun t ht => ?_
      exact error_eq hP hq nm _ fun hlg => functionOf_pos hP hq hlg (hl t ht)
    have hraw : ∀ t ∈ l, (|rawError .schatten (v t) (schattenNorm (P.A + t • P.matB) P.p)| < 1 ↔
        v t < 2 * schattenNorm (P.A + t • P.matB) P.p) := fun t ht =>
      rawError_lt (hv t ht).1 (schattenNorm_pos (posDef_affine hP.good (hl t ht)) hP.size P.p)
    simp only [if_true, Option.map_some, List.map_map, Function.comp_def, scaled_eq hP hq, finiteErrors,
      Option.isSome_some, true_and, List.map_eq_nil_iff, if_neg h0, Quantity.errors, zipWith_map_self]
    rw [hz]
    constructor
    · intro hc
      obtain ⟨d, hd⟩ := percentDecimals_ok
        (l := l.map fun t => rawError .schatten (v t) (schattenNorm (P.A + t • P.matB) P.p))
        (by simpa using h0) (by
          intro e he
          obtain ⟨t, ht, rfl⟩ := List.mem_map.1 he
          exact (hraw t ht).2 (hc trivial t ht))
      rw [hd]
      exact ⟨_, rfl⟩
    · rintro ⟨t, ht, hc⟩
      have hd := percentDecimals_error
        (l := l.map fun t => rawError .schatten (v t) (schattenNorm (P.A + t • P.matB) P.p))
        (List.mem_map.2 ⟨t, ht, rfl⟩) (not_lt.1 fun h => absurd ((hraw t ht).1 h) (not_lt.2 hc))
      rw [hd]
      rfl

/-! ### Arguments -/

/-- C90: the rejected inquiry points: a number and an array of one point raise the documented `ValueError`, a list raises
`AttributeError`, for every class, kind, and option. -/
theorem plot_rejects (q : Quantity) (f : Interpolator) (nm cmp : Bool) :
    (∀ x, P.plot q f (.scalar x) nm cmp = .error .valueError) ∧
      (∀ x, P.plot q f (.array [x]) nm cmp = .error .valueError) ∧
      ∀ l, P.plot q f (.list l) nm cmp = .error .attributeError := by
  refine ⟨fun x => ?_, fun x => ?_, fun l => ?_⟩ <;> cases q <;> cases f <;> rfl

/-- An empty array: the documented `ValueError` for the norm and the trace, `IndexError` for the determinant; the kinds
`crf` and `spl` give an empty plot, or `IndexError` with `compare=True`. -/
theorem plot_empty_array (hP : PlotProblem P) {q : Quantity} (hq : OrderOf q P.p) {f : Interpolator}
    (hf : Constructed P f) (hti : ∀ t ∈ f.ti, 0 ≤ t) (nm cmp : Bool) :
    (PlotsFunction q f → P.plot q f (.array []) nm cmp =
        .error (if q = .logdet then .indexError else .valueError)) ∧
      ∀ k α, q = .schatten → finiteKind f = some (k, α) →
        (cmp = true → P.plot q f (.array []) nm cmp = .error .indexError) ∧
        (cmp = false → ∃ F, P.plot q f (.array []) nm cmp = .ok F ∧ F.curve = []) := by
  constructor
  · intro hk
    rw [plot_eq_log hk, plotLog_eq hP hq hf (by simp) (by simp) hti (v := fun _ => 1) (by simp)]
    cases q <;> cases cmp <;> rfl
  · rintro k α rfl hk
    obtain ⟨b, hb, hplot⟩ := plot_eq_finite (P := P) hk
    have hk' := finiteKind_type hf hk
    have hft : ¬ (k ≠ 1 ∧ k ≠ 2) := by rcases hk' with rfl | rfl <;> simp
    rw [hplot]
    unfold Problem.plotFinite
    simp only [PlotArg.check, List.length_nil, Problem.plotValues, Problem.plotCompare, plotExact_eq hP hq hti,
      factor_eq hP hq hf, bind, Except.bind, if_neg hft]
    constructor
    · rintro rfl; rfl
    · rintro rfl; exact ⟨_, rfl, rfl⟩

/-- `get_scale` is documented for the kinds `crf` and `spl`: it returns the scale for `crf` and raises for every other
kind, `spl` included. -/
theorem get_scale (f : Interpolator) :
    (∀ m, f = .crf m → f.getScale = .ok m.scale) ∧ ((∀ m, f ≠ .crf m) → f.getScale = .error .runtimeError) := by
  constructor
  · rintro m rfl; rfl
  · intro h
    cases f with
    | crf m => exact absurd rfl (h m)
    | _ => rfl

end InterpPlot

end Imate.Props
