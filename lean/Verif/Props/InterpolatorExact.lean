import Verif.Props.InterpolatorCases
import Mathlib.Analysis.SpecialFunctions.Integrals.Basic

/-!
# C41 (order two), C43 (conversions), C45 (orthogonal tables) and C46 (eigenvalues)
-/

namespace Imate.Props

open Imate.Spec Imate.Interp Imate.Eigen Matrix Finset

variable {n : ℕ} {P : Problem n}

/-! ### C41 -/

theorem trace_affine_sq (A B : Matrix (Fin n) (Fin n) ℝ) (t : ℝ) :
    ((A + t • B) * (A + t • B)).trace = (A * A).trace + 2 * t * (A * B).trace + t ^ 2 * (B * B).trace := by
  simp only [add_mul, mul_add, smul_mul_assoc, mul_smul_comm, trace_add, trace_smul, smul_eq_mul,
    trace_mul_comm B A]
  ring

theorem trace_sq_pos {B : Matrix (Fin n) (Fin n) ℝ} (hB : B.IsHermitian) (h : B ≠ 0) : 0 < (B * B).trace := by
  have hsum : (B * B).trace = ∑ i, ∑ j, B i j ^ 2 := by
    simp only [Matrix.trace, diag_apply, mul_apply]
    refine sum_congr rfl fun i _ => sum_congr rfl fun j _ => ?_
    have : B j i = B i j := by simpa using hB.apply i j
    rw [this, pow_two]
  rw [hsum]
  refine lt_of_le_of_ne (sum_nonneg fun i _ => sum_nonneg fun j _ => sq_nonneg _) fun h0 => h ?_
  ext i j
  have h1 := (sum_eq_zero_iff_of_nonneg fun i _ => sum_nonneg fun j _ => sq_nonneg (B i j)).1 h0.symm i (mem_univ i)
  have h2 := (sum_eq_zero_iff_of_nonneg fun j _ => sq_nonneg (B i j)).1 h1 j (mem_univ j)
  simpa using h2

/-- The square of `‖A + tB‖₂ / ‖B‖₂` is a monic quadratic polynomial of `t`. -/
theorem norm_two_quadratic (hn : 0 < n) {A B : Matrix (Fin n) (Fin n) ℝ} (hA : A.IsHermitian) (hB : B.IsHermitian)
    (h : B ≠ 0) : 0 < schattenNorm B 2 ∧ ∃ a c : ℝ, ∀ t,
      0 ≤ schattenNorm (A + t • B) 2 ∧ (schattenNorm (A + t • B) 2 / schattenNorm B 2) ^ 2 = t ^ 2 + c * t + a := by
  have hn' : (0 : ℝ) < n := by exact_mod_cast hn
  have hb := trace_sq_pos hB h
  have hs : ∀ {M : Matrix (Fin n) (Fin n) ℝ}, M.IsHermitian → schattenNorm M 2 ^ 2 = (M * M).trace / n := by
    intro M hM
    rw [schattenNorm_two hM, Real.sq_sqrt]
    rcases eq_or_ne M 0 with rfl | h0
    · simp
    · exact div_nonneg (trace_sq_pos hM h0).le hn'.le
  refine ⟨by rw [schattenNorm_two hB]; exact Real.sqrt_pos.2 (by positivity), (A * A).trace / (B * B).trace,
    2 * (A * B).trace / (B * B).trace, fun t => ?_⟩
  have ht : (A + t • B).IsHermitian := hA.add (by
    unfold IsHermitian
    rw [conjTranspose_smul, hB.eq, star_trivial])
  refine ⟨by rw [schattenNorm_two ht]; exact Real.sqrt_nonneg _, ?_⟩
  rw [div_pow, hs ht, hs hB, trace_affine_sq]
  field_simp
  ring

/-- C41: for order two the monomial interpolation is exact at every `t`, positive or negative, for every pair of
symmetric matrices and every single point but zero. -/
theorem mbf_exact_order_two (hn : 0 < n) (hp : P.p = 2) (hA : P.A.IsHermitian) (hB : P.matB.IsHermitian)
    (h0 : P.matB ≠ 0) (hS : ∀ M : Matrix (Fin n) (Fin n) ℝ, M.IsHermitian → P.norm M = .ok (schattenNorm M P.p))
    (st : Interp.Settings) {t1 : ℝ} (ht1 : t1 ≠ 0) :
    ∃ f, P.create st "mbf" (.list [t1]) = .ok f ∧ ∀ t, ExactAt P f t := by
  rw [hp] at hS
  obtain ⟨hb, a, c, hq⟩ := norm_two_quadratic hn hA hB h0
  have hev : ∀ t, P.eval t = .ok (schattenNorm (P.A + t • P.matB) 2) := fun t => hS _ (hA.add (by
    unfold IsHermitian
    rw [conjTranspose_smul, hB.eq, star_trivial]))
  have hA0 : schattenNorm P.A 2 = schattenNorm (P.A + (0 : ℝ) • P.matB) 2 := by rw [zero_smul, add_zero]
  set s : ℝ → ℝ := fun t => schattenNorm (P.A + t • P.matB) 2 with hs
  have hin : P.inputNorms = .ok (s 0 / schattenNorm P.matB 2, schattenNorm P.matB 2) := by
    unfold Problem.inputNorms
    rw [hS _ hA, hA0]
    cases h : P.B with
    | none =>
      have : P.matB = 1 := by unfold Problem.matB; rw [h]; rfl
      simp only [bind, Except.bind, this, schattenNorm_one hn]
      rw [hs, this]
    | some B =>
      have hBB : P.matB = B := by unfold Problem.matB; rw [h]; rfl
      rw [hBB] at hB
      simp only [bind, Except.bind, hS _ hB, hBB]
      rw [hs, hBB]
  set nb := schattenNorm P.matB 2 with hnb
  have hbase : P.base (.list [t1]) = .ok ⟨s 0 / nb, nb, [(t1, s t1 / nb)]⟩ := by
    simp only [Problem.base, hin, Points.toList, Problem.dataAt, List.mapM_cons, List.mapM_nil, hev, bind, Except.bind,
      pure, Except.pure]
    rfl
  refine ⟨.mbf ⟨⟨s 0 / nb, nb, [(t1, s t1 / nb)]⟩, t1, s t1 / nb⟩, ?_, fun t => ⟨s t, hev t, ?_⟩⟩
  · rw [create_mbf]
    simp only [Problem.mbf, hbase, mbfPoint, Points.eqEmpty, List.isEmpty_cons, bind, Except.bind, Bool.false_eq_true,
      if_false, hev]
    rfl
  · have e : t ^ 2 + ((s t1 / nb) ^ 2 - (s 0 / nb) ^ 2 - t1 ^ 2) * (t / t1) + (s 0 / nb) ^ 2 = (s t / nb) ^ 2 := by
      rw [(hq t).2, (hq t1).2, (hq 0).2]
      field_simp
      ring
    simp only [Problem.interpolate, Mbf.interpolate, Base.finish]
    rw [if_neg hb.ne', if_neg ht1, e, if_neg (not_lt.2 (sq_nonneg _)), Option.map_some,
      Real.sqrt_sq (div_nonneg (hq t).1 hb.le), div_mul_cancel₀ _ hb.ne']

/-- The call `schatten(·, p=2, method='exact')` meets the hypothesis of `mbf_exact_order_two`. -/
theorem exact_computes_order_two (env : Top.Env) (hn : 0 < n) (A : Matrix (Fin n) (Fin n) ℝ)
    (B : Option (Matrix (Fin n) (Fin n) ℝ)) {M : Matrix (Fin n) (Fin n) ℝ} (hM : M.IsHermitian) :
    (Problem.ofCall env A B (.int 2) "exact").norm M = .ok (schattenNorm M 2) := by
  have hn' : (0 : ℝ) < n := by exact_mod_cast hn
  simp only [Problem.ofCall, schattenCall]
  rcases eq_or_ne M 0 with rfl | h0
  · obtain ⟨q, h⟩ := exact_trace (A := .dense (square (0 : Matrix (Fin n) (Fin n) ℝ))) rfl 2
    have : Top.schatten env (.array (.dense ⟨n, n, 0⟩)) false (.num (.int 2)) "exact" =
        .ok (some (.real 0)) := by
      unfold Top.schatten Top.schattenArray
      simp only
      rw [if_neg (show ¬ (Hutchinson.Exponent.int 2).val = 0 by simp [Hutchinson.Exponent.val]),
        if_pos (show 0 < (Hutchinson.Exponent.int 2).val by simp [Hutchinson.Exponent.val])]
      unfold Top.trace
      rw [(dispatch_runs_named _ _ (.error .runtimeError) (.error .runtimeError) _).1.1]
      have h' : _ = _ := h
      simp only [Nat.cast_ofNat, square] at h'
      rw [h']
      simp only [Except.map, Except.ok_bind', Option.bind_some, Direct.Array2.value]
      unfold Top.rootDiv powR
      simp [Hutchinson.Exponent.val]
    rw [this, schattenNorm_two hM]
    simp
  · have hp := trace_sq_pos hM h0
    have h := schatten_exact env (A := .dense (square M)) (M := M) rfl (k := 2) (by norm_num) hn
      (by rw [pow_two]; exact hp) false rfl
    simp only [Nat.cast_ofNat, square] at h
    rw [h, schattenNorm_two hM, pow_two, Real.sqrt_eq_rpow]

/-- C41 for `InterpolateSchatten(A, B, p=2, kind='mbf', ti=[t1], options={'method': 'exact'})`. -/
theorem mbf_exact_call (env : Top.Env) (hn : 0 < n) {A B : Matrix (Fin n) (Fin n) ℝ} (hA : A.IsHermitian)
    (hB : B.IsHermitian) (h0 : B ≠ 0) (st : Interp.Settings) {t1 : ℝ} (ht1 : t1 ≠ 0) :
    ∃ f, (Problem.ofCall env A (some B) (.int 2) "exact").create st "mbf" (.list [t1]) = .ok f ∧
      ∀ t, (Problem.ofCall env A (some B) (.int 2) "exact").interpolate f t =
        .ok (some (Real.sqrt (((A + t • B) * (A + t • B)).trace / n))) := by
  have hp : (Problem.ofCall env A (some B) (.int 2) "exact").p = 2 := by
    simp [Problem.ofCall, Hutchinson.Exponent.val]
  obtain ⟨f, hf, hx⟩ := mbf_exact_order_two (P := Problem.ofCall env A (some B) (.int 2) "exact") hn hp hA hB h0
    (fun M hM => by rw [hp]; exact exact_computes_order_two env hn A (some B) hM) st ht1
  refine ⟨f, hf, fun t => ?_⟩
  obtain ⟨s, h1, h2⟩ := hx t
  have ht : (A + t • B).IsHermitian := hA.add (by
    unfold IsHermitian
    rw [conjTranspose_smul, hB.eq, star_trivial])
  have h3 : (Problem.ofCall env A (some B) (.int 2) "exact").eval t = .ok (schattenNorm (A + t • B) 2) :=
    exact_computes_order_two env hn A (some B) ht
  rw [h1] at h3
  have : s = schattenNorm (A + t • B) 2 := by injection h3
  rw [h2, this, schattenNorm_two ht]

/-- C41 with the default point `1/tau_0` of the signature `ti=[]`. -/
theorem mbf_default_exact_order_two (hn : 0 < n) (hp : P.p = 2) (hA : P.A.PosDef)
    (hB : ∀ B, P.B = some B → B.PosDef) (hS : ComputesSchatten P) (st : Interp.Settings) :
    ∃ f, P.create st "mbf" (.list []) = .ok f ∧ ∀ t, 0 ≤ t → ExactAt P f t := by
  have hP := goodProblem_of hn hA hB hS
  obtain ⟨b, hb⟩ := base_some hP (ti := .list []) (.inl rfl) (by simp)
  have hb' := base_ok hP (.inl rfl) hb
  have hmB := posDef_matB hP
  have h0 : P.matB ≠ 0 := by
    intro h
    have : Nonempty (Fin n) := ⟨⟨0, hn⟩⟩
    have := hmB.trace_pos
    rw [h, trace_zero] at this
    exact lt_irrefl _ this
  obtain ⟨-, a, c, hq⟩ := norm_two_quadratic hn hA.1 hmB.1 h0
  have hnb : b.normB = schattenNorm P.matB 2 := by
    cases h : P.B with
    | none =>
      rw [hb'.normB_one h]
      unfold Problem.matB
      rw [h, Option.getD_none, schattenNorm_one hn]
    | some B =>
      have h1 := hb'.normB_eq B h
      rw [hS _ (hB B h), hp] at h1
      unfold Problem.matB
      rw [h, Option.getD_some]
      exact (by injection h1 : schattenNorm B 2 = b.normB).symm
  have hev : ∀ t, 0 ≤ t → P.eval t = .ok (schattenNorm (P.A + t • P.matB) 2) := by
    intro t ht
    have := hS _ (posDef_affine hP ht)
    rwa [hp] at this
  set s : ℝ → ℝ := fun t => schattenNorm (P.A + t • P.matB) 2 with hs
  have hpos := hb'.normB_pos
  have htau : b.tau0 = s 0 / b.normB := by
    have := hb'.zero
    rw [hev 0 le_rfl] at this
    have e : s 0 = b.tau0 * b.normB := by injection this
    rw [e, mul_div_cancel_right₀ _ hpos.ne']
  have ht1 : 0 < 1 / b.tau0 := one_div_pos.2 hb'.tau0_pos
  refine ⟨.mbf ⟨b, 1 / b.tau0, s (1 / b.tau0) / b.normB⟩, ?_, fun t ht => ⟨s t, hev t ht, ?_⟩⟩
  · rw [create_mbf]
    simp only [Problem.mbf, hb, mbfPoint, Points.eqEmpty, List.isEmpty_nil, bind, Except.bind, if_true,
      hev _ ht1.le]
    rfl
  · generalize 1 / b.tau0 = t1 at ht1 ⊢
    have e : t ^ 2 + ((s t1 / b.normB) ^ 2 - b.tau0 ^ 2 - t1 ^ 2) * (t / t1) + b.tau0 ^ 2 = (s t / b.normB) ^ 2 := by
      rw [htau, hnb, (hq t).2, (hq t1).2, (hq 0).2]
      field_simp
      ring
    simp only [Problem.interpolate, Mbf.interpolate, Base.finish]
    rw [if_neg hpos.ne', if_neg ht1.ne', e, if_neg (not_lt.2 (sq_nonneg _)), Option.map_some,
      Real.sqrt_sq (div_nonneg (hq t).1 hpos.le), div_mul_cancel₀ _ hpos.ne']

/-! ### C43 -/

theorem eval_schatten (hS : ComputesSchatten P) {t : ℝ} (hX : (P.A + t • P.matB).PosDef) :
    P.eval t = .ok (schattenNorm (P.A + t • P.matB) P.p) := hS _ hX

/-- C43: wherever the interpolant of the norm is exact, `InterpolateTrace` returns the trace of the power; so does
`eval` everywhere. -/
theorem trace_conversion (hn : 0 < n) (hS : ComputesSchatten P) (hp : P.p ≠ 0) {t : ℝ}
    (hX : (P.A + t • P.matB).PosDef) :
    P.traceEval t = .ok (some (cfc (fun x : ℝ => x ^ P.p) (P.A + t • P.matB)).trace) ∧
      ∀ f, ExactAt P f t →
        P.traceInterpolate f t = .ok (some (cfc (fun x : ℝ => x ^ P.p) (P.A + t • P.matB)).trace) := by
  have h := eval_schatten hS hX
  have hs := schattenNorm_pos hX hn P.p
  have he : toTracep n P.p (some (schattenNorm (P.A + t • P.matB) P.p)) =
      some (cfc (fun x : ℝ => x ^ P.p) (P.A + t • P.matB)).trace := by
    rw [toTracep_pos hs, schattenNorm_rpow hX hn hp, mul_comm]
  refine ⟨by simp only [Problem.traceEval, h, Except.map, he], ?_⟩
  rintro f ⟨s, h1, h2⟩
  rw [h] at h1
  have : schattenNorm (P.A + t • P.matB) P.p = s := by injection h1
  subst this
  simp only [Problem.traceInterpolate, h2, Except.map, he]

/-- C43: `InterpolateTrace` refuses `p = 0` and nothing else that the interpolation of the norm accepts; for every other
`p`, what it returns at the interpolation points is the trace of the power of the matrix there. -/
theorem interpolate_trace (hn : 0 < n) (hP : GoodProblem P) (hS : ComputesSchatten P) {st : Interp.Settings}
    (hlib : SplineSpec st.spline) (hnp : NumpySpec st.np) {kind : String} {ti : Points} :
    (P.p = 0 → P.createTrace st kind ti = .error .valueError) ∧
      (P.p ≠ 0 → ∀ f, P.createTrace st kind ti = .ok f ↔ P.create st kind ti = .ok f) ∧
      ∀ f l, IsPoints ti l → (∀ t ∈ l, 0 < t) → SoundOptions st kind l → kind.toLower ≠ "eig" →
        P.createTrace st kind ti = .ok f →
        ∀ t ∈ l, P.traceInterpolate f t = .ok (some (cfc (fun x : ℝ => x ^ P.p) (P.A + t • P.matB)).trace) := by
  refine ⟨fun h => if_pos h, fun h f => by rw [Problem.createTrace, if_neg h], ?_⟩
  intro f l hti hl hopt hkind h t ht
  by_cases hp : P.p = 0
  · rw [Problem.createTrace, if_pos hp] at h
    exact absurd h (by simp)
  · rw [Problem.createTrace, if_neg hp] at h
    exact (trace_conversion hn hS hp (posDef_affine hP (hl t ht).le)).2 f
      ((interpolant_honours_data_partial hP hlib hnp hti hl hopt hkind h).1 t ht)

/-- Non-vacuity: three points with the default method. -/
example (lib : Eigen.Lib) : ∃ f, (diagProblem 3 false).createTrace (exampleSettings lib .ortho2 1 none) "IMBF"
    (.list [1, 2, 5]) = .ok f ∧ ∀ t ∈ [(1 : ℝ), 2, 5], (diagProblem 3 false).traceInterpolate f t =
      .ok (some (cfc (fun x : ℝ => x ^ (3 : ℝ)) ((diagProblem 3 false).A + t • (diagProblem 3 false).matB)).trace) := by
  have hk : ("IMBF" : String).toLower = "imbf" := by decide +kernel
  have hl : ∀ t ∈ [(1 : ℝ), 2, 5], 0 < t := by simp
  obtain ⟨f, hf⟩ := increasing_points_accepted_partial (diagProblem_good 3 false)
    (exampleSettings_spline lib .ortho2 1 none) (kind := "IMBF") (l := [1, 2, 5]) (by simp) hl (by norm_num)
    (.inr (.inr (.inl ⟨hk, by simp [exampleSettings], by simp [exampleSettings]⟩)))
  have key := interpolate_trace (by norm_num) (diagProblem_good 3 false) (diagProblem_schatten 3 false)
    (exampleSettings_spline lib .ortho2 1 none) (exampleSettings_numpy lib .ortho2 1 none) (kind := "IMBF")
    (ti := .list [1, 2, 5])
  have hp : (diagProblem 3 false).p ≠ 0 := by norm_num [diagProblem]
  have hf' := (key.2.1 hp f).2 hf
  refine ⟨f, hf', key.2.2 f _ (.inl rfl) hl ?_ ?_ hf'⟩
  · exact ⟨fun _ => by simp [exampleSettings], fun _ => by simp [exampleSettings], fun h => by
      rw [hk] at h; exact absurd h (by decide +kernel)⟩
  · rw [hk]; decide +kernel

/-- C43: the same for `InterpolateLogdet`. -/
theorem logdet_conversion (hn : 0 < n) (hS : ComputesSchatten P) (hp : P.p = 0) {t : ℝ}
    (hX : (P.A + t • P.matB).PosDef) :
    P.logdetEval t = .ok (some (Real.log (P.A + t • P.matB).det)) ∧
      ∀ f, ExactAt P f t → P.logdetInterpolate f t = .ok (some (Real.log (P.A + t • P.matB).det)) := by
  have h := eval_schatten hS hX
  have hs := schattenNorm_pos hX hn P.p
  have he : toLogdet n (some (schattenNorm (P.A + t • P.matB) P.p)) =
      some (Real.log (P.A + t • P.matB).det) := by
    rw [toLogdet_pos hs, schattenNorm_log hX hn, hp]
  refine ⟨by simp only [Problem.logdetEval, h, Except.map, he], ?_⟩
  rintro f ⟨s, h1, h2⟩
  rw [h] at h1
  have : schattenNorm (P.A + t • P.matB) P.p = s := by injection h1
  subst this
  simp only [Problem.logdetInterpolate, h2, Except.map, he]

theorem mapM_ok {α β : Type} {g : α → Except PyExc β} : ∀ {l : List α} {r : List β}, l.mapM g = .ok r →
    List.Forall₂ (fun x y => g x = .ok y) l r := by
  intro l
  induction l with
  | nil =>
    intro r h
    simp only [List.mapM_nil, pure, Except.pure, Except.ok.injEq] at h
    subst h
    exact .nil
  | cons x l ih =>
    intro r h
    rw [List.mapM_cons] at h
    obtain ⟨y, hy, h⟩ := bind_inv h
    obtain ⟨r', hr, h⟩ := bind_inv h
    simp only [pure, Except.pure, Except.ok.injEq] at h
    subst h
    exact .cons hy (ih hr)

/-- C43: a number gives a number, and an array gives an array with one value for each of its points. -/
theorem query_shape {α β : Type} (g : α → Except PyExc β) {q : Query α} {r : Query β} (h : q.each g = .ok r) :
    (∀ x, q = .num x → ∃ y, r = .num y ∧ g x = .ok y) ∧
      (∀ l, q = .arr l → ∃ l', r = .arr l' ∧ l'.length = l.length ∧
        ∀ (i : ℕ) (x : α), l[i]? = some x → ∃ y, l'[i]? = some y ∧ g x = .ok y) := by
  constructor
  · rintro x rfl
    obtain ⟨y, hy, rfl⟩ := map_inv h
    exact ⟨y, rfl, hy⟩
  · rintro l rfl
    obtain ⟨l', hl', rfl⟩ := map_inv h
    have hf := mapM_ok hl'
    refine ⟨l', rfl, hf.length_eq.symm, fun i x hx => ?_⟩
    obtain ⟨hi, rfl⟩ := List.getElem?_eq_some_iff.1 hx
    have hi' : i < l'.length := hf.length_eq ▸ hi
    exact ⟨l'[i], List.getElem?_eq_getElem hi', List.forall₂_iff_get.1 hf |>.2 i hi hi'⟩

/-! ### C45 -/

theorem tableOrtho_gram : ∀ j < 9, ∀ k < 9,
    (∑ i ∈ range 9, ∑ l ∈ range 9, (tableGet tableOrtho j i : ℚ) * tableGet tableOrtho k l *
      ((i + 1) * (l + 1) / (i + l + 2))) = if j = k then ((j : ℚ) + 1) / 2 else 0 := by decide +kernel

theorem tableOrtho2_gram : ∀ j < 9, ∀ k < 9,
    (∑ i ∈ range 9, ∑ l ∈ range 9, (tableGet tableOrtho2 j i : ℚ) * tableGet tableOrtho2 k l *
      ((i + 2) * (l + 2) / (i + l + 4))) = if j = k then ((j : ℚ) + 2) / 2 else 0 := by decide +kernel

/-- `∫₀¹ t^(1/i) t^(1/j) dt/t = ij / (i + j)` -/
theorem phi_inner {i j : ℕ} (hi : 0 < i) (hj : 0 < j) :
    IntervalIntegrable (fun t => phi i t * phi j t / t) MeasureTheory.volume 0 1 ∧
      innerLog (phi i) (phi j) = (i : ℝ) * j / (i + j) := by
  have hi' : (0 : ℝ) < i := by exact_mod_cast hi
  have hj' : (0 : ℝ) < j := by exact_mod_cast hj
  have hr : -1 < 1 / (i : ℝ) + 1 / j - 1 := by
    have : 0 < 1 / (i : ℝ) + 1 / j := by positivity
    linarith
  have he : Set.EqOn (fun t : ℝ => t ^ (1 / (i : ℝ) + 1 / j - 1)) (fun t => phi i t * phi j t / t)
      (Set.uIoc 0 1) := by
    intro t ht
    rw [Set.uIoc_of_le zero_le_one] at ht
    simp only [phi]
    rw [Real.rpow_sub ht.1, Real.rpow_add ht.1, Real.rpow_one]
  have hint := intervalIntegral.intervalIntegrable_rpow' (a := 0) (b := 1) hr
  refine ⟨hint.congr he, ?_⟩
  unfold innerLog
  rw [← intervalIntegral.integral_congr_ae (Filter.Eventually.of_forall fun t ht => he ht),
    integral_rpow (.inl hr), sub_add_cancel, Real.one_rpow, Real.zero_rpow (by positivity)]
  field_simp
  ring

theorem inner_combination {a b : ℕ → ℝ} {s : ℕ} (hs : 0 < s) :
    innerLog (fun t => ∑ i ∈ range 9, a i * phi (i + s) t) (fun t => ∑ l ∈ range 9, b l * phi (l + s) t) =
      ∑ i ∈ range 9, ∑ l ∈ range 9, a i * b l * (((i + s : ℕ) : ℝ) * (l + s : ℕ) / ((i + s : ℕ) + (l + s : ℕ))) := by
  unfold innerLog
  have : ∀ t : ℝ, (∑ i ∈ range 9, a i * phi (i + s) t) * (∑ l ∈ range 9, b l * phi (l + s) t) / t =
      ∑ i ∈ range 9, ∑ l ∈ range 9, a i * b l * (phi (i + s) t * phi (l + s) t / t) := by
    intro t
    rw [sum_mul_sum, sum_div]
    refine sum_congr rfl fun i _ => ?_
    rw [sum_div]
    exact sum_congr rfl fun l _ => by ring
  simp only [this]
  have hI : ∀ i l, IntervalIntegrable (fun t => a i * b l * (phi (i + s) t * phi (l + s) t / t))
      MeasureTheory.volume 0 1 := fun i l => (phi_inner (by omega) (by omega)).1.const_mul _
  rw [intervalIntegral.integral_finsetSum fun i _ => by
    have := IntervalIntegrable.sum (range 9) fun l _ => hI i l
    rwa [show (∑ l ∈ range 9, fun t => a i * b l * (phi (i + s) t * phi (l + s) t / t)) =
      fun t => ∑ l ∈ range 9, a i * b l * (phi (i + s) t * phi (l + s) t / t) from by
        funext t; rw [Finset.sum_apply]] at this]
  refine sum_congr rfl fun i _ => ?_
  rw [intervalIntegral.integral_finsetSum fun l _ => hI i l]
  refine sum_congr rfl fun l _ => ?_
  rw [intervalIntegral.integral_const_mul]
  congr 1
  exact (phi_inner (i := i + s) (j := l + s) (by omega) (by omega)).2

theorem alpha_sign {j k : ℕ} {x : ℝ} (h : j ≠ k → x = 0) (a : ℕ → ℝ) (c : ℝ) (hj : j = k → a j * a j * x = c) :
    a j * a k * x = if j = k then c else 0 := by
  split_ifs with e
  · subst e; exact hj rfl
  · rw [h e, mul_zero]

/-- C45: the nine functions of each table are orthonormal on the unit interval with the weight `1/t`. -/
theorem orthogonal_tables (basis : Basis) (hb : basis = .ortho ∨ basis = .ortho2) {j k : ℕ} (hj : j < 9)
    (hk : k < 9) : innerLog (basisFun basis j) (basisFun basis k) = if j = k then 1 else 0 := by
  have hsq : ∀ (j : ℕ) (c : ℝ), 0 ≤ c → ((-1) ^ j * Real.sqrt c) * ((-1) ^ j * Real.sqrt c) = c := by
    intro j c hc
    rw [mul_mul_mul_comm, ← pow_add, Real.mul_self_sqrt hc, Even.neg_one_pow ⟨j, rfl⟩, one_mul]
  rcases hb with rfl | rfl
  · have hg := congrArg (fun q : ℚ => (q : ℝ)) (tableOrtho_gram j hj k hk)
    have := inner_combination (a := fun i => alphaOrtho j * (tableGet tableOrtho j i : ℝ))
      (b := fun i => alphaOrtho k * (tableGet tableOrtho k i : ℝ)) (s := 1) one_pos
    change innerLog (fun t => ∑ i ∈ range 9, alphaOrtho j * (tableGet tableOrtho j i : ℝ) * phi (i + 1) t)
      (fun t => ∑ i ∈ range 9, alphaOrtho k * (tableGet tableOrtho k i : ℝ) * phi (i + 1) t) = _
    rw [this]
    have hfac : ∀ i l : ℕ, alphaOrtho j * (tableGet tableOrtho j i : ℝ) * (alphaOrtho k * (tableGet tableOrtho k l : ℝ)) *
        (((i + 1 : ℕ) : ℝ) * (l + 1 : ℕ) / ((i + 1 : ℕ) + (l + 1 : ℕ))) =
        alphaOrtho j * alphaOrtho k * ((tableGet tableOrtho j i : ℝ) * tableGet tableOrtho k l *
          (((i : ℝ) + 1) * (l + 1) / (i + l + 2))) := by
      intro i l
      push_cast
      rw [show ((i : ℝ) + 1 + (l + 1)) = i + l + 2 by ring]
      ring
    simp only [hfac, ← mul_sum]
    push_cast at hg
    rw [hg]
    refine alpha_sign (fun e => by simp [e]) alphaOrtho 1 fun e => ?_
    rw [if_pos e]
    unfold alphaOrtho
    rw [hsq _ _ (by positivity)]
    push_cast
    field_simp
  · have hg := congrArg (fun q : ℚ => (q : ℝ)) (tableOrtho2_gram j hj k hk)
    have := inner_combination (a := fun i => alphaOrtho2 j * (tableGet tableOrtho2 j i : ℝ))
      (b := fun i => alphaOrtho2 k * (tableGet tableOrtho2 k i : ℝ)) (s := 2) two_pos
    change innerLog (fun t => ∑ i ∈ range 9, alphaOrtho2 j * (tableGet tableOrtho2 j i : ℝ) * phi (i + 2) t)
      (fun t => ∑ i ∈ range 9, alphaOrtho2 k * (tableGet tableOrtho2 k i : ℝ) * phi (i + 2) t) = _
    rw [this]
    have hfac : ∀ i l : ℕ, alphaOrtho2 j * (tableGet tableOrtho2 j i : ℝ) *
        (alphaOrtho2 k * (tableGet tableOrtho2 k l : ℝ)) *
        (((i + 2 : ℕ) : ℝ) * (l + 2 : ℕ) / ((i + 2 : ℕ) + (l + 2 : ℕ))) =
        alphaOrtho2 j * alphaOrtho2 k * ((tableGet tableOrtho2 j i : ℝ) * tableGet tableOrtho2 k l *
          (((i : ℝ) + 2) * (l + 2) / (i + l + 4))) := by
      intro i l
      push_cast
      rw [show ((i : ℝ) + 2 + (l + 2)) = i + l + 4 by ring]
      ring
    simp only [hfac, ← mul_sum]
    push_cast at hg
    rw [hg]
    refine alpha_sign (fun e => by simp [e]) alphaOrtho2 1 fun e => ?_
    rw [if_pos e]
    unfold alphaOrtho2
    rw [hsq _ _ (by positivity)]
    push_cast
    field_simp

end Imate.Props
