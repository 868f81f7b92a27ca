import Verif.Spec.InterpPlot
import Verif.Props.Interpolator

/-! Lemmas about the plots of the interpolators. -/

namespace Imate.Interp

open Imate.Spec Imate.Props Matrix

variable {n : ℕ} {P : Problem n}

theorem _root_.Imate.Spec.PlotProblem.good (h : PlotProblem P) : GoodProblem P := goodProblem_of h.size h.posA h.posB h.schatten

theorem imbfInit_base {basis : Basis} {b : Base} {m : Imbf} (h : imbfInit basis b = .ok m) : m.base = b := by
  unfold imbfInit at h
  cases basis with
  | nonOrtho =>
    obtain ⟨w, -, h⟩ := bind_inv h
    injection h with h; rw [← h]
  | ortho =>
    simp only at h
    split_ifs at h
    obtain ⟨w, -, h⟩ := bind_inv h
    injection h with h; rw [← h]
  | ortho2 =>
    simp only at h
    split_ifs at h
    obtain ⟨w, -, h⟩ := bind_inv h
    injection h with h; rw [← h]
  | other =>
    injection h with h; rw [← h]

theorem splineInit_base {lib : SplineLib} {k : ℤ} {b : Base} {m : Fitted} (h : splineInit lib k b = .ok m) :
    m.base = b ∧ m.funcType = k ∧ (k = 1 ∨ k = 2) := by
  unfold splineInit at h
  split_ifs at h with h1 h2 h3 h4
  · obtain ⟨w, -, h⟩ := bind_inv h
    injection h with h; rw [← h]; exact ⟨rfl, rfl, .inl h1⟩
  · obtain ⟨w, -, h⟩ := bind_inv h
    injection h with h; rw [← h]; exact ⟨rfl, rfl, .inr h3⟩

theorem rbfInit_base {lib : SplineLib} {k : ℤ} {b : Base} {m : Fitted} (h : rbfInit lib k b = .ok m) :
    m.base = b := by
  unfold rbfInit at h
  simp only at h
  split_ifs at h
  · obtain ⟨w, -, h⟩ := bind_inv h
    injection h with h; rw [← h]
  · obtain ⟨w, -, h⟩ := bind_inv h
    injection h with h; rw [← h]

theorem crfInit_base {opt : ℝ} {s : Option ℝ} {k : ℤ} {b : Base} {m : Crf} (h : crfInit opt s k b = .ok m) :
    m.base = b ∧ m.funcType = k ∧ (k = 1 ∨ k = 2) := by
  unfold crfInit at h
  simp only at h
  split_ifs at h with h1 h2
  · injection h with h; rw [← h]; exact ⟨rfl, rfl, h1⟩
  · obtain ⟨w, -, h⟩ := bind_inv h
    injection h with h; rw [← h]; exact ⟨rfl, rfl, h1⟩

theorem rpfInit_base {b : Base} {m : Rpf} (h : rpfInit b = .ok m) : m.base = b := by
  unfold rpfInit at h
  simp only at h
  split_ifs at h
  obtain ⟨w, -, h⟩ := bind_inv h
  split_ifs at h
  injection h with h; rw [← h]

/-- The attributes of an interpolator are those of the points. -/
theorem created_base (hP : GoodProblem P) {st : Settings} {kind : String} {ti : Points} {l : List ℝ}
    (hti : IsPoints ti l) {f : Interpolator} (h : P.create st kind ti = .ok f) :
    ∀ b, f.base = some b → BaseOf P l b := by
  intro b hb
  unfold Problem.create at h
  split_ifs at h with h1 h2 h3 h4 h5 h6 h7 h8
  · injection h with h
    subst h; cases hb
  · obtain ⟨m, hm, rfl⟩ := map_inv h
    cases hb
  · obtain ⟨m, hm, rfl⟩ := map_inv h
    obtain ⟨b', s, t1, hb', ht1, hs, rfl⟩ := base_mbf hti hm
    simp only [Interpolator.base, Option.some.injEq] at hb
    exact hb ▸ base_ok hP hti hb'
  · obtain ⟨m, hm, rfl⟩ := map_inv h
    unfold Problem.imbf at hm
    obtain ⟨-, -, hm⟩ := bind_inv hm
    obtain ⟨b', hb', hm⟩ := bind_inv hm
    simp only [Interpolator.base, Option.some.injEq, imbfInit_base hm] at hb
    exact hb ▸ base_ok hP hti hb'
  · obtain ⟨m, hm, rfl⟩ := map_inv h
    unfold Problem.rbf at hm
    obtain ⟨-, -, hm⟩ := bind_inv hm
    obtain ⟨b', hb', hm⟩ := bind_inv hm
    simp only [Interpolator.base, Option.some.injEq, rbfInit_base hm] at hb
    exact hb ▸ base_ok hP hti hb'
  · obtain ⟨m, hm, rfl⟩ := map_inv h
    unfold Problem.crf at hm
    obtain ⟨ti', ht', hm1⟩ := bind_inv hm
    obtain ⟨b', hb', hm2⟩ := bind_inv hm1
    have : ti' = ti := by
      unfold crfPointsArg at ht'
      rcases hti with rfl | rfl <;>
      · simp only at ht'
        obtain ⟨e, -, ht'⟩ := bind_inv ht'
        split_ifs at ht'
        injection ht' with ht'
        exact ht'.symm
    subst this
    simp only [Interpolator.base, Option.some.injEq, (crfInit_base hm2).1] at hb
    exact hb ▸ base_ok hP hti hb'
  · obtain ⟨m, hm, rfl⟩ := map_inv h
    unfold Problem.spline at hm
    obtain ⟨-, -, hm⟩ := bind_inv hm
    obtain ⟨b', hb', hm⟩ := bind_inv hm
    simp only [Interpolator.base, Option.some.injEq, (splineInit_base hm).1] at hb
    exact hb ▸ base_ok hP hti hb'
  · obtain ⟨m, hm, rfl⟩ := map_inv h
    have : P.rpf ti = if l = [] then .error .valueError else (do
        let b ← P.base ti
        rpfInit b) := by rcases hti with rfl | rfl <;> rfl
    rw [this] at hm
    split_ifs at hm with hne
    obtain ⟨b', hb', hm⟩ := bind_inv hm
    simp only [Interpolator.base, Option.some.injEq, rpfInit_base hm] at hb
    exact hb ▸ base_ok hP hti hb'

/-- The attributes of a constructed interpolator. -/
theorem constructed_base (hP : GoodProblem P) {f : Interpolator} (h : Constructed P f) :
    ∀ b, f.base = some b → ∃ l, BaseOf P l b := by
  obtain ⟨st, kind, ti, l, hti, h⟩ := h
  exact fun b hb => ⟨l, created_base hP hti h b hb⟩

theorem normB_eq (hP : PlotProblem P) {l : List ℝ} {b : Base} (hb : BaseOf P l b) :
    b.normB = schattenNorm P.matB P.p := by
  unfold Problem.matB
  cases hB : P.B with
  | none => rw [hb.normB_one hB]; exact (schattenNorm_one hP.size _).symm
  | some B =>
    have h1 := hb.normB_eq B hB
    rw [hP.schatten B (hP.posB B hB)] at h1
    injection h1 with h1
    exact h1.symm

theorem tau0_eq (hP : PlotProblem P) {l : List ℝ} {b : Base} (hb : BaseOf P l b) :
    b.tau0 = schattenNorm P.A P.p / schattenNorm P.matB P.p := by
  have h1 := hb.zero
  unfold Problem.eval at h1
  rw [zero_smul, add_zero, hP.schatten _ hP.posA] at h1
  injection h1 with h1
  rw [← normB_eq hP hb, h1, mul_div_cancel_right₀ _ hb.normB_pos.ne']

theorem plotNormB_eq (hP : PlotProblem P) {f : Interpolator} (h : Constructed P f) :
    P.plotNormB f = .ok (schattenNorm P.matB P.p) := by
  unfold Problem.plotNormB
  cases hb : f.base with
  | none => exact hP.schatten _ (posDef_matB hP.good)
  | some b =>
    obtain ⟨l, hl⟩ := constructed_base hP.good h b hb
    simp only [normB_eq hP hl]

theorem mapM_ok {α β : Type} {g : α → Except PyExc β} {r : α → β} : ∀ {l : List α}, (∀ x ∈ l, g x = .ok (r x)) →
    l.mapM g = .ok (l.map r)
  | [], _ => rfl
  | x :: l, h => by
    rw [List.mapM_cons, h x List.mem_cons_self, mapM_ok fun y hy => h y (List.mem_cons_of_mem _ hy)]
    rfl

theorem mapM_id_some {l : List ℝ} {α : Type} (L : List α) (g : α → ℝ) (h : l = L.map g) :
    (L.map fun x => some (g x)).mapM id = some l := by
  subst h
  induction L with
  | nil => rfl
  | cons x L ih => simp only [List.map_cons, List.mapM_cons, ih]; rfl

theorem mapM_id_map (l : List ℝ) : (l.map some).mapM id = some l :=
  mapM_id_some l id (by simp)

/-- The value of a class for a positive norm. -/
theorem value_pos (q : Quantity) {p v : ℝ} (hv : 0 < v) : q.value n p (some v) = some (ofNorm q n p v) := by
  cases q with
  | schatten => rfl
  | trace => simp only [Quantity.value, toTracep_pos hv, ofNorm, mul_comm]
  | logdet => simp only [Quantity.value, toLogdet_pos hv, ofNorm]

theorem ofNorm_schatten {q : Quantity} {p : ℝ} (hq : OrderOf q p) {X : Matrix (Fin n) (Fin n) ℝ} (hX : X.PosDef)
    (hn : 0 < n) : ofNorm q n p (schattenNorm X p) = functionOf q p X := by
  cases q with
  | schatten => rfl
  | trace => exact (schattenNorm_rpow hX hn hq).symm
  | logdet =>
    have : p = 0 := hq
    subst this
    exact (schattenNorm_log hX hn).symm

theorem ofNorm_pos {q : Quantity} (hq : q ≠ .logdet) {p v : ℝ} (hn : 0 < n) (hv : 0 < v) : 0 < ofNorm q n p v := by
  have hn' : (0 : ℝ) < n := by exact_mod_cast hn
  cases q with
  | schatten => exact hv
  | trace => exact mul_pos hn' (Real.rpow_pos_of_pos hv _)
  | logdet => exact absurd rfl hq

/-- `normal_factor` as a number. -/
noncomputable def factorOf (q : Quantity) (P : Problem n) (normalize : Bool) : ℝ :=
  if normalize then functionOf q P.p P.matB else if q = .logdet then 0 else 1

theorem factor_eq (hP : PlotProblem P) {q : Quantity} (hq : OrderOf q P.p) {f : Interpolator} (h : Constructed P f)
    (nm : Bool) : P.factor q f nm = .ok (some (factorOf q P nm)) := by
  unfold Problem.factor factorOf
  cases nm with
  | false => cases q <;> rfl
  | true =>
    have hB := posDef_matB hP.good
    simp only [if_true, plotNormB_eq hP h, Except.map, value_pos q (schattenNorm_pos hB hP.size P.p),
      ofNorm_schatten hq hB hP.size]

theorem factorOf_pos (hP : PlotProblem P) {q : Quantity} (hq : OrderOf q P.p) (hl : q ≠ .logdet) (nm : Bool) :
    0 < factorOf q P nm := by
  unfold factorOf
  cases nm with
  | false => simp [hl]
  | true =>
    have hB := posDef_matB hP.good
    simp only [if_true]
    rw [← ofNorm_schatten hq hB hP.size]
    exact ofNorm_pos hl hP.size (schattenNorm_pos hB hP.size P.p)

theorem scaled_eq (hP : PlotProblem P) {q : Quantity} (hq : OrderOf q P.p) (nm : Bool) (y : ℝ) :
    q.scaled (some y) (some (factorOf q P nm)) = some (normalized q P.p P.matB nm y) := by
  by_cases hl : q = .logdet
  · subst hl
    cases nm <;> simp [Quantity.scaled, subO, factorOf, normalized]
  · have hf := factorOf_pos hP hq hl nm
    have : q.scaled (some y) (some (factorOf q P nm)) = some (y / factorOf q P nm) := by
      cases q with
      | logdet => exact absurd rfl hl
      | schatten => simp [Quantity.scaled, divO, hf.ne']
      | trace => simp [Quantity.scaled, divO, hf.ne']
    rw [this]
    cases q with
    | logdet => exact absurd rfl hl
    | schatten => cases nm <;> simp [factorOf, normalized]
    | trace => cases nm <;> simp [factorOf, normalized]

theorem plotExact_eq (hP : PlotProblem P) {q : Quantity} (hq : OrderOf q P.p) {l : List ℝ} (hl : ∀ t ∈ l, 0 ≤ t) :
    P.plotExact q l = .ok (l.map fun t => some (functionOf q P.p (P.A + t • P.matB))) := by
  refine mapM_ok fun t ht => ?_
  have hX := posDef_affine hP.good (hl t ht)
  simp only [Problem.eval, hP.schatten _ hX, Except.map, value_pos q (schattenNorm_pos hX hP.size P.p),
    ofNorm_schatten hq hX hP.size]

theorem plotValues_eq {q : Quantity} {f : Interpolator} {l : List ℝ} {v : ℝ → ℝ}
    (hv : ∀ t ∈ l, 0 < v t ∧ P.interpolate f t = .ok (some (v t))) :
    P.plotValues q f l = .ok (l.map fun t => some (ofNorm q n P.p (v t))) := by
  refine mapM_ok fun t ht => ?_
  simp only [(hv t ht).2, Except.map, value_pos q (hv t ht).1]

theorem zip_map_self {α β : Type} (g : α → β) : ∀ l : List α, l.zip (l.map g) = l.map fun x => (x, g x)
  | [] => rfl
  | x :: l => by rw [List.map_cons, List.zip_cons_cons, zip_map_self g l]; rfl

theorem zipWith_map_self {α β γ δ : Type} (f : β → γ → δ) (g : α → β) (h : α → γ) : ∀ l : List α,
    List.zipWith f (l.map g) (l.map h) = l.map fun x => f (g x) (h x)
  | [] => rfl
  | x :: l => by rw [List.map_cons, List.map_cons, List.zipWith_cons_cons, zipWith_map_self f g h l]; rfl

theorem plot_eq_log {q : Quantity} {f : Interpolator} (h : PlotsFunction q f) (t : PlotArg) (nm cmp : Bool) :
    P.plot q f t nm cmp = P.plotLog q f t nm cmp := by
  cases q with
  | trace => rfl
  | logdet => rfl
  | schatten =>
    obtain ⟨h1, h2⟩ := h rfl
    cases f with
    | crf m => exact absurd rfl (h1 m)
    | spl m => exact absurd rfl (h2 m)
    | _ => rfl

theorem functionOf_pos (hP : PlotProblem P) {q : Quantity} (hq : OrderOf q P.p) (hl : q ≠ .logdet) {t : ℝ}
    (ht : 0 ≤ t) : 0 < functionOf q P.p (P.A + t • P.matB) := by
  have hX := posDef_affine hP.good ht
  rw [← ofNorm_schatten hq hX hP.size]
  exact ofNorm_pos hl hP.size (schattenNorm_pos hX hP.size P.p)

theorem normalized_pos (hP : PlotProblem P) {q : Quantity} (hq : OrderOf q P.p) (hl : q ≠ .logdet) (nm : Bool) {y : ℝ}
    (hy : 0 < y) : 0 < normalized q P.p P.matB nm y := by
  have h1 := factorOf_pos hP hq hl nm
  have h2 := scaled_eq hP hq nm y
  cases q with
  | logdet => exact absurd rfl hl
  | schatten =>
    simp only [Quantity.scaled, divO, Option.bind_some, if_neg h1.ne', Option.some.injEq] at h2
    rw [← h2]; positivity
  | trace =>
    simp only [Quantity.scaled, divO, Option.bind_some, if_neg h1.ne', Option.some.injEq] at h2
    rw [← h2]; positivity

/-- The error before it is turned into percents. -/
noncomputable def rawError (q : Quantity) (y e : ℝ) : ℝ :=
  match q with
  | .logdet => y - e
  | _ => 1 - y / e

theorem error_eq (hP : PlotProblem P) {q : Quantity} (hq : OrderOf q P.p) (nm : Bool) (y : ℝ) {e : ℝ}
    (he : q ≠ .logdet → 0 < e) :
    q.error (some (normalized q P.p P.matB nm y)) (some (normalized q P.p P.matB nm e)) = some (rawError q y e) := by
  by_cases hl : q = .logdet
  · subst hl
    cases nm <;> simp [Quantity.error, subO, normalized, rawError]
  · have he' := he hl
    have h1 := factorOf_pos hP hq hl true
    cases q with
    | logdet => exact absurd rfl hl
    | schatten =>
      have h1 : (0 : ℝ) < functionOf .schatten P.p P.matB := by simpa [factorOf] using h1
      cases nm with
      | false => simp [Quantity.error, divO, normalized, rawError, he'.ne']
      | true =>
        simp only [Quantity.error, divO, normalized, rawError, Option.bind_some, if_true,
          if_neg (div_pos he' h1).ne', Option.map_some]
        rw [div_div_div_cancel_right₀ h1.ne']
    | trace =>
      have h1 : (0 : ℝ) < functionOf .trace P.p P.matB := by simpa [factorOf] using h1
      cases nm with
      | false => simp [Quantity.error, divO, normalized, rawError, he'.ne']
      | true =>
        simp only [Quantity.error, divO, normalized, rawError, Option.bind_some, if_true,
          if_neg (div_pos he' h1).ne', Option.map_some]
        rw [div_div_div_cancel_right₀ h1.ne']

/-! ### The number of decimals -/

theorem percentDecimals_ok {l : List ℝ} (hl : l ≠ []) (h : ∀ e ∈ l, |e| < 1) :
    ∃ d, percentDecimals (l.map some) = .ok d := by
  unfold percentDecimals
  rw [mapM_id_map]
  simp only
  set r := listMax (l.map fun e => |100 * e|) with hr
  have hm : r ∈ l.map fun e => |100 * e| := listMax_mem (by simpa using hl)
  obtain ⟨e, he, hre⟩ := List.mem_map.1 hm
  have h1 : r < 100 := by
    rw [← hre, abs_mul, abs_of_pos (by norm_num : (0 : ℝ) < 100)]
    linarith [h e he]
  have h0 : 0 ≤ r := by rw [← hre]; exact abs_nonneg _
  rw [if_neg]
  · exact ⟨_, rfl⟩
  · split_ifs with h2
    · have hpos : 0 < r := lt_of_le_of_ne h0 (Ne.symm h2)
      have : Real.logb 10 r < 2 := by
        rw [Real.logb_lt_iff_lt_rpow (by norm_num) hpos]
        norm_num; exact h1
      have : (-2 : ℤ) < ⌈-Real.logb 10 r⌉ := by
        rw [Int.lt_ceil]; push_cast; linarith
      omega
    · norm_num

theorem percentDecimals_error {l : List ℝ} {e : ℝ} (he : e ∈ l) (h : 1 ≤ |e|) :
    percentDecimals (l.map some) = .error .valueError := by
  unfold percentDecimals
  rw [mapM_id_map]
  simp only
  set r := listMax (l.map fun e => |100 * e|) with hr
  have h1 : 100 ≤ r := by
    have := le_listMax (l := l.map fun e => |100 * e|) (List.mem_map.2 ⟨e, he, rfl⟩)
    rw [abs_mul, abs_of_pos (by norm_num : (0 : ℝ) < 100)] at this
    linarith
  rw [if_pos]
  rw [if_pos (by linarith : (0 : ℝ) < r).ne']
  have : 2 ≤ Real.logb 10 r := by
    rw [Real.le_logb_iff_rpow_le (by norm_num) (by linarith)]
    norm_num; exact h1
  have : ⌈-Real.logb 10 r⌉ ≤ (-2 : ℤ) := by
    rw [Int.ceil_le]; push_cast; linarith
  omega

/-! ### Limits -/

theorem roundEven_le (x : ℝ) : (roundEven x : ℝ) ≤ x + 1 / 2 := by
  have h1 := Int.floor_add_fract x
  have h2 := Int.fract_nonneg x
  unfold roundEven
  split_ifs <;> push_cast <;> linarith

theorem le_roundEven (x : ℝ) : x - 1 / 2 ≤ roundEven x := by
  have h1 := Int.floor_add_fract x
  have h2 := (Int.fract_lt_one x).le
  unfold roundEven
  split_ifs <;> push_cast <;> linarith

theorem roundEven_eq {x : ℝ} {k : ℤ} (h1 : (k : ℝ) - 1 / 2 < x) (h2 : x < k + 1 / 2) : roundEven x = k := by
  have a := roundEven_le x
  have b := le_roundEven x
  have : (roundEven x : ℝ) < k + 1 := by linarith
  have h3 : roundEven x < k + 1 := by exact_mod_cast this
  have : (k : ℝ) - 1 < roundEven x := by linarith
  have h4 : k - 1 < roundEven x := by exact_mod_cast this
  omega

theorem snap_pos (r : ℝ → ℤ) {x : ℝ} (hx : 0 < x) : snap r x = some ((10 : ℝ) ^ r (Real.logb 10 x)) := by
  unfold snap; rw [if_neg hx.ne']

theorem pow_le_of_le_logb {x : ℝ} (hx : 0 < x) {y : ℝ} (h : y ≤ Real.logb 10 x) : (10 : ℝ) ^ y ≤ x :=
  (Real.le_logb_iff_rpow_le (by norm_num) hx).1 h

theorem le_pow_of_logb_le {x : ℝ} (hx : 0 < x) {y : ℝ} (h : Real.logb 10 x ≤ y) : x ≤ (10 : ℝ) ^ y :=
  (Real.logb_le_iff_le_rpow (by norm_num) hx).1 h

theorem sqrt_ten : Real.sqrt 10 = (10 : ℝ) ^ (1 / 2 : ℝ) := Real.sqrt_eq_rpow 10

theorem setLogLimits_some (b t : ℝ) (hb : 0 < b) (ht : 0 < t) : ∃ b' t', setLogLimits (some b) (some t) = (some b', some t') ∧
    0 < b' ∧ b' ≤ b ∧ t ≤ t' := by
  unfold setLogLimits
  simp only
  split_ifs
  · exact ⟨_, _, rfl, by positivity, by linarith, by linarith⟩
  · exact ⟨_, _, rfl, hb, le_rfl, le_rfl⟩

theorem logLimits_pos (low high : ℝ → ℤ) {l : List ℝ} (hl : l ≠ []) (hp : ∀ y ∈ l, 0 < y) :
    logLimits low high (l.map some) = .ok (setLogLimits
      (some ((10 : ℝ) ^ low (Real.logb 10 (listMin l)))) (some ((10 : ℝ) ^ high (Real.logb 10 (listMax l))))) := by
  unfold logLimits
  rw [mapM_id_map]
  simp only
  rw [if_neg hl, if_neg (not_lt.2 (hp _ (listMin_mem hl)).le), snap_pos _ (hp _ (listMin_mem hl)),
    snap_pos _ (hp _ (listMax_mem hl))]

theorem schattenLimits_show {l : List ℝ} (hl : l ≠ []) (hp : ∀ y ∈ l, 0 < y) : ∃ b t,
    logLimits Int.floor roundEven (l.map some) = .ok (some b, some t) ∧ ∀ y ∈ l, b ≤ y ∧ y ≤ Real.sqrt 10 * t := by
  have hm := hp _ (listMin_mem hl)
  have hM := hp _ (listMax_mem hl)
  obtain ⟨b, t, h1, -, h2, h3⟩ := setLogLimits_some ((10 : ℝ) ^ ⌊Real.logb 10 (listMin l)⌋)
    ((10 : ℝ) ^ roundEven (Real.logb 10 (listMax l))) (by positivity) (by positivity)
  refine ⟨b, t, by rw [logLimits_pos _ _ hl hp, h1], fun y hy => ⟨?_, ?_⟩⟩
  · refine (h2.trans ?_).trans (listMin_le hy)
    rw [← Real.rpow_intCast]
    exact pow_le_of_le_logb hm (Int.floor_le _)
  · refine (le_listMax hy).trans ((?_ : _ ≤ Real.sqrt 10 * _).trans
      (mul_le_mul_of_nonneg_left h3 (Real.sqrt_nonneg _)))
    rw [← Real.rpow_intCast, sqrt_ten, ← Real.rpow_add (by norm_num)]
    exact le_pow_of_logb_le hM (by linarith [le_roundEven (Real.logb 10 (listMax l))])

theorem traceLimits_show {l : List ℝ} (hl : l ≠ []) (hp : ∀ y ∈ l, 0 < y) : ∃ b t,
    logLimits roundEven Int.ceil (l.map some) = .ok (some b, some t) ∧ ∀ y ∈ l, b ≤ Real.sqrt 10 * y ∧ y ≤ t := by
  have hm := hp _ (listMin_mem hl)
  have hM := hp _ (listMax_mem hl)
  obtain ⟨b, t, h1, -, h2, h3⟩ := setLogLimits_some ((10 : ℝ) ^ roundEven (Real.logb 10 (listMin l)))
    ((10 : ℝ) ^ ⌈Real.logb 10 (listMax l)⌉) (by positivity) (by positivity)
  refine ⟨b, t, by rw [logLimits_pos _ _ hl hp, h1], fun y hy => ⟨?_, ?_⟩⟩
  · refine h2.trans (le_trans ?_ (mul_le_mul_of_nonneg_left (listMin_le hy) (Real.sqrt_nonneg _)))
    rw [← Real.rpow_intCast]
    calc (10 : ℝ) ^ (roundEven (Real.logb 10 (listMin l)) : ℝ)
        ≤ (10 : ℝ) ^ (1 / 2 + Real.logb 10 (listMin l)) :=
          Real.rpow_le_rpow_of_exponent_le (by norm_num) (by linarith [roundEven_le (Real.logb 10 (listMin l))])
      _ = Real.sqrt 10 * listMin l := by
          rw [Real.rpow_add (by norm_num), Real.rpow_logb (by norm_num) (by norm_num) hm, sqrt_ten]
  · refine (le_listMax hy).trans (le_trans ?_ h3)
    rw [← Real.rpow_intCast]
    exact le_pow_of_logb_le hM (Int.le_ceil _)

theorem schattenLimits_hide {l : List ℝ} (hp : ∀ y ∈ l, 0 < y) {k : ℤ} {m M : ℝ} (hm : m ∈ l) (hM : M ∈ l)
    (h1 : m < (10 : ℝ) ^ k) (h2 : (10 : ℝ) ^ k < M) (h3 : M < (10 : ℝ) ^ (k + 1 / 2 : ℝ)) (h4 : ∀ y ∈ l, y ≤ M) :
    ∃ b, logLimits Int.floor roundEven (l.map some) = .ok (some b, some ((10 : ℝ) ^ k)) := by
  have hl : l ≠ [] := List.ne_nil_of_mem hm
  have hMM : listMax l = M := le_antisymm (h4 _ (listMax_mem hl)) (le_listMax hM)
  have hM0 := hp M hM
  have hr : roundEven (Real.logb 10 M) = k := by
    refine roundEven_eq ?_ ?_
    · have : (k : ℝ) < Real.logb 10 M := by
        rw [Real.lt_logb_iff_rpow_lt (by norm_num) hM0, Real.rpow_intCast]; exact h2
      linarith
    · rw [Real.logb_lt_iff_lt_rpow (by norm_num) hM0]; exact h3
  rw [logLimits_pos _ _ hl hp, hMM, hr]
  have hne : (10 : ℝ) ^ ⌊Real.logb 10 (listMin l)⌋ ≠ (10 : ℝ) ^ k := by
    have hmin := hp _ (listMin_mem hl)
    have : Real.logb 10 (listMin l) < k := by
      rw [Real.logb_lt_iff_lt_rpow (by norm_num) hmin, Real.rpow_intCast]
      exact (listMin_le hm).trans_lt h1
    have h5 : ⌊Real.logb 10 (listMin l)⌋ < k := Int.floor_lt.2 this
    exact (zpow_lt_zpow_right₀ (by norm_num) h5).ne
  refine ⟨(10 : ℝ) ^ ⌊Real.logb 10 (listMin l)⌋, ?_⟩
  unfold setLogLimits
  simp only [if_neg hne]

theorem traceLimits_hide {l : List ℝ} (hp : ∀ y ∈ l, 0 < y) {k : ℤ} {m M : ℝ} (hm : m ∈ l) (hM : M ∈ l)
    (h1 : (10 : ℝ) ^ (k - 1 / 2 : ℝ) < m) (h2 : m < (10 : ℝ) ^ k) (h3 : (10 : ℝ) ^ k < M) (h4 : ∀ y ∈ l, m ≤ y) :
    ∃ t, logLimits roundEven Int.ceil (l.map some) = .ok (some ((10 : ℝ) ^ k), some t) := by
  have hl : l ≠ [] := List.ne_nil_of_mem hm
  have hmm : listMin l = m := le_antisymm (listMin_le hm) (h4 _ (listMin_mem hl))
  have hm0 := hp m hm
  have hr : roundEven (Real.logb 10 m) = k := by
    refine roundEven_eq ?_ ?_
    · rw [Real.lt_logb_iff_rpow_lt (by norm_num) hm0]; exact h1
    · have : Real.logb 10 m < k := by
        rw [Real.logb_lt_iff_lt_rpow (by norm_num) hm0, Real.rpow_intCast]; exact h2
      linarith
  rw [logLimits_pos _ _ hl hp, hmm, hr]
  have hne : (10 : ℝ) ^ k ≠ (10 : ℝ) ^ ⌈Real.logb 10 (listMax l)⌉ := by
    have hmax := hp _ (listMax_mem hl)
    have : (k : ℝ) < Real.logb 10 (listMax l) := by
      rw [Real.lt_logb_iff_rpow_lt (by norm_num) hmax, Real.rpow_intCast]
      exact h3.trans_le (le_listMax hM)
    have h5 : k < ⌈Real.logb 10 (listMax l)⌉ := Int.lt_ceil.2 this
    exact (zpow_lt_zpow_right₀ (by norm_num) h5).ne
  refine ⟨(10 : ℝ) ^ ⌈Real.logb 10 (listMax l)⌉, ?_⟩
  unfold setLogLimits
  simp only [if_neg hne]

end Imate.Interp
