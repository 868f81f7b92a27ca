import Verif.Lemmas.InterpolatorFit
import Verif.Lemmas.InterpolatorRpf
import Verif.Lemmas.InterpolatorImbf
import Verif.Props.InterpolatorBounds

/-!
# C40 (interpolants honour the data) and C44 (accepted arguments)
-/

namespace Imate.Props

open Imate.Spec Imate.Interp Imate.Eigen Matrix Finset

variable {n : ℕ} {P : Problem n}

theorem map_inv {α β : Type} {x : Except PyExc α} {g : α → β} {y : β} (h : x.map g = .ok y) :
    ∃ a, x = .ok a ∧ g a = y := by
  cases x with
  | error e => simp [Except.map] at h
  | ok a => exact ⟨a, rfl, by simpa [Except.map] using h⟩

theorem bind_inv {α β : Type} {x : Except PyExc α} {g : α → Except PyExc β} {y : β} (h : (x >>= g) = .ok y) :
    ∃ a, x = .ok a ∧ g a = .ok y := by
  cases x with
  | error e => simp [bind, Except.bind] at h
  | ok a => exact ⟨a, rfl, h⟩

theorem base_mbf {np : Numpy} {ti : Points} {l : List ℝ} (hti : IsPoints ti l) {m : Mbf} (h : P.mbf np ti = .ok m) :
    ∃ b s t1, P.base ti = .ok b ∧ mbfPoint np b.tau0 ti = .ok t1 ∧ P.eval t1 = .ok s ∧ m = ⟨b, t1, s / b.normB⟩ := by
  have : P.mbf np ti = (do
      let b ← P.base ti
      let t1 ← mbfPoint np b.tau0 ti
      let s ← P.eval t1
      .ok ⟨b, t1, s / b.normB⟩) := by rcases hti with rfl | rfl <;> rfl
  rw [this] at h
  obtain ⟨b, hb, h⟩ := bind_inv h
  obtain ⟨t1, ht1, h⟩ := bind_inv h
  obtain ⟨s, hs, h⟩ := bind_inv h
  exact ⟨b, s, t1, hb, ht1, hs, by simpa using h.symm⟩

theorem exact_of_nodes {f : Interpolator} {b : Base} {l : List ℝ} (hb : BaseOf P l b)
    (h : ∀ x ∈ b.nodes, P.interpolate f x.1 = .ok (some (x.2 * b.normB))) : ∀ t ∈ l, ExactAt P f t := by
  intro t ht
  rw [← hb.points] at ht
  obtain ⟨x, hx, rfl⟩ := List.mem_map.1 ht
  exact ⟨_, hb.values x hx, h x hx⟩

theorem exact_of_index {f : Interpolator} {b : Base} {l : List ℝ} (hb : BaseOf P l b)
    (h : ∀ i, P.interpolate f (b.t i) = .ok (some (b.tau i * b.normB))) : ∀ t ∈ l, ExactAt P f t := by
  intro t ht
  obtain ⟨i, rfl, he⟩ := hb.mem ht
  exact ⟨_, he, h i⟩

theorem mbfPoint_inv {np : Numpy} (hnp : NumpySpec np) {ti : Points} {l : List ℝ} (hti : IsPoints ti l)
    {tau0 t1 : ℝ} (h : mbfPoint np tau0 ti = .ok t1) : l = [] ∧ t1 = 1 / tau0 ∨ l = [t1] := by
  unfold mbfPoint at h
  obtain ⟨e, he, h⟩ := bind_inv h
  rcases hti with rfl | rfl
  · simp only [Points.eqEmpty, Except.ok.injEq] at he
    subst he
    match l, h with
    | [], h => exact .inl ⟨rfl, by simpa using h.symm⟩
    | [t], h => exact .inr (by simpa using h)
    | _ :: _ :: _, h => simp at h
  · have he' : e = false := by
      cases e with
      | false => rfl
      | true => exact absurd he (hnp l)
    subst he'
    match l, h with
    | [], h => simp at h
    | [t], h => exact .inr (by simpa using h)
    | _ :: _ :: _, h => simp at h

/-- C40 for every method but `eig` (C46): the interpolator takes the exact value at every point and at zero.  Partial:
the rational polynomial at zero can be 0/0 (`rpf_no_value_at_zero`), and without the side conditions `SoundOptions` the
claim is false (`rbf_cuts_off_point`, `crf_negative_scale`, `imbf_unknown_basis`). -/
theorem interpolant_honours_data_partial (hP : GoodProblem P) {st : Interp.Settings} (hlib : SplineSpec st.spline)
    (hnp : NumpySpec st.np) {kind : String} {ti : Points} {l : List ℝ} (hti : IsPoints ti l) (hl : ∀ t ∈ l, 0 < t)
    (hopt : SoundOptions st kind l) (hkind : kind.toLower ≠ "eig") {f : Interpolator}
    (h : P.create st kind ti = .ok f) :
    (∀ t ∈ l, ExactAt P f t) ∧
      (ExactAt P f 0 ∨ kind.toLower = "rpf" ∧ P.interpolate f 0 = .ok none) := by
  obtain ⟨hbasis, hscale, hin⟩ := hopt
  unfold Problem.create at h
  split_ifs at h with h1 h3 h4 h5 h6 h7 h8
  · -- ext
    injection h with h
    subst h
    have hall : ∀ t, 0 ≤ t → ExactAt P .ext t := by
      intro t ht
      obtain ⟨s, -, hs⟩ := eval_pos hP ht
      exact ⟨s, hs, by simp only [Problem.interpolate, hs, Except.map]⟩
    exact ⟨fun t ht => hall t (hl t ht).le, .inl (hall 0 le_rfl)⟩
  · -- mbf
    obtain ⟨m, hm, rfl⟩ := map_inv h
    obtain ⟨b, s, t1, hb, ht1, hs, rfl⟩ := base_mbf hti hm
    have hb := base_ok hP hti hb
    have hpt := mbfPoint_inv hnp hti ht1
    have ht1pos : 0 < t1 := by
      rcases hpt with ⟨-, rfl⟩ | rfl
      · exact one_div_pos.2 hb.tau0_pos
      · exact hl t1 (by simp)
    obtain ⟨s', hs', hs''⟩ := eval_pos hP ht1pos.le
    rw [hs] at hs''
    have hss : s = s' := by injection hs''
    subst hss
    refine ⟨?_, .inl ⟨_, hb.zero, ?_⟩⟩
    · intro t ht
      have : t = t1 := by
        rcases hpt with ⟨rfl, -⟩ | rfl
        · simp at ht
        · simpa using ht
      subst this
      refine ⟨s, hs, ?_⟩
      simp only [Problem.interpolate]
      rw [mbf_at_point hb ht1pos.ne' (div_pos hs' hb.normB_pos), div_mul_cancel₀ _ hb.normB_pos.ne']
    · simp only [Problem.interpolate]
      rw [mbf_at_zero hb ht1pos.ne']
  · -- imbf
    obtain ⟨m, hm, rfl⟩ := map_inv h
    unfold Problem.imbf at hm
    obtain ⟨-, -, hm⟩ := bind_inv hm
    obtain ⟨b, hb, hm⟩ := bind_inv hm
    have hb := base_ok hP hti hb
    obtain ⟨k1, k2⟩ := imbf_honours hb (fun t ht => (hl t ht).le) (hbasis h4) hm
    exact ⟨exact_of_index hb k1, .inl ⟨_, hb.zero, k2⟩⟩
  · -- rbf
    obtain ⟨m, hm, rfl⟩ := map_inv h
    unfold Problem.rbf at hm
    obtain ⟨-, -, hm⟩ := bind_inv hm
    obtain ⟨b, hb, hm⟩ := bind_inv hm
    have hb := base_ok hP hti hb
    obtain ⟨k1, k2⟩ := rbf_honours hlib hb hl (hin h5) hm
    exact ⟨exact_of_nodes hb k1, .inl ⟨_, hb.zero, k2⟩⟩
  · -- crf
    obtain ⟨m, hm, rfl⟩ := map_inv h
    unfold Problem.crf at hm
    obtain ⟨ti', ht', hm1⟩ := bind_inv hm
    obtain ⟨b, hb, hm2⟩ := bind_inv hm1
    have : ti' = ti := by
      unfold crfPointsArg at ht'
      rcases hti with rfl | rfl
      · simp only at ht'
        obtain ⟨e, -, ht'⟩ := bind_inv ht'
        split_ifs at ht'
        injection ht' with ht'
        exact ht'.symm
      · simp only at ht'
        obtain ⟨e, -, ht'⟩ := bind_inv ht'
        split_ifs at ht'
        injection ht' with ht'
        exact ht'.symm
    subst this
    have hb := base_ok hP hti hb
    obtain ⟨k1, k2⟩ := crf_honours hb hl (hscale h6) hm2
    exact ⟨exact_of_nodes hb k1, .inl ⟨_, hb.zero, k2⟩⟩
  · -- spl
    obtain ⟨m, hm, rfl⟩ := map_inv h
    unfold Problem.spline at hm
    obtain ⟨-, -, hm⟩ := bind_inv hm
    obtain ⟨b, hb, hm⟩ := bind_inv hm
    have hb := base_ok hP hti hb
    obtain ⟨k1, k2⟩ := spline_honours hlib hb hl hm
    exact ⟨exact_of_nodes hb k1, .inl ⟨_, hb.zero, k2⟩⟩
  · -- rpf
    obtain ⟨m, hm, rfl⟩ := map_inv h
    have : P.rpf ti = if l = [] then .error .valueError else (do
        let b ← P.base ti
        rpfInit b) := by rcases hti with rfl | rfl <;> rfl
    rw [this] at hm
    split_ifs at hm with hne
    obtain ⟨b, hb, hm⟩ := bind_inv hm
    have hb := base_ok hP hti hb
    obtain ⟨k1, k2⟩ := rpf_honours hb hl hne hm
    refine ⟨exact_of_index hb fun i => by simp only [Problem.interpolate, k1], ?_⟩
    rcases k2 with k2 | k2
    · exact .inr ⟨h8, by simp only [Problem.interpolate, k2]⟩
    · exact .inl ⟨_, hb.zero, by simp only [Problem.interpolate, k2]⟩

/-- C40 for `kind='crf'` with an integer `ti`: the points are the positive and increasing Chebyshev nodes. -/
theorem crf_integer_points (hP : GoodProblem P) {st : Interp.Settings} {k : ℤ} (hk : 1 ≤ k)
    (hft : st.funcType = 1 ∨ st.funcType = 2) (hscale : 0 < st.scale.getD |st.opt|) :
    ∃ l f, chebyshevRationalRoots k = .ok l ∧ l.length = k ∧ l.Pairwise (· < ·) ∧ (∀ t ∈ l, 0 < t) ∧
      P.create st "crf" (.int k) = .ok f ∧ (∀ t ∈ l, ExactAt P f t) ∧ ExactAt P f 0 := by
  obtain ⟨d, rfl⟩ : ∃ d : ℕ, k = d := ⟨k.toNat, by omega⟩
  have hd : 1 ≤ d := by exact_mod_cast hk
  have hd' : (0 : ℝ) < d := by exact_mod_cast hd
  set g : ℕ → ℝ := fun j => (1 + -Real.cos ((2 * (j : ℝ) + 1) * Real.pi / (2 * ((d : ℤ) : ℝ)))) /
    (1 - -Real.cos ((2 * (j : ℝ) + 1) * Real.pi / (2 * ((d : ℤ) : ℝ)))) with hg
  have hroots : chebyshevRationalRoots (d : ℤ) = .ok ((List.range d).map g) := by
    unfold chebyshevRationalRoots
    rw [if_neg (by omega)]
    rfl
  have hang : ∀ j < d, 0 < (2 * (j : ℝ) + 1) * Real.pi / (2 * ((d : ℤ) : ℝ)) ∧
      (2 * (j : ℝ) + 1) * Real.pi / (2 * ((d : ℤ) : ℝ)) < Real.pi := by
    intro j hj
    have hpi := Real.pi_pos
    have hj' : (j : ℝ) + 1 ≤ d := by exact_mod_cast hj
    have hj0 : (0 : ℝ) ≤ j := Nat.cast_nonneg j
    push_cast
    refine ⟨by positivity, ?_⟩
    rw [div_lt_iff₀ (by positivity)]
    nlinarith
  have hcos : ∀ j < d, -1 < Real.cos ((2 * (j : ℝ) + 1) * Real.pi / (2 * ((d : ℤ) : ℝ))) ∧
      Real.cos ((2 * (j : ℝ) + 1) * Real.pi / (2 * ((d : ℤ) : ℝ))) < 1 := by
    intro j hj
    obtain ⟨h0, h1⟩ := hang j hj
    constructor
    · have := Real.cos_lt_cos_of_nonneg_of_le_pi h0.le le_rfl h1
      rwa [Real.cos_pi] at this
    · have := Real.cos_lt_cos_of_nonneg_of_le_pi le_rfl h1.le h0
      rwa [Real.cos_zero] at this
  have hpos : ∀ t ∈ (List.range d).map g, 0 < t := by
    intro t ht
    obtain ⟨j, hj, rfl⟩ := List.mem_map.1 ht
    obtain ⟨h0, h1⟩ := hcos j (List.mem_range.1 hj)
    exact div_pos (by linarith) (by linarith)
  have hinc : ((List.range d).map g).Pairwise (· < ·) := by
    rw [List.pairwise_map]
    refine (List.pairwise_lt_range (n := d)).imp_of_mem fun {i j} hi hj hij => ?_
    have hi := List.mem_range.1 hi
    have hj := List.mem_range.1 hj
    have hij' : (i : ℝ) < j := by exact_mod_cast hij
    have := Real.cos_lt_cos_of_nonneg_of_le_pi (hang i hi).1.le (hang j hj).2.le (by
      have hpi := Real.pi_pos
      gcongr)
    have h1 := (hcos i hi)
    have h2 := (hcos j hj)
    simp only [hg]
    rw [div_lt_div_iff₀ (by linarith) (by linarith)]
    nlinarith
  obtain ⟨b, hb⟩ := base_some hP (ti := .array ((List.range d).map g)) (.inr rfl) fun t ht => (hpos t ht).le
  have hb' := base_ok hP (.inr rfl) hb
  obtain ⟨m, hm⟩ := crf_some hb' hpos (hinc.imp (fun h => ne_of_lt h)) st.opt (scale := st.scale) hft
  obtain ⟨k1, k2⟩ := crf_honours hb' hpos hscale hm
  refine ⟨_, .crf m, hroots, by simp, hinc, hpos, ?_, exact_of_nodes hb' k1, _, hb'.zero, k2⟩
  have : P.crf st.np st.opt (.int d) st.scale st.funcType = .ok m := by
    simp only [Problem.crf, crfPointsArg, hroots, bind, Except.bind, hb, hm]
  have hlow : ("crf" : String).toLower = "crf" := by decide +kernel
  unfold Problem.create
  rw [hlow, if_neg (by decide +kernel), if_neg (by decide +kernel), if_neg (by decide +kernel),
    if_neg (by decide +kernel), if_neg (by decide +kernel), if_pos rfl, this]
  rfl

/-! ### C44 -/

/-- C44: a list of increasing positive points is accepted.  Missing: `rpf`, and the other documented arguments, for
which the claim is false (the theorems below). -/
theorem increasing_points_accepted_partial (hP : GoodProblem P) {st : Interp.Settings} (hlib : SplineSpec st.spline)
    {kind : String} {l : List ℝ} (hne : l ≠ []) (hl : ∀ t ∈ l, 0 < t) (hs : l.Pairwise (· < ·))
    (hopt : AcceptedOptions st kind l) : ∃ f, P.create st kind (.list l) = .ok f := by
  obtain ⟨b, hb⟩ := base_some hP (ti := .list l) (.inl rfl) fun t ht => (hl t ht).le
  have hb' := base_ok hP (.inl rfl) hb
  have hnd : l.Nodup := hs.imp fun h => ne_of_lt h
  have hemp : l.isEmpty = false := by cases l <;> simp_all
  have hchk : checkPoints st.np (.list l) = .ok () := by
    simp only [checkPoints, Points.eqEmpty, hemp, bind, Except.bind, Bool.false_eq_true, if_false]
  unfold Problem.create
  rcases hopt with h | ⟨h, h1⟩ | ⟨h, h1, h2⟩ | ⟨h, h1⟩ | ⟨h, h1⟩ | ⟨h, h1⟩
  · rw [if_pos h]; exact ⟨_, rfl⟩
  · rw [h, if_neg (by decide +kernel), if_neg (by decide +kernel), if_pos rfl]
    obtain ⟨t, rfl⟩ := List.length_eq_one_iff.1 h1
    obtain ⟨s, -, hs⟩ := eval_pos hP (hl t (by simp)).le
    simp only [Problem.mbf, hb, mbfPoint, Points.eqEmpty, bind, Except.bind, Except.map, List.isEmpty_cons,
      Bool.false_eq_true, if_false, hs]
    exact ⟨_, rfl⟩
  · rw [h, if_neg (by decide +kernel), if_neg (by decide +kernel), if_neg (by decide +kernel), if_pos rfl]
    obtain ⟨m, hm⟩ := imbf_some hb' hl hnd h1 h2
    simp only [Problem.imbf, hchk, hb, hm, bind, Except.bind, Except.map]
    exact ⟨_, rfl⟩
  · rw [h, if_neg (by decide +kernel), if_neg (by decide +kernel), if_neg (by decide +kernel),
      if_neg (by decide +kernel), if_pos rfl]
    obtain ⟨m, hm⟩ := rbf_some hlib hb' hl hs h1
    simp only [Problem.rbf, hchk, hb, hm, bind, Except.bind, Except.map]
    exact ⟨_, rfl⟩
  · rw [h, if_neg (by decide +kernel), if_neg (by decide +kernel), if_neg (by decide +kernel),
      if_neg (by decide +kernel), if_neg (by decide +kernel), if_pos rfl]
    obtain ⟨m, hm⟩ := crf_some hb' hl hnd st.opt (scale := st.scale) h1
    simp only [Problem.crf, crfPointsArg, Points.eqEmpty, hemp, hb, hm, bind, Except.bind, Except.map,
      Bool.false_eq_true, if_false]
    exact ⟨_, rfl⟩
  · rw [h, if_neg (by decide +kernel), if_neg (by decide +kernel), if_neg (by decide +kernel),
      if_neg (by decide +kernel), if_neg (by decide +kernel), if_neg (by decide +kernel), if_pos rfl]
    obtain ⟨m, hm⟩ := spline_some hlib hb' hl hs hne h1
    simp only [Problem.spline, hchk, hb, hm, bind, Except.bind, Except.map]
    exact ⟨_, rfl⟩

end Imate.Props
