import Verif.Props.InterpolatorEig
import Mathlib.LinearAlgebra.Lagrange

/-!
# C57: for large `t` the interpolants grow as the norm does
-/

namespace Imate.Props

open Imate.Spec Imate.Interp Imate.Eigen Matrix Finset Filter

variable {n : ℕ} {P : Problem n}

/-! ### The norm -/

theorem posDef_of_roots {H : Matrix (Fin n) (Fin n) ℝ} (hH : H.IsHermitian) (h : ∀ x ∈ H.charpoly.roots, 0 < x) :
    H.PosDef := by
  refine hH.posDef_iff_eigenvalues_pos.2 fun i => h _ ?_
  rw [hH.roots_charpoly_eq_eigenvalues]
  exact Multiset.mem_map.2 ⟨i, by simp, rfl⟩

theorem isHermitian_add_smul_one {H : Matrix (Fin n) (Fin n) ℝ} (hH : H.IsHermitian) (c : ℝ) :
    (H + c • (1 : Matrix (Fin n) (Fin n) ℝ)).IsHermitian := hH.add (by
  unfold IsHermitian
  rw [conjTranspose_smul, conjTranspose_one, star_trivial])

theorem exists_shift_posDef {H : Matrix (Fin n) (Fin n) ℝ} (hH : H.IsHermitian) :
    ∃ c : ℝ, 0 < c ∧ (H + c • (1 : Matrix (Fin n) (Fin n) ℝ)).PosDef := by
  refine ⟨1 + ∑ i, |hH.eigenvalues i|, ?_, posDef_of_roots (isHermitian_add_smul_one hH _) fun x hx => ?_⟩
  · have : 0 ≤ ∑ i, |hH.eigenvalues i| := sum_nonneg fun i _ => abs_nonneg _
    linarith
  · rw [roots_add_smul_one hH, hH.roots_charpoly_eq_eigenvalues] at hx
    obtain ⟨y, hy, rfl⟩ := Multiset.mem_map.1 hx
    obtain ⟨i, -, rfl⟩ := Multiset.mem_map.1 hy
    have h1 := single_le_sum (f := fun i => |hH.eigenvalues i|) (fun i _ => abs_nonneg _) (mem_univ i)
    have h2 := neg_abs_le (hH.eigenvalues i)
    simp only [Function.comp_apply, RCLike.ofReal_real_eq_id, id] at h1 ⊢
    linarith

theorem exists_sub_posDef {B : Matrix (Fin n) (Fin n) ℝ} (hB : B.PosDef) (hn : 0 < n) :
    ∃ e : ℝ, 0 < e ∧ (B + (-e) • (1 : Matrix (Fin n) (Fin n) ℝ)).PosDef := by
  have : Nonempty (Fin n) := ⟨⟨0, hn⟩⟩
  obtain ⟨i0, -, hi0⟩ := exists_min_image univ hB.1.eigenvalues univ_nonempty
  have hp := hB.eigenvalues_pos i0
  refine ⟨hB.1.eigenvalues i0 / 2, by positivity,
    posDef_of_roots (isHermitian_add_smul_one hB.1 _) fun x hx => ?_⟩
  rw [roots_add_smul_one hB.1, hB.1.roots_charpoly_eq_eigenvalues] at hx
  obtain ⟨y, hy, rfl⟩ := Multiset.mem_map.1 hx
  obtain ⟨i, -, rfl⟩ := Multiset.mem_map.1 hy
  have := hi0 i (mem_univ i)
  simp only [Function.comp_apply, RCLike.ofReal_real_eq_id, id]
  linarith

/-- A multiple of `B` is above `A`. -/
theorem exists_dominating {A B : Matrix (Fin n) (Fin n) ℝ} (hA : A.IsHermitian) (hB : B.PosDef) (hn : 0 < n) :
    ∃ c : ℝ, 0 < c ∧ (c • B - A).PosDef := by
  obtain ⟨e, he, hBe⟩ := exists_sub_posDef hB hn
  obtain ⟨d, hd, hAd⟩ := exists_shift_posDef (H := -A) (by
    unfold IsHermitian; rw [conjTranspose_neg, hA.eq])
  refine ⟨d / e, by positivity, ?_⟩
  have : (d / e) • B - A = (d / e) • (B + (-e) • (1 : Matrix (Fin n) (Fin n) ℝ)) + (-A + d • 1) := by
    rw [smul_add, smul_smul, show d / e * -e = -d by field_simp, neg_smul]
    abel
  rw [this]
  exact (hBe.smul (by positivity)).add hAd

/-- The norm of `A + tB` differs from `t‖B‖` by a bounded amount. -/
theorem schattenNorm_affine_bounded {A B : Matrix (Fin n) (Fin n) ℝ} (hA : A.PosDef) (hB : B.PosDef) (hn : 0 < n)
    (p : ℝ) : ∃ C, ∀ t, 0 < t → |schattenNorm (A + t • B) p - t * schattenNorm B p| ≤ C := by
  obtain ⟨c, hc, hD⟩ := exists_dominating hA.1 hB hn
  set NA := schattenNorm A p
  set NB := schattenNorm B p
  set ND := schattenNorm (c • B - A) p
  have hNA : 0 < NA := schattenNorm_pos hA hn p
  have hNB : 0 < NB := schattenNorm_pos hB hn p
  have hND : 0 < ND := schattenNorm_pos hD hn p
  refine ⟨NA + c * NB + ND, fun t ht => ?_⟩
  have h1 := schattenNorm_add hA (hB.smul ht) hn p
  have h2 := schattenNorm_add (hA.add (hB.smul ht)) hD hn p
  have hsum : A + t • B + (c • B - A) = (c + t) • B := by rw [add_smul]; abel
  rw [hsum, schattenNorm_smul hB hn (by linarith)] at h2
  rw [schattenNorm_smul hB hn ht] at h1
  have hcn : 0 < c * NB := by positivity
  rcases lt_or_ge p 1 with hp | hp
  · have e1 := h1.2 hp
    have e2 := h2.2 hp
    rw [abs_le]
    constructor <;> nlinarith
  · have e1 := h1.1 hp
    have e2 := h2.1 hp
    rw [abs_le]
    constructor <;> nlinarith

theorem tendsto_div_of_bounded {g : ℝ → ℝ} {c C : ℝ} (h : ∀ᶠ t in atTop, |g t - t * c| ≤ C) :
    Tendsto (fun t => g t / t) atTop (nhds c) := by
  have h0 : Tendsto (fun t : ℝ => C / t) atTop (nhds 0) := tendsto_id.const_div_atTop C
  rw [tendsto_iff_norm_sub_tendsto_zero]
  refine squeeze_zero' (Eventually.of_forall fun t => norm_nonneg _) ?_ h0
  filter_upwards [h, eventually_gt_atTop 0] with t ht hpos
  rw [Real.norm_eq_abs, show g t / t - c = (g t - t * c) / t by field_simp, abs_div, abs_of_pos hpos]
  gcongr

/-- The norm of `A + tB` grows like `t‖B‖`. -/
theorem exact_growth (hn : 0 < n) (hA : P.A.PosDef) (hB : ∀ B, P.B = some B → B.PosDef) (hS : ComputesSchatten P) :
    ∃ (nB : ℝ) (s : ℝ → ℝ), IsNormB P nB ∧ (∀ t, 0 ≤ t → 0 < s t ∧ P.eval t = .ok (s t)) ∧
      Tendsto (fun t => s t / t) atTop (nhds nB) := by
  have hP := goodProblem_of hn hA hB hS
  have hmB := posDef_matB hP
  refine ⟨schattenNorm P.matB P.p, fun t => schattenNorm (P.A + t • P.matB) P.p,
    ⟨schattenNorm_pos hmB hn _, ?_, ?_⟩, fun t ht => ⟨schattenNorm_pos (posDef_affine hP ht) hn _,
      hS _ (posDef_affine hP ht)⟩, ?_⟩
  · intro h
    unfold Problem.matB
    rw [h]
    exact schattenNorm_one hn _
  · intro B h
    have : P.matB = B := by unfold Problem.matB; rw [h]; rfl
    rw [this]
    exact hS _ (hB B h)
  · obtain ⟨C, hC⟩ := schattenNorm_affine_bounded hA hmB hn P.p
    refine tendsto_div_of_bounded (C := C) ?_
    filter_upwards [eventually_gt_atTop 0] with t ht using hC t ht

theorem isNormB_unique {a b : ℝ} (ha : IsNormB P a) (hb : IsNormB P b) : a = b := by
  cases h : P.B with
  | none => rw [ha.2.1 h, hb.2.1 h]
  | some B =>
    have h1 := ha.2.2 B h
    rw [hb.2.2 B h] at h1
    exact (by injection h1 : b = a).symm

/-! ### The interpolants -/

theorem base_isNormB {l : List ℝ} {b : Base} (hb : BaseOf P l b) : IsNormB P b.normB :=
  ⟨hb.normB_pos, hb.normB_one, hb.normB_eq⟩

theorem tau0_div (a : ℝ) : Tendsto (fun t : ℝ => a / t) atTop (nhds 0) := tendsto_id.const_div_atTop a

theorem grows_of {l : List ℝ} {b : Base} (hb : BaseOf P l b) {f : Interpolator} {g : ℝ → ℝ} {c : ℝ}
    (hf : ∀ᶠ t in atTop, P.interpolate f t = .ok (b.finish (some (g t))))
    (h : Tendsto (fun t => g t / t) atTop (nhds c)) : GrowsLike P f (c * b.normB) := by
  refine ⟨fun t => g t * b.normB, ?_, (h.mul_const b.normB).congr fun t => by ring⟩
  filter_upwards [hf] with t ht
  rw [ht, hb.finish_eq]

theorem mbf_growth {l : List ℝ} {b : Base} (hb : BaseOf P l b) {t1 tau1 : ℝ} (ht1 : t1 ≠ 0) :
    GrowsLike P (.mbf ⟨b, t1, tau1⟩) b.normB := by
  set k := (tau1 ^ 2 - b.tau0 ^ 2 - t1 ^ 2) / t1 with hk
  have hq : Tendsto (fun t : ℝ => (t ^ 2 + (tau1 ^ 2 - b.tau0 ^ 2 - t1 ^ 2) * (t / t1) + b.tau0 ^ 2) / t ^ 2) atTop
      (nhds 1) := by
    have h1 := ((tau0_div k).add ((tau0_div (b.tau0 ^ 2)).mul (tau0_div 1))).const_add 1
    simp only [mul_zero, add_zero] at h1
    refine h1.congr' ?_
    filter_upwards [eventually_gt_atTop 0] with t ht
    rw [hk]
    field_simp
    ring
  have hsq : Tendsto (fun t : ℝ => Real.sqrt (t ^ 2 + (tau1 ^ 2 - b.tau0 ^ 2 - t1 ^ 2) * (t / t1) + b.tau0 ^ 2) / t)
      atTop (nhds 1) := by
    have := (Real.continuous_sqrt.tendsto 1).comp hq
    rw [Real.sqrt_one] at this
    refine this.congr' ?_
    filter_upwards [eventually_gt_atTop 0] with t ht
    simp only [Function.comp_apply]
    rw [Real.sqrt_div' _ (by positivity), Real.sqrt_sq ht.le]
  have hnn : ∀ᶠ t : ℝ in atTop, 0 ≤ t ^ 2 + (tau1 ^ 2 - b.tau0 ^ 2 - t1 ^ 2) * (t / t1) + b.tau0 ^ 2 := by
    filter_upwards [hq.eventually (lt_mem_nhds one_pos), eventually_gt_atTop 0] with t h ht
    have : 0 < t ^ 2 := by positivity
    exact (div_pos_iff_of_pos_right this).1 h |>.le
  have := grows_of (f := .mbf ⟨b, t1, tau1⟩) hb (g := fun t => Real.sqrt (t ^ 2 + (tau1 ^ 2 - b.tau0 ^ 2 - t1 ^ 2) *
    (t / t1) + b.tau0 ^ 2)) (c := 1) ?_ hsq
  · rwa [one_mul] at this
  · filter_upwards [hnn] with t ht
    simp only [Problem.interpolate, Mbf.interpolate]
    rw [if_neg ht1, if_neg (not_lt.2 ht)]

theorem rbf_growth {l : List ℝ} {b : Base} (hb : BaseOf P l b) {lib : SplineLib} {ft : ℤ} {m : Fitted}
    (h : rbfInit lib ft b = .ok m) : GrowsLike P (.rbf m) b.normB := by
  have hm : m.base = b ∧ (m.funcType = 1 ∨ m.funcType = 2) := by
    unfold rbfInit at h
    simp only at h
    split_ifs at h with h1 h2 h3 h4
    · obtain ⟨f, -, h⟩ := bind_inv h
      injection h with h
      subst h
      exact ⟨rfl, .inl h3⟩
    · obtain ⟨f, -, h⟩ := bind_inv h
      injection h with h
      subst h
      exact ⟨rfl, .inr (h1.resolve_left h3)⟩
  obtain ⟨rfl, hft⟩ := hm
  have hlog : ∀ᶠ t : ℝ in atTop, m.high < Real.logb 10 t :=
    (Real.tendsto_logb_atTop (by norm_num)).eventually (eventually_gt_atTop m.high)
  have hg : Tendsto (fun t : ℝ => (m.base.tau0 + t) / t) atTop (nhds 1) := by
    have := (tau0_div m.base.tau0).add_const 1
    rw [zero_add] at this
    refine this.congr' ?_
    filter_upwards [eventually_gt_atTop 0] with t ht
    field_simp
  have := grows_of (f := .rbf m) hb (g := fun t => m.base.tau0 + t) (c := 1) ?_ hg
  · rwa [one_mul] at this
  · filter_upwards [hlog, eventually_gt_atTop 0] with t h1 ht
    have hy : m.rbfY t = some 0 := by
      unfold Fitted.rbfY
      rw [if_neg (not_lt.2 ht.le), if_neg ht.ne', if_pos (.inr h1)]
    simp only [Problem.interpolate, Fitted.rbf, hy, Option.map_some]
    rcases hft with e | e
    · rw [if_pos e, zero_add]
    · rw [if_neg (by rw [e]; norm_num), if_pos e, zero_add, one_mul]

theorem mobius_tendsto {s : ℝ} (hs : 0 < s) : Tendsto (fun t : ℝ => mobius (t / s)) atTop (nhds 1) := by
  have h1 : Tendsto (fun t : ℝ => (1 - s / t) / (1 + s / t)) atTop (nhds 1) := by
    have := ((tau0_div s).const_sub 1).div ((tau0_div s).const_add 1) (by norm_num)
    simp only [sub_zero, add_zero, div_one] at this
    exact this
  refine h1.congr' ?_
  filter_upwards [eventually_gt_atTop 0] with t ht
  unfold mobius
  field_simp

theorem crfFun_continuous (j : ℕ) : Continuous (crfFun j) := by
  unfold crfFun chebyt
  exact continuous_const.mul (continuous_const.sub (Polynomial.continuous _))

theorem crfFun_one (j : ℕ) : crfFun j 1 = 0 := by
  unfold crfFun chebyt
  rw [Polynomial.Chebyshev.T_eval_one]
  norm_num

/-- The growth of `(y + 1)(τ₀ + t)` and of `(y + 1)t + τ₀`. -/
theorem ratio_growth {y : ℝ → ℝ} (hy : Tendsto y atTop (nhds 0)) (a : ℝ) :
    Tendsto (fun t : ℝ => (y t + 1) * (a + t) / t) atTop (nhds 1) ∧
      Tendsto (fun t : ℝ => ((y t + 1) * t + a) / t) atTop (nhds 1) := by
  have h1 := hy.add_const 1
  rw [zero_add] at h1
  constructor
  · have := h1.mul ((tau0_div a).add_const 1)
    rw [zero_add, mul_one] at this
    refine this.congr' ?_
    filter_upwards [eventually_gt_atTop 0] with t ht
    field_simp
  · have := h1.add (tau0_div a)
    rw [add_zero] at this
    refine this.congr' ?_
    filter_upwards [eventually_gt_atTop 0] with t ht
    field_simp

theorem crf_growth {l : List ℝ} {b : Base} (hb : BaseOf P l b) (hl : ∀ t ∈ l, 0 < t) {opt : ℝ} {scale : Option ℝ}
    (hscale : 0 < scale.getD |opt|) {ft : ℤ} {m : Crf} (h : crfInit opt scale ft b = .ok m) :
    GrowsLike P (.crf m) b.normB := by
  have hpos : ∀ x ∈ b.nodes, 0 < x.1 := fun x hx => hl _ (by rw [← hb.points]; exact List.mem_map_of_mem hx)
  have htau := hb.tau0_pos
  unfold crfInit at h
  generalize hs : scale.getD |opt| = s at *
  have habs : |s| = s := abs_of_pos hscale
  simp only at h
  split_ifs at h with h1 h2
  · exfalso
    rcases h2 with h2 | ⟨x, hx, h2 | h2⟩
    · linarith
    · have : 0 < x.1 / |s| := div_pos (hpos x hx) (by rw [habs]; exact hscale)
      linarith
    · have := hpos x hx
      split_ifs at h2 <;> linarith
  · obtain ⟨w, -, h⟩ := bind_inv h
    injection h with h
    subst h
    set y : ℝ → ℝ := fun t => ∑ j : Fin (crfPoints ft s b).length, w j * crfFun j (mobius (t / s)) with hy
    have hlim : Tendsto y atTop (nhds 0) := by
      have := tendsto_finsetSum univ fun (j : Fin (crfPoints ft s b).length) _ =>
        (((crfFun_continuous j).tendsto 1).comp (mobius_tendsto hscale)).const_mul (w j)
      simp only [crfFun_one, mul_zero, sum_const_zero] at this
      exact this
    have hyt : ∀ᶠ t in atTop, (⟨b, ft, s, _, some w⟩ : Crf).y t = some (y t) := by
      filter_upwards [eventually_gt_atTop 0] with t ht
      have : 0 < t / s := div_pos ht hscale
      unfold Crf.y
      simp only
      rw [if_neg (by push Not; exact ⟨hscale.ne', by linarith⟩), Option.map_some]
    obtain ⟨g1, g2⟩ := ratio_growth hlim b.tau0
    rcases h1 with rfl | rfl
    · have := grows_of (f := .crf ⟨b, 1, s, _, some w⟩) hb (c := 1) ?_ g1
      · rwa [one_mul] at this
      · filter_upwards [hyt] with t ht
        simp only [Problem.interpolate, Crf.interpolate, if_true, ht, Option.map_some]
    · have := grows_of (f := .crf ⟨b, 2, s, _, some w⟩) hb (c := 1) ?_ g2
      · rwa [one_mul] at this
      · filter_upwards [hyt] with t ht
        simp only [Problem.interpolate, Crf.interpolate, ht, Option.map_some]
        rw [if_neg (by norm_num), if_pos trivial]

theorem mobius_tendsto_one : Tendsto mobius atTop (nhds 1) := by
  have := mobius_tendsto one_pos
  simpa using this

theorem spline_growth {l : List ℝ} {b : Base} (hb : BaseOf P l b) {lib : SplineLib} (hlib : SplineSpec lib)
    (hcont : ∀ pts f, lib.notAKnot pts = .ok f → Continuous f) {ft : ℤ} {m : Fitted}
    (h : splineInit lib ft b = .ok m) : GrowsLike P (.spl m) b.normB := by
  have hm : m.base = b ∧ (m.funcType = 1 ∨ m.funcType = 2) ∧ Continuous m.f ∧ m.f 1 = 0 := by
    unfold splineInit at h
    split_ifs at h with h1 h2 h3 h4
    · obtain ⟨f, hf, h⟩ := bind_inv h
      injection h with h
      subst h
      exact ⟨rfl, .inl h1, hcont _ _ hf, hlib.notAKnot.through _ _ hf (1, 0) (by simp)⟩
    · obtain ⟨f, hf, h⟩ := bind_inv h
      injection h with h
      subst h
      exact ⟨rfl, .inr h3, hcont _ _ hf, hlib.notAKnot.through _ _ hf (1, 0) (by simp)⟩
  obtain ⟨rfl, hft, hc, h1⟩ := hm
  have hlim : Tendsto (fun t => m.f (mobius t)) atTop (nhds 0) := by
    have := (hc.tendsto 1).comp mobius_tendsto_one
    rwa [h1] at this
  obtain ⟨g1, g2⟩ := ratio_growth hlim m.base.tau0
  rcases hft with e | e
  · have := grows_of (f := .spl m) hb (c := 1) ?_ g1
    · rwa [one_mul] at this
    · filter_upwards [eventually_gt_atTop 0] with t ht
      simp only [Problem.interpolate, Fitted.spline, if_pos e]
      rw [if_neg (by linarith)]
  · have := grows_of (f := .spl m) hb (c := 1) ?_ g2
    · rwa [one_mul] at this
    · filter_upwards [eventually_gt_atTop 0] with t ht
      simp only [Problem.interpolate, Fitted.spline]
      rw [if_neg (by rw [e]; norm_num), if_pos e, if_neg (by linarith)]

theorem foldl_growth (c : List ℝ) : ∀ {g : ℝ → ℝ} {k : ℕ}, Tendsto (fun t => g t / t ^ k) atTop (nhds 1) →
    Tendsto (fun t : ℝ => c.foldl (fun acc a => acc * t + a) (g t) / t ^ (k + c.length)) atTop
      (if c = [] then nhds 1 else nhds 1) := by
  induction c with
  | nil => intro g k h; simpa using h
  | cons a c ih =>
    intro g k h
    have h1 : Tendsto (fun t : ℝ => (g t * t + a) / t ^ (k + 1)) atTop (nhds 1) := by
      have h0 : Tendsto (fun t : ℝ => a / t ^ (k + 1)) atTop (nhds 0) :=
        (tendsto_pow_atTop (by omega)).const_div_atTop a
      have := h.add h0
      rw [add_zero] at this
      refine this.congr' ?_
      filter_upwards [eventually_gt_atTop 0] with t ht
      rw [pow_succ]
      field_simp
    have := ih h1
    simp only [ite_self, List.foldl_cons, List.length_cons] at this ⊢
    rwa [show k + (c.length + 1) = k + 1 + c.length by omega]

theorem polyval_growth (c : List ℝ) :
    Tendsto (fun t : ℝ => polyval (1 :: c) t / t ^ c.length) atTop (nhds 1) := by
  have := foldl_growth c (g := fun _ => 1) (k := 0) (by simp)
  simp only [ite_self, zero_add] at this
  refine this.congr fun t => ?_
  simp [polyval]

theorem rpf_growth {l : List ℝ} {b : Base} (hb : BaseOf P l b) (hne : l ≠ []) {m : Rpf} (h : rpfInit b = .ok m) :
    GrowsLike P (.rpf m) b.normB := by
  obtain ⟨c, d, hbase, hnum, hden, hlen⟩ : ∃ c d : List ℝ, m.base = b ∧ m.num = 1 :: c ∧ m.den = 1 :: d ∧
      c.length = d.length + 1 := by
    unfold rpfInit at h
    simp only at h
    split_ifs at h with hq ht
    have hq1 : 1 ≤ b.nodes.length / 2 := by
      have : b.nodes.length ≠ 0 := by rw [hb.length]; exact fun h => hne (List.length_eq_zero_iff.1 h)
      omega
    obtain ⟨x, -, h⟩ := bind_inv h
    split_ifs at h with hp
    injection h with h
    subst h
    refine ⟨_, _, rfl, rfl, rfl, ?_⟩
    simp only [List.length_reverse, List.length_take, List.length_ofFn, List.length_cons, List.length_drop]
    omega
  subst hbase
  have hN := polyval_growth c
  have hD := polyval_growth d
  have hne0 : ∀ᶠ t : ℝ in atTop, polyval (1 :: d) t ≠ 0 := by
    filter_upwards [hD.eventually (lt_mem_nhds one_pos)] with t ht h0
    rw [h0, zero_div] at ht
    exact lt_irrefl _ ht
  have hg : Tendsto (fun t => polyval m.num t / polyval m.den t / t) atTop (nhds 1) := by
    have := hN.div hD one_ne_zero
    rw [div_one] at this
    refine this.congr' ?_
    filter_upwards [eventually_gt_atTop 0, hne0] with t ht h0
    simp only [Pi.div_apply, hnum, hden, hlen, pow_succ]
    field_simp
  have := grows_of (f := .rpf m) hb (c := 1) ?_ hg
  · rwa [one_mul] at this
  · filter_upwards [hne0] with t ht
    simp only [Problem.interpolate, Rpf.interpolate]
    rw [if_neg (by rw [hden]; exact ht)]

theorem ratio_of_growth {f : Interpolator} {nB c : ℝ} {s : ℝ → ℝ} (hnB : nB ≠ 0)
    (hs : ∀ t, 0 ≤ t → 0 < s t ∧ P.eval t = .ok (s t)) (hst : Tendsto (fun t => s t / t) atTop (nhds nB))
    (h : GrowsLike P f c) : RatioTends P f (c / nB) := by
  obtain ⟨x, hx, hxt⟩ := h
  refine ⟨x, s, ?_, (hxt.div hst hnB).congr' ?_⟩
  · filter_upwards [hx, eventually_ge_atTop 0] with t h1 h2 using ⟨h1, (hs t h2).2, (hs t h2).1⟩
  · filter_upwards [eventually_gt_atTop 0] with t ht
    have := (hs t ht.le).1
    simp only [Pi.div_apply]
    field_simp

/-- C57 for every method but `eig` (C46) and `imbf` with the basis `'ortho'`: the interpolant and the function itself
have the same growth. -/
theorem interpolant_growth_partial (hn : 0 < n) (hA : P.A.PosDef) (hB : ∀ B, P.B = some B → B.PosDef)
    (hS : ComputesSchatten P) {st : Interp.Settings} (hlib : SplineSpec st.spline)
    (hcont : ∀ pts f, st.spline.notAKnot pts = .ok f → Continuous f) (hnp : NumpySpec st.np) {kind : String}
    {ti : Points} {l : List ℝ} (hti : IsPoints ti l) (hl : ∀ t ∈ l, 0 < t)
    (hbasis : kind.toLower = "imbf" → st.basis = .nonOrtho ∨ st.basis = .ortho2)
    (hscale : kind.toLower = "crf" → 0 < st.scale.getD |st.opt|) (hkind : kind.toLower ≠ "eig") {f : Interpolator}
    (h : P.create st kind ti = .ok f) : RatioTends P f 1 := by
  have hP := goodProblem_of hn hA hB hS
  obtain ⟨nB, s, hnB, hs, hst⟩ := exact_growth hn hA hB hS
  have key : ∀ {c}, GrowsLike P f c → IsNormB P c → RatioTends P f 1 := by
    intro c h1 h2
    rw [isNormB_unique h2 hnB] at h1
    have := ratio_of_growth hnB.1.ne' hs hst h1
    rwa [div_self hnB.1.ne'] at this
  unfold Problem.create at h
  split_ifs at h with h1 h3 h4 h5 h6 h7 h8
  · injection h with h
    subst h
    refine key ⟨s, ?_, hst⟩ hnB
    filter_upwards [eventually_ge_atTop 0] with t ht
    simp only [Problem.interpolate, (hs t ht).2, Except.map]
  · obtain ⟨m, hm, rfl⟩ := map_inv h
    obtain ⟨b, s, t1, hb, ht1, -, rfl⟩ := base_mbf hti hm
    have hb := base_ok hP hti hb
    refine key (mbf_growth hb ?_) (base_isNormB hb)
    rcases mbfPoint_inv hnp hti ht1 with ⟨-, rfl⟩ | rfl
    · exact (one_div_pos.2 hb.tau0_pos).ne'
    · exact (hl t1 (by simp)).ne'
  · obtain ⟨a, x, k1, k2, k3, k4, k5⟩ := imbf_growth (st := st) hP
      (by rcases hbasis h4 with h | h <;> rw [h] <;> decide) hti (f := f) (by rw [create_imbf]; exact h)
    rw [if_neg (by rcases hbasis h4 with h | h <;> rw [h] <;> decide)] at k5
    refine key ⟨x, ?_, k5⟩ ⟨k1, k2, k3⟩
    filter_upwards [eventually_ge_atTop 0] with t ht using k4 t ht
  · obtain ⟨m, hm, rfl⟩ := map_inv h
    unfold Problem.rbf at hm
    obtain ⟨-, -, hm⟩ := bind_inv hm
    obtain ⟨b, hb, hm⟩ := bind_inv hm
    have hb := base_ok hP hti hb
    exact key (rbf_growth hb hm) (base_isNormB hb)
  · obtain ⟨m, hm, rfl⟩ := map_inv h
    unfold Problem.crf at hm
    obtain ⟨ti', ht', hm1⟩ := bind_inv hm
    obtain ⟨b, hb, hm2⟩ := bind_inv hm1
    have : ti' = ti := by
      unfold crfPointsArg at ht'
      rcases hti with rfl | rfl
      · simp only at ht'
        obtain ⟨e, -, ht'⟩ := bind_inv ht'
        split_ifs at ht'
        injection ht' with ht'
        exact ht'.symm
      · simp only at ht'
        obtain ⟨e, -, ht'⟩ := bind_inv ht'
        split_ifs at ht'
        injection ht' with ht'
        exact ht'.symm
    subst this
    have hb := base_ok hP hti hb
    exact key (crf_growth hb hl (hscale h6) hm2) (base_isNormB hb)
  · obtain ⟨m, hm, rfl⟩ := map_inv h
    unfold Problem.spline at hm
    obtain ⟨-, -, hm⟩ := bind_inv hm
    obtain ⟨b, hb, hm⟩ := bind_inv hm
    have hb := base_ok hP hti hb
    exact key (spline_growth hb hlib hcont hm) (base_isNormB hb)
  · obtain ⟨m, hm, rfl⟩ := map_inv h
    have : P.rpf ti = if l = [] then .error .valueError else (do
        let b ← P.base ti
        rpfInit b) := by rcases hti with rfl | rfl <;> rfl
    rw [this] at hm
    split_ifs at hm with hne
    obtain ⟨b, hb, hm⟩ := bind_inv hm
    have hb := base_ok hP hti hb
    exact key (rpf_growth hb hne hm) (base_isNormB hb)

/-- C57 is false for the basis `'ortho'` as soon as a point is above one: the interpolant is then too small by the
factor of the largest point. -/
theorem ortho_growth_wrong (hn : 0 < n) (hA : P.A.PosDef) (hB : ∀ B, P.B = some B → B.PosDef)
    (hS : ComputesSchatten P) {st : Interp.Settings} (hbasis : st.basis = .ortho) {ti : Points} {l : List ℝ}
    (hti : IsPoints ti l) {t1 : ℝ} (ht1 : t1 ∈ l) (h1 : 1 < t1) {f : Interpolator}
    (h : P.create st "imbf" ti = .ok f) : ∃ c, c < 1 ∧ RatioTends P f c := by
  have hP := goodProblem_of hn hA hB hS
  obtain ⟨nB, s, hnB, hs, hst⟩ := exact_growth hn hA hB hS
  obtain ⟨a, x, k1, k2, k3, k4, k5⟩ := imbf_growth hP (by rw [hbasis]; decide) hti h
  have hab : a = nB := isNormB_unique ⟨k1, k2, k3⟩ hnB
  subst hab
  rw [if_pos hbasis] at k5
  have hle : ∀ (l : List ℝ), t1 ∈ l → t1 ≤ l.foldr max 1 := by
    intro l
    induction l with
    | nil => simp
    | cons y l ih =>
      intro hm
      rcases List.mem_cons.1 hm with rfl | hm
      · exact le_max_left _ _
      · exact (ih hm).trans (le_max_right _ _)
  have hmax := hle l ht1
  refine ⟨_, ?_, ratio_of_growth k1.ne' hs hst ⟨x, ?_, k5⟩⟩
  · rw [div_div_cancel_left' k1.ne']
    exact inv_lt_one_of_one_lt₀ (by linarith)
  · filter_upwards [eventually_ge_atTop 0] with t ht using k4 t ht

/-! ### Cases -/

/-- A routine that meets `SplineSpec` and gives continuous functions: the interpolating polynomial. -/
noncomputable def polyFit (pts : List (ℝ × ℝ)) : Except PyExc (ℝ → ℝ) :=
  open Classical in
  if 2 ≤ pts.length ∧ (pts.map Prod.fst).Pairwise (· < ·) then
    .ok fun x => (Lagrange.interpolate univ (fun i : Fin pts.length => (pts.get i).1)
      (fun i => (pts.get i).2)).eval x
  else .error .valueError

theorem polyFit_continuous (pts : List (ℝ × ℝ)) (f : ℝ → ℝ) (h : polyFit pts = .ok f) : Continuous f := by
  unfold polyFit at h
  split_ifs at h
  injection h with h
  subst h
  exact Polynomial.continuous _

theorem polyFit_spec : FitsPoints polyFit where
  through := by
    intro pts f h x hx
    unfold polyFit at h
    split_ifs at h with hc
    injection h with h
    subst h
    obtain ⟨i, rfl⟩ := List.mem_iff_get.1 hx
    have hinj : Set.InjOn (fun i : Fin pts.length => (pts.get i).1) (univ : Finset (Fin pts.length)) := by
      intro i _ j _ hij
      have hnd : (pts.map Prod.fst).Nodup := hc.2.imp fun h => ne_of_lt h
      have := (List.nodup_iff_injective_get.1 hnd)
      have e := @this ⟨i, by simp⟩ ⟨j, by simp⟩ (by simpa using hij)
      exact Fin.ext (by simpa using e)
    exact Lagrange.eval_interpolate_at_node _ hinj (mem_univ i)
  ok := by
    intro pts h1 h2
    exact ⟨_, by unfold polyFit; rw [if_pos ⟨h1, h2⟩]⟩
  raises := by
    intro pts h
    unfold polyFit
    rw [if_neg h]

example (lib : Eigen.Lib) : ∃ f, (diagProblem (-1) true).create
    { exampleSettings lib .ortho2 2 none with spline := ⟨polyFit, polyFit⟩ } "spl" (.list [1, 4]) = .ok f ∧
      RatioTends (diagProblem (-1) true) f 1 := by
  have hk : ("spl" : String).toLower = "spl" := by decide +kernel
  obtain ⟨f, hf⟩ := increasing_points_accepted_partial (diagProblem_good (-1) true)
    (st := { exampleSettings lib .ortho2 2 none with spline := ⟨polyFit, polyFit⟩ }) ⟨polyFit_spec, polyFit_spec⟩
    (kind := "spl") (l := [1, 4]) (by simp) (by simp) (by norm_num)
    (.inr (.inr (.inr (.inr (.inr ⟨hk, .inr rfl⟩)))))
  exact ⟨f, hf, interpolant_growth_partial
    (st := { exampleSettings lib .ortho2 2 none with spline := ⟨polyFit, polyFit⟩ }) (by norm_num) (diagProblem_pos _ _) (diagProblem_B _ _)
    (diagProblem_schatten _ _) ⟨polyFit_spec, polyFit_spec⟩ polyFit_continuous
    (exampleSettings_numpy lib .ortho2 2 none) (.inl rfl) (by simp) (by rw [hk]; simp) (by rw [hk]; simp)
    (by rw [hk]; decide) hf⟩

example (lib : Eigen.Lib) : ∃ f c, (diagProblem 3 false).create (exampleSettings lib .ortho 1 none) "imbf"
    (.list [1, 4]) = .ok f ∧ c < 1 ∧ RatioTends (diagProblem 3 false) f c := by
  have hk : ("imbf" : String).toLower = "imbf" := by decide +kernel
  obtain ⟨f, hf⟩ := increasing_points_accepted_partial (diagProblem_good 3 false)
    (exampleSettings_spline lib .ortho 1 none) (kind := "imbf") (l := [1, 4]) (by simp) (by simp) (by norm_num)
    (.inr (.inr (.inl ⟨hk, by simp [exampleSettings], by simp [exampleSettings]⟩)))
  obtain ⟨c, h1, h2⟩ := ortho_growth_wrong (by norm_num) (diagProblem_pos _ _) (diagProblem_B _ _)
    (diagProblem_schatten _ _) rfl (.inl rfl) (t1 := 4) (by simp) (by norm_num) hf
  exact ⟨f, c, hf, h1, h2⟩

end Imate.Props
