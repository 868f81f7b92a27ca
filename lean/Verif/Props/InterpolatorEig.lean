import Verif.Props.InterpolatorExact
import Mathlib.Analysis.SpecialFunctions.Pow.Asymptotics

/-!
# C46 (eigenvalues) and C57 (growth of the inverse monomial interpolants)
-/

namespace Imate.Props

open Imate.Spec Imate.Interp Imate.Eigen Matrix Finset

variable {n : ℕ} {P : Problem n}

/-! ### C46 -/

/-- The eigenvalues of `A + tI`. -/
theorem roots_add_smul_one {A : Matrix (Fin n) (Fin n) ℝ} (hA : A.IsHermitian) (t : ℝ) :
    (A + t • (1 : Matrix (Fin n) (Fin n) ℝ)).charpoly.roots = A.charpoly.roots.map (· + t) := by
  have h1 : A + t • (1 : Matrix (Fin n) (Fin n) ℝ) = A - scalar (Fin n) (-t) := by
    rw [sub_eq_add_neg, ← map_neg, neg_neg, scalar_apply, ← smul_one_eq_diagonal]
  have h2 : A.charpoly = ((A.charpoly.roots).map fun a => Polynomial.X - Polynomial.C a).prod := by
    rw [hA.roots_charpoly_eq_eigenvalues, Multiset.map_map]
    exact hA.charpoly_eq
  rw [h1, charpoly_sub_scalar]
  conv_lhs => rw [h2]
  rw [Polynomial.multiset_prod_comp, Multiset.map_map]
  have h3 : (A.charpoly.roots.map ((fun p : Polynomial ℝ => p.comp (Polynomial.X + Polynomial.C (-t))) ∘
      fun a => Polynomial.X - Polynomial.C a)) =
      (A.charpoly.roots.map (· + t)).map fun a => Polynomial.X - Polynomial.C a := by
    rw [Multiset.map_map]
    refine Multiset.map_congr rfl fun a _ => ?_
    simp only [Function.comp_apply, Polynomial.sub_comp, Polynomial.X_comp, Polynomial.C_comp, map_neg, map_add]
    ring
  rw [h3, Polynomial.roots_multiset_prod_X_sub_C]

theorem isSymm_of_isHermitian {A : Matrix (Fin n) (Fin n) ℝ} (h : A.IsHermitian) : A.IsSymm := by
  ext i j
  simpa using h.apply i j

theorem create_eig (st : Interp.Settings) (ti : Points) : P.create st "eig" ti = (P.eig st.eig st.ratio).map .eig := by
  unfold Problem.create
  rw [show ("eig" : String).toLower = "eig" by decide +kernel, if_neg (by decide +kernel), if_pos rfl]

theorem create_ext (st : Interp.Settings) (ti : Points) : P.create st "ext" ti = .ok .ext := by
  unfold Problem.create
  rw [show ("ext" : String).toLower = "ext" by decide +kernel, if_pos rfl]

/-- C46 for `ext`: the answer is that of `eval`, also when it raises. -/
theorem ext_exact (st : Interp.Settings) (ti : Points) :
    ∃ f, P.create st "ext" ti = .ok f ∧ (∀ t s, P.eval t = .ok s → P.interpolate f t = .ok (some s)) ∧
      ∀ t e, P.eval t = .error e → P.interpolate f t = .error e := by
  refine ⟨_, create_ext st ti, fun t s h => ?_, fun t e h => ?_⟩ <;> simp only [Problem.interpolate, h, Except.map]

/-- The power sum of positive numbers. -/
theorem powSum_pos {p : ℝ} {l : List ℝ} (hl : ∀ x ∈ l, 0 < x) :
    powSum p l = some ((l : Multiset ℝ).map fun x => x ^ p).sum := by
  unfold powSum
  exact sumOpt_congr fun x hx => by rw [powR_pos (hl x hx)]

theorem list_sum_log {l : List ℝ} (hl : ∀ x ∈ l, x ≠ 0) :
    (l.map fun x => Real.log |x|).sum = Real.log |l.prod| := by
  induction l with
  | nil => simp
  | cons x l ih =>
    simp only [List.map_cons, List.sum_cons, List.prod_cons, abs_mul]
    have hp : l.prod ≠ 0 := List.prod_ne_zero fun h => hl 0 (by simp [h]) rfl
    rw [ih fun y hy => hl y (by simp [hy]),
      Real.log_mul (abs_ne_zero.2 (hl x (by simp))) (abs_ne_zero.2 hp)]

/-- C46 for `eig`, dense matrices: exact for every symmetric matrix and every `t` when `p = 0`, and whenever `A + tI` is
positive definite for every other order. -/
theorem eig_exact_dense (hn : 0 < n) (hB : P.B = none) (hd : P.sparse = false) (hA : P.A.IsHermitian)
    {st : Interp.Settings} (hlib : EigSpec st.eig) (ti : Points) :
    ∃ f, P.create st "eig" ti = .ok f ∧
      (P.p = 0 → ∀ t, P.interpolate f t = .ok (some (schattenNorm (P.A + t • P.matB) P.p))) ∧
      ∀ t, (P.A + t • P.matB).PosDef → P.interpolate f t = .ok (some (schattenNorm (P.A + t • P.matB) P.p)) := by
  classical
  have hn' : (0 : ℝ) < n := by exact_mod_cast hn
  have hm : P.matB = 1 := by unfold Problem.matB; rw [hB]; rfl
  have hl : (st.eig.eigh n P.A : Multiset ℝ) = P.A.charpoly.roots := by
    rw [hlib.eigh_ok, Direct.lowerSymm_of_isSymm (isSymm_of_isHermitian hA)]
    rfl
  have hsh : ∀ t, (((st.eig.eigh n P.A).map (· + t) : List ℝ) : Multiset ℝ) =
      (P.A + t • (1 : Matrix (Fin n) (Fin n) ℝ)).charpoly.roots := by
    intro t
    rw [roots_add_smul_one hA, ← hl]
    rfl
  have hherm : ∀ t : ℝ, (P.A + t • (1 : Matrix (Fin n) (Fin n) ℝ)).IsHermitian := fun t => hA.add (by
    unfold IsHermitian
    rw [conjTranspose_smul, conjTranspose_one, star_trivial])
  have hdet : ∀ t, (P.A + t • (1 : Matrix (Fin n) (Fin n) ℝ)).det = ((st.eig.eigh n P.A).map (· + t)).prod := by
    intro t
    rw [(hherm t).det_eq_prod_eigenvalues, ← Multiset.prod_coe, hsh, (hherm t).roots_charpoly_eq_eigenvalues]
    rfl
  have hzero : P.p = 0 → ∀ t, eigInterpolate n P.p (st.eig.eigh n P.A) t =
      some (schattenNorm (P.A + t • (1 : Matrix (Fin n) (Fin n) ℝ)) P.p) := by
    intro hp t
    unfold eigInterpolate schattenNorm
    simp only
    rw [if_pos hp, if_pos hp, hdet]
    split_ifs with h0
    · rw [List.prod_eq_zero h0, abs_zero, Real.zero_rpow (by positivity)]
    · rw [list_sum_log fun x hx h => h0 (h ▸ hx),
        exp_log_div (abs_pos.2 (List.prod_ne_zero h0))]
  refine ⟨.eig (st.eig.eigh n P.A), ?_, ?_, ?_⟩
  · rw [create_eig]
    unfold Problem.eig
    rw [hB, hd]
    rfl
  · intro hp t
    simp only [Problem.interpolate, hm, hzero hp]
  · intro t hX
    rw [hm] at hX ⊢
    by_cases hp : P.p = 0
    · simp only [Problem.interpolate, hzero hp]
    have hpos : ∀ x ∈ (st.eig.eigh n P.A).map (· + t), 0 < x := by
      intro x hx
      refine posDef_eigenvalues hX ?_
      unfold realEigenvalues
      rw [← hsh t]
      exact hx
    have htr := cfc_trace_pos hX hn P.p
    simp only [Problem.interpolate]
    unfold eigInterpolate schattenNorm
    simp only
    rw [if_neg hp, if_neg hp, powSum_pos hpos, hsh, ← trace_cfc (hherm t), Option.bind_some,
      powR_pos (div_pos htr hn'), abs_of_pos (div_pos htr hn')]

/-- C46: every `B`, also the identity, raises. -/
theorem eig_B_raises {B : Matrix (Fin n) (Fin n) ℝ} (hB : P.B = some B) (st : Interp.Settings) (ti : Points) :
    P.create st "eig" ti = .error .valueError := by
  rw [create_eig]
  unfold Problem.eig
  rw [hB]
  rfl

theorem multiset_sum_lt {s : Multiset ℝ} {c : ℝ} (hs : 0 < s.card) {f : ℝ → ℝ} (h : ∀ x ∈ s, c < f x) :
    s.card • c < (s.map f).sum := by
  induction s using Multiset.induction_on with
  | empty => simp at hs
  | cons x s ih =>
    rw [Multiset.card_cons, succ_nsmul', Multiset.map_cons, Multiset.sum_cons]
    have hx := h x (by simp)
    rcases Nat.eq_zero_or_pos s.card with h0 | h0
    · rw [Multiset.card_eq_zero.1 h0]; simpa using hx
    · exact add_lt_add hx (ih h0 fun y hy => h y (by simp [hy]))

theorem multiset_lt_sum {s : Multiset ℝ} {c : ℝ} (hs : 0 < s.card) {f : ℝ → ℝ} (h : ∀ x ∈ s, f x < c) :
    (s.map f).sum < s.card • c := by
  have := multiset_sum_lt (s := s) (c := -c) (f := fun x => -f x) hs fun x hx => neg_lt_neg (h x hx)
  rw [Multiset.sum_map_neg, smul_neg] at this
  exact neg_lt_neg_iff.1 this

/-- C46 fails for every sparse positive definite matrix, every order and every positive `t`: the missing eigenvalues are
taken to be zero and the result is too small. -/
theorem eig_sparse_too_small (hn : 0 < n) (hB : P.B = none) (hsp : P.sparse = true) (hA : P.A.PosDef)
    {st : Interp.Settings} (hlib : EigSpec st.eig) (hr : st.ratio < 1) {ti : Points} {f : Interpolator}
    (hf : P.create st "eig" ti = .ok f) {t : ℝ} (ht : 0 < t) :
    ∃ x, P.interpolate f t = .ok (some x) ∧ x < schattenNorm (P.A + t • P.matB) P.p := by
  classical
  have hn' : (0 : ℝ) < n := by exact_mod_cast hn
  have hm : P.matB = 1 := by unfold Problem.matB; rw [hB]; rfl
  rw [create_eig] at hf
  obtain ⟨l', hl', rfl⟩ := map_inv hf
  unfold Problem.eig at hl'
  rw [hB, hsp] at hl'
  simp only [if_true] at hl'
  obtain ⟨l, hl, hl'⟩ := bind_inv hl'
  injection hl' with hl'
  obtain ⟨hlen, hle⟩ := hlib.eigsh_ok _ _ _ _ _ hl
  rw [Direct.lowerSymm_of_isSymm (isSymm_of_isHermitian hA.1)] at hle
  have hk : numNonZero n st.ratio < n := by
    unfold numNonZero
    have h1 : ⌊(n : ℚ) * st.ratio⌋ < (n : ℤ) := by
      rw [Int.floor_lt]
      have : (0 : ℚ) < n := by exact_mod_cast hn
      push_cast
      nlinarith
    omega
  set k := numNonZero n st.ratio with hkdef
  obtain ⟨m, hmm⟩ := Multiset.le_iff_exists_add.1 hle
  have hcard : (realEigenvalues P.A).card = n := by
    unfold realEigenvalues
    rw [hA.1.roots_charpoly_eq_eigenvalues]
    simp
  have hmc : m.card = n - k := by
    have := congrArg Multiset.card hmm
    rw [hcard, Multiset.card_add, Multiset.coe_card, hlen] at this
    omega
  have hmpos : 0 < m.card := by omega
  have hpos : ∀ x ∈ realEigenvalues P.A, 0 < x := fun x hx => posDef_eigenvalues hA hx
  have hlp : ∀ x ∈ l, 0 < x := fun x hx => hpos x (by rw [hmm]; exact Multiset.mem_add.2 (.inl (by simpa using hx)))
  have hmp : ∀ x ∈ m, 0 < x := fun x hx => hpos x (by rw [hmm]; exact Multiset.mem_add.2 (.inr hx))
  set X := P.A + t • (1 : Matrix (Fin n) (Fin n) ℝ) with hX
  have hXp : X.PosDef := hA.add (PosDef.one.smul ht)
  have hroots : X.charpoly.roots = (l : Multiset ℝ).map (· + t) + m.map (· + t) := by
    rw [hX, roots_add_smul_one hA.1, ← Multiset.map_add, ← hmm]
    rfl
  -- the list of the code
  have he : (((l ++ List.replicate (n - k) (0 : ℝ)).map (· + t) : List ℝ) : Multiset ℝ) =
      (l : Multiset ℝ).map (· + t) + Multiset.replicate (n - k) t := by
    rw [List.map_append, ← Multiset.coe_add]
    simp [Multiset.coe_replicate]
  have hep : ∀ x ∈ (l ++ List.replicate (n - k) (0 : ℝ)).map (· + t), 0 < x := by
    intro x hx
    have : x ∈ (l : Multiset ℝ).map (· + t) + Multiset.replicate (n - k) t := by rw [← he]; exact hx
    rcases Multiset.mem_add.1 this with h | h
    · obtain ⟨y, hy, rfl⟩ := Multiset.mem_map.1 h
      have := hlp y (by simpa using hy)
      linarith
    · rw [Multiset.eq_of_mem_replicate h]; exact ht
  -- sums of a function over both lists
  have hgen : ∀ g : ℝ → ℝ, ((((l ++ List.replicate (n - k) (0 : ℝ)).map (· + t) : List ℝ) : Multiset ℝ).map g).sum =
      ((l : Multiset ℝ).map fun x => g (x + t)).sum + m.card • g t := by
    intro g
    rw [he, Multiset.map_add, Multiset.sum_add, Multiset.map_map, Multiset.map_replicate, Multiset.sum_replicate, hmc]
    rfl
  have hgen' : ∀ g : ℝ → ℝ, (X.charpoly.roots.map g).sum =
      ((l : Multiset ℝ).map fun x => g (x + t)).sum + (m.map fun x => g (x + t)).sum := by
    intro g
    rw [hroots, Multiset.map_add, Multiset.sum_add, Multiset.map_map, Multiset.map_map]
    rfl
  rw [hm, ← hX, ← hl']
  simp only [Problem.interpolate]
  unfold eigInterpolate
  simp only
  by_cases hp : P.p = 0
  · rw [if_pos hp, if_neg fun h => lt_irrefl _ (hep 0 h)]
    refine ⟨_, rfl, ?_⟩
    have h1 : (((l ++ List.replicate (n - k) (0 : ℝ)).map (· + t)).map fun x => Real.log |x|).sum =
        ((l : Multiset ℝ).map fun x => Real.log |x + t|).sum + m.card • Real.log |t| :=
      (by simp : _ = _).trans (hgen fun x => Real.log |x|)
    have h2 : Real.log X.det = ((l : Multiset ℝ).map fun x => Real.log |x + t|).sum +
        (m.map fun x => Real.log |x + t|).sum := by
      rw [← trace_cfc_log hXp, trace_cfc hXp.1, ← hgen' fun x => Real.log |x|]
      congr 1
      exact Multiset.map_congr rfl fun x _ => (Real.log_abs x).symm
    have h3 : m.card • Real.log |t| < (m.map fun x => Real.log |x + t|).sum := by
      refine multiset_sum_lt hmpos fun x hx => ?_
      have := hmp x hx
      rw [Real.log_abs, Real.log_abs]
      exact Real.log_lt_log ht (by linarith)
    unfold schattenNorm
    rw [if_pos hp, abs_of_pos hXp.det_pos, ← exp_log_div hXp.det_pos, h1, h2]
    refine Real.exp_lt_exp.2 ?_
    gcongr
  · rw [if_neg hp, powSum_pos hep, hgen fun x => x ^ P.p, Option.bind_some]
    have hcode : 0 < ((l : Multiset ℝ).map fun x => (x + t) ^ P.p).sum + m.card • t ^ P.p := by
      refine add_pos_of_nonneg_of_pos (Multiset.sum_nonneg fun y hy => ?_) ?_
      · obtain ⟨x, hx, rfl⟩ := Multiset.mem_map.1 hy
        have := hlp x (by simpa using hx)
        exact Real.rpow_nonneg (by linarith) _
      · rw [nsmul_eq_mul]
        have : (0 : ℝ) < m.card := by exact_mod_cast hmpos
        have := Real.rpow_pos_of_pos ht P.p
        positivity
    rw [powR_pos (div_pos hcode hn')]
    refine ⟨_, rfl, ?_⟩
    have htr := cfc_trace_pos hXp hn P.p
    have htr' := div_pos htr hn'
    unfold schattenNorm
    rw [if_neg hp, abs_of_pos htr']
    have hsum := hgen' fun x => x ^ P.p
    rw [← trace_cfc hXp.1] at hsum
    rcases lt_or_gt_of_ne hp with hneg | hpp
    · refine Real.rpow_lt_rpow_of_neg htr' ?_ (one_div_neg.2 hneg)
      rw [hsum]
      have h3 : (m.map fun x => (x + t) ^ P.p).sum < m.card • t ^ P.p := by
        refine multiset_lt_sum hmpos fun x hx => ?_
        exact Real.rpow_lt_rpow_of_neg ht (by have := hmp x hx; linarith) hneg
      gcongr
    · refine Real.rpow_lt_rpow (div_pos hcode hn').le ?_ (one_div_pos.2 hpp)
      rw [hsum]
      have h3 : m.card • t ^ P.p < (m.map fun x => (x + t) ^ P.p).sum := by
        refine multiset_sum_lt hmpos fun x hx => ?_
        exact Real.rpow_lt_rpow ht.le (by have := hmp x hx; linarith) hpp
      gcongr

/-! ### C57 -/

theorem phi_growth {i : ℕ} (hi : 2 ≤ i) {c : ℝ} (hc : 0 < c) :
    Filter.Tendsto (fun t : ℝ => phi i (t / c) / t) Filter.atTop (nhds 0) := by
  have hi' : (2 : ℝ) ≤ i := by exact_mod_cast hi
  have hlt : 0 < 1 - 1 / (i : ℝ) := by
    have : 1 / (i : ℝ) ≤ 1 / 2 := one_div_le_one_div_of_le (by norm_num) hi'
    linarith
  have h := (tendsto_rpow_neg_atTop hlt).const_mul ((1 / c) ^ (1 / (i : ℝ)))
  rw [mul_zero] at h
  refine h.congr' ?_
  filter_upwards [Filter.eventually_gt_atTop 0] with t ht
  unfold phi
  rw [div_eq_mul_one_div t c, Real.mul_rpow ht.le (by positivity), neg_sub, Real.rpow_sub ht, Real.rpow_one]
  ring

theorem basisFun_growth {basis : Basis} (hb : basis = .nonOrtho ∨ basis = .ortho2) (j : ℕ) {c : ℝ} (hc : 0 < c) :
    Filter.Tendsto (fun t : ℝ => basisFun basis j (t / c) / t) Filter.atTop (nhds 0) := by
  rcases hb with rfl | rfl
  · exact phi_growth (by omega) hc
  · have := tendsto_finsetSum (range 9) fun i _ =>
      (phi_growth (i := i + 2) (by omega) hc).const_mul (alphaOrtho2 j * (tableGet tableOrtho2 j i : ℝ))
    simp only [mul_zero, sum_const_zero] at this
    refine this.congr fun t => ?_
    simp only [basisFun, sum_div]
    exact sum_congr rfl fun i _ => by ring

theorem basisFun_ortho_growth (j : ℕ) {c : ℝ} (hc : 0 < c) :
    Filter.Tendsto (fun t : ℝ => basisFun .ortho j (t / c) / t) Filter.atTop
      (nhds (alphaOrtho j * (tableGet tableOrtho j 0 : ℝ) / c)) := by
  have h8 := tendsto_finsetSum (range 8) fun i _ =>
    (phi_growth (i := i + 1 + 1) (by omega) hc).const_mul (alphaOrtho j * (tableGet tableOrtho j (i + 1) : ℝ))
  simp only [mul_zero, sum_const_zero] at h8
  have h := h8.add_const (alphaOrtho j * (tableGet tableOrtho j 0 : ℝ) / c)
  rw [zero_add] at h
  refine h.congr' ?_
  filter_upwards [Filter.eventually_gt_atTop 0] with t ht
  simp only [basisFun]
  rw [sum_range_succ' _ 8, add_div, sum_div]
  congr 1
  · exact sum_congr rfl fun i _ => by ring
  · unfold phi
    simp only [zero_add, Nat.cast_one, div_one, Real.rpow_one]
    field_simp

/-- The growth of an interpolant that is `base.finish` of a function. -/
theorem finish_growth {b : Base} {l : List ℝ} (hb : BaseOf P l b) {g : ℝ → ℝ} {c : ℝ}
    (h : Filter.Tendsto (fun t => g t / t) Filter.atTop (nhds c)) :
    ∃ x : ℝ → ℝ, (∀ t, b.finish (some (g t)) = some (x t)) ∧
      Filter.Tendsto (fun t => x t / t) Filter.atTop (nhds (c * b.normB)) := by
  refine ⟨fun t => g t * b.normB, fun t => hb.finish_eq _, ?_⟩
  exact (h.mul_const b.normB).congr fun t => by ring

/-- C57: the inverse monomial interpolant grows like `t‖B‖`, as the norm does, with `'non-ortho'` and `'ortho2'`; with
`'ortho'` it grows like `t‖B‖` divided by the largest point when that is above one. -/
theorem imbf_growth (hP : GoodProblem P) {st : Interp.Settings} (hbasis : st.basis ≠ .other) {ti : Points}
    {l : List ℝ} (hti : IsPoints ti l) {f : Interpolator} (hf : P.create st "imbf" ti = .ok f) :
    ∃ (nB : ℝ) (x : ℝ → ℝ), 0 < nB ∧ (P.B = none → nB = 1) ∧ (∀ B, P.B = some B → P.norm B = .ok nB) ∧
      (∀ t, 0 ≤ t → P.interpolate f t = .ok (some (x t))) ∧
      Filter.Tendsto (fun t => x t / t) Filter.atTop
        (nhds (if st.basis = .ortho then nB / l.foldr max 1 else nB)) := by
  rw [create_imbf] at hf
  obtain ⟨m, hm, rfl⟩ := map_inv hf
  unfold Problem.imbf at hm
  obtain ⟨-, -, hm⟩ := bind_inv hm
  obtain ⟨b, hb, hm⟩ := bind_inv hm
  have hb := base_ok hP hti hb
  have hsc : scaleT b.nodes = l.foldr max 1 := by unfold scaleT; rw [hb.points]
  have hs1 := scaleT_pos b.nodes
  have hs0 : 0 < scaleT b.nodes := by linarith
  have htau : Filter.Tendsto (fun t : ℝ => b.tau0 / t) Filter.atTop (nhds 0) :=
    Filter.tendsto_id.const_div_atTop b.tau0
  refine ⟨b.normB, ?_⟩
  cases hbs : st.basis with
  | nonOrtho =>
    rw [hbs] at hm
    simp only [imbfInit] at hm
    obtain ⟨w, -, hm⟩ := bind_inv hm
    injection hm with hm
    subst hm
    have hsum := tendsto_finsetSum univ fun (j : Fin b.nodes.length) _ =>
      (basisFun_growth (.inl rfl) (j : ℕ) one_pos).const_mul (w j)
    simp only [mul_zero, sum_const_zero, div_one] at hsum
    have hg : Filter.Tendsto (fun t : ℝ => (b.tau0 + (∑ j, w j * basisFun .nonOrtho j t) + t) / t) Filter.atTop
        (nhds 1) := by
      have := (htau.add hsum).add_const 1
      simp only [zero_add] at this
      refine this.congr' ?_
      filter_upwards [Filter.eventually_gt_atTop 0] with t ht
      rw [add_div, add_div, div_self ht.ne', sum_div]
      congr 2
      exact sum_congr rfl fun j _ => by ring
    obtain ⟨x, hx, hlim⟩ := finish_growth hb hg
    refine ⟨x, hb.normB_pos, hb.normB_one, hb.normB_eq, fun t ht => ?_, by simpa using hlim⟩
    simp only [Problem.interpolate, Imbf.interpolate]
    rw [if_neg (not_lt.2 ht), hx]
  | ortho2 =>
    rw [hbs] at hm
    simp only [imbfInit] at hm
    split_ifs at hm
    obtain ⟨w, -, hm⟩ := bind_inv hm
    injection hm with hm
    subst hm
    have hsum := tendsto_finsetSum univ fun (j : Fin b.nodes.length) _ =>
      (basisFun_growth (.inr rfl) (j : ℕ) hs0).const_mul (w j)
    simp only [mul_zero, sum_const_zero] at hsum
    have hg : Filter.Tendsto (fun t : ℝ => (b.tau0 + (∑ j, w j * basisFun .ortho2 j (t / scaleT b.nodes)) + t) / t)
        Filter.atTop (nhds 1) := by
      have := (htau.add hsum).add_const 1
      simp only [zero_add] at this
      refine this.congr' ?_
      filter_upwards [Filter.eventually_gt_atTop 0] with t ht
      rw [add_div, add_div, div_self ht.ne', sum_div]
      congr 2
      exact sum_congr rfl fun j _ => by ring
    obtain ⟨x, hx, hlim⟩ := finish_growth hb hg
    refine ⟨x, hb.normB_pos, hb.normB_one, hb.normB_eq, fun t ht => ?_, by simpa using hlim⟩
    simp only [Problem.interpolate, Imbf.interpolate]
    rw [if_neg (not_lt.2 ht), hx]
  | ortho =>
    rw [hbs] at hm
    simp only [imbfInit] at hm
    split_ifs at hm
    obtain ⟨w, hw, hm⟩ := bind_inv hm
    injection hm with hm
    subst hm
    have hlast := solve_ok hw (Fin.last _)
    have hrow : ∑ j : Fin (b.nodes.length + 1), w j * (alphaOrtho j * (tableGet tableOrtho j 0 : ℝ)) = 1 := by
      have h1 : imbfRhsOrtho b (Fin.last _) = 1 := by
        unfold imbfRhsOrtho; rw [dif_neg (by simp)]
      rw [h1] at hlast
      rw [← hlast]
      refine sum_congr rfl fun j _ => ?_
      simp only [imbfMatrixOrtho, of_apply]
      rw [dif_neg (by simp)]
    have hsum := tendsto_finsetSum univ fun (j : Fin (b.nodes.length + 1)) _ =>
      (basisFun_ortho_growth (j : ℕ) hs0).const_mul (w j)
    have hval : ∑ j : Fin (b.nodes.length + 1), w j * (alphaOrtho j * (tableGet tableOrtho j 0 : ℝ) / scaleT b.nodes) =
        1 / scaleT b.nodes := by
      rw [← hrow, sum_div]
      exact sum_congr rfl fun j _ => by ring
    rw [hval] at hsum
    have hg : Filter.Tendsto (fun t : ℝ => (b.tau0 + ∑ j, w j * basisFun .ortho j (t / scaleT b.nodes)) / t)
        Filter.atTop (nhds (1 / scaleT b.nodes)) := by
      have := htau.add hsum
      simp only [zero_add] at this
      refine this.congr fun t => ?_
      rw [add_div, sum_div]
      congr 1
      exact sum_congr rfl fun j _ => by ring
    obtain ⟨x, hx, hlim⟩ := finish_growth hb hg
    refine ⟨x, hb.normB_pos, hb.normB_one, hb.normB_eq, fun t ht => ?_, ?_⟩
    · simp only [Problem.interpolate, Imbf.interpolate]
      rw [if_neg (not_lt.2 ht), hx]
    · rw [if_pos rfl, ← hsc]
      rwa [one_div_mul_eq_div] at hlim
  | other => exact absurd hbs hbasis

/-! ### The hypotheses are met -/

example (lib : Eigen.Lib) (hlib : EigSpec lib) (ti : Points) : ∃ f,
    (diagProblem 3 false).create (exampleSettings lib .ortho2 1 none) "eig" ti = .ok f ∧
      (diagProblem 3 false).interpolate f 2 =
        .ok (some (schattenNorm ((diagProblem 3 false).A + (2 : ℝ) • (diagProblem 3 false).matB) 3)) := by
  obtain ⟨f, h1, -, h3⟩ := eig_exact_dense (P := diagProblem 3 false) (st := exampleSettings lib .ortho2 1 none)
    (by norm_num) rfl rfl (diagProblem_pos _ _).1 hlib ti
  exact ⟨f, h1, h3 2 (posDef_affine (diagProblem_good _ _) (by norm_num))⟩

/-- With the points 1 and 4 the interpolant with `'ortho'` grows four times too slowly. -/
example (lib : Eigen.Lib) : ∃ (f : Interpolator) (x : ℝ → ℝ), (diagProblem 3 false).create
    (exampleSettings lib .ortho 1 none) "imbf"
    (.list [1, 4]) = .ok f ∧ (∀ t, 0 ≤ t → (diagProblem 3 false).interpolate f t = .ok (some (x t))) ∧
      Filter.Tendsto (fun t => x t / t) Filter.atTop (nhds (1 / 4)) := by
  have hk : ("imbf" : String).toLower = "imbf" := by decide +kernel
  obtain ⟨f, hf⟩ := increasing_points_accepted_partial (diagProblem_good 3 false)
    (exampleSettings_spline lib .ortho 1 none) (kind := "imbf") (l := [1, 4]) (by simp) (by simp) (by norm_num)
    (.inr (.inr (.inl ⟨hk, by simp [exampleSettings], by simp [exampleSettings]⟩)))
  obtain ⟨nB, x, -, h1, -, h2, h3⟩ := imbf_growth (diagProblem_good 3 false) (by simp [exampleSettings])
    (.inl rfl) hf
  refine ⟨f, x, hf, h2, ?_⟩
  rw [h1 rfl, if_pos (show (exampleSettings lib .ortho 1 none).basis = .ortho from rfl)] at h3
  norm_num at h3 ⊢
  exact h3

example {j k : ℕ} (hj : j < 9) (hk : k < 9) (h : j ≠ k) : innerLog (basisFun .ortho2 j) (basisFun .ortho2 k) = 0 := by
  rw [orthogonal_tables .ortho2 (.inr rfl) hj hk, if_neg h]

example (env : Top.Env) (st : Interp.Settings) : ∃ f,
    (Problem.ofCall env (diagonal ![1, -2]) (some (diagonal ![3, 1])) (.int 2) "exact").create st "mbf" (.list [5]) =
      .ok f ∧ ∀ t, (Problem.ofCall env (diagonal ![1, -2]) (some (diagonal ![3, 1])) (.int 2) "exact").interpolate f t =
        .ok (some (Real.sqrt (((diagonal ![1, -2] + t • diagonal ![3, 1] : Matrix (Fin 2) (Fin 2) ℝ) *
          (diagonal ![1, -2] + t • diagonal ![3, 1])).trace / (2 : ℕ)))) :=
  mbf_exact_call env (by norm_num) (isHermitian_diagonal _) (isHermitian_diagonal _)
    (by intro h; have := congrFun (congrFun h 0) 0; simp at this) st (by norm_num)

example : (diagProblem 0 true).logdetEval 3 = .ok (some (Real.log ((diagProblem 0 true).A +
    (3 : ℝ) • (diagProblem 0 true).matB).det)) :=
  (logdet_conversion (by norm_num) (diagProblem_schatten _ _) rfl
    (posDef_affine (diagProblem_good _ _) (by norm_num))).1

end Imate.Props
