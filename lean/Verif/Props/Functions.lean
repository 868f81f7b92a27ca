import Verif.Props.LogdetEigenvalue
import Verif.Model.Functions
import Verif.Props.Cholesky

/-!
# C38: the scalar functions of the methods `eigenvalue` and `slq`; C55: counts and densities
-/

namespace Imate.Props

open Imate.Hutchinson Imate.Direct Imate.Eigen Imate.Spec Imate.Functions Matrix

variable {n m : ℕ} {lib : Eigen.Lib}

theorem user_start {α : Type} {A : Array2 ℝ} {M : Matrix (Fin n) (Fin n) ℝ} (hA : A.value = square M)
    {l : Eigs} (hl : l.size = n) {st : Settings} (hq : ValidFraction st) (k : Except PyExc α) :
    (checkSizes A (some l) st.gram >>= fun _ => checkFraction st.fraction >>= fun _ => k) = k := by
  have h1 : checkSizes A (some l) st.gram = .ok () := by
    unfold checkSizes
    simp only
    rw [if_neg (by rw [hA, hl]; simp [square])]
    exact checkSquare_square hA _
  rw [h1, Except.ok_bind', checkFraction_ok hq.1 hq.2, Except.ok_bind']

/-- The eigenvalues that the user gives are used as they are for `gram=False`, and squared for `gram=True`. -/
def effective (gram : Bool) (l : List ℝ) : List ℝ := if gram then l.map (· ^ 2) else l

theorem choose_user (w : Which) (A : Array2 ℝ) (l : List ℝ) (st : Settings) :
    chooseEigenvalues lib w A (some (.real (l.map some))) st =
      .ok (.real ((effective st.gram l).map some)) := by
  unfold chooseEigenvalues effective
  simp only
  cases st.gram
  · rfl
  · simp [Eigs.sq]

theorem user_trace {A : Array2 ℝ} {M : Matrix (Fin n) (Fin n) ℝ} (hA : A.value = square M) {l : List ℝ}
    (hl : l.length = n) {st : Settings} (hq : ValidFraction st) (f : Scalar) (w : Which)
    {g : ℝ → Option ℝ} (h : ∀ x, f.onReal x = g x) :
    eigenTrace lib f w A (some (.real (l.map some))) st = .ok (sumOpt ((effective st.gram l).map g)) := by
  unfold eigenTrace
  rw [user_start hA (by simp [Eigs.size, hl]) hq, choose_user, Except.ok_bind']
  unfold sumScalar
  simp only
  rw [filterMap_some, List.map_congr_left (fun x _ => h x)]

/-- C38 for `trace`, `traceinv`, `trexp` and `trlinfrac`: for every matrix, every list of eigenvalues, every
exponent and all parameters, the method `eigenvalue` sums what the method `slq` sums over these eigenvalues. -/
theorem kernels_agree {A : Array2 ℝ} {M : Matrix (Fin n) (Fin n) ℝ} (hA : A.value = square M) {l : List ℝ}
    (hl : l.length = n) {st : Settings} (hq : ValidFraction st) (p : ℝ) :
    traceEigenvalue lib A p (some (.real (l.map some))) st =
        .ok (sumOpt ((effective st.gram l).map (slqValue .trace p))) ∧
      traceinvEigenvalue lib A p (some (.real (l.map some))) st =
        .ok (sumOpt ((effective st.gram l).map (slqValue .traceinv p))) ∧
      (∀ coeff, trexpEigenvalue lib A coeff p (some (.real (l.map some))) st =
        .ok (sumOpt ((effective st.gram l).map (slqValue (.trexp coeff) p)))) ∧
      (∀ a b c d, trlinfracEigenvalue lib A a b c d p (some (.real (l.map some))) st =
        .ok (sumOpt ((effective st.gram l).map (slqValue (.trlinfrac a b c d) p)))) := by
  refine ⟨user_trace hA hl hq _ _ (fun x => ?_), user_trace hA hl hq _ _ (fun x => ?_),
    fun coeff => user_trace hA hl hq _ _ (fun x => ?_), fun a b c d => user_trace hA hl hq _ _ (fun x => ?_)⟩
  · simp only [traceScalar, slqValue, applied, slqFunction, identity]
    cases powR x p <;> rfl
  · simp only [traceinvScalar, slqValue, applied, slqFunction, inverse]
    cases powR x p <;> rfl
  · simp only [trexpScalar, slqValue, applied, slqFunction, exponential]
    cases powR x p
    · simp only [mul_comm]
    · rfl
    · rfl
  · simp only [trlinfracScalar, slqValue, applied, slqFunction, homographic]
    cases powR x p <;> rfl

/-- C38 for `eigencount`: also at the two ends of the interval, and for powers that are not numbers. -/
theorem indicator_agrees {A : Array2 ℝ} {M : Matrix (Fin n) (Fin n) ℝ} (hA : A.value = square M) {l : List ℝ}
    (hl : l.length = n) {st : Settings} (hq : ValidFraction st) (lo hi p : ℝ) :
    ∃ x, eigencountEigenvalue lib A lo hi p (some (.real (l.map some))) st = .ok (.real x) ∧
      sumOpt ((effective st.gram l).map (slqValue (.eigencount lo hi) p)) = some x := by
  unfold eigencountEigenvalue
  rw [user_start hA (by simp [Eigs.size, hl]) hq, choose_user, Except.ok_bind']
  refine ⟨_, rfl, ?_⟩
  have h : ∀ x, slqValue (.eigencount lo hi) p x = some (indicatorR lo hi (powR x p)) := by
    intro x
    simp only [slqValue, applied, slqFunction, indicator, indicatorR]
    cases powR x p
    · simp only
      split_ifs <;> rfl
    · rfl
    · rfl
  rw [List.map_congr_left (fun x _ => h x), sumOpt_some, filterMap_some]

theorem gauss_constant {sigma : ℝ} (hs : 0 < sigma) :
    1 / 2 * sqrtHalf * twoOverSqrtPi / sigma = 1 / (Real.sqrt (2 * Real.pi) * sigma) := by
  unfold sqrtHalf twoOverSqrtPi
  rw [Real.sqrt_mul (by norm_num)]
  have h1 : Real.sqrt 2 ≠ 0 := by positivity
  have h2 : Real.sqrt Real.pi ≠ 0 := (Real.sqrt_pos.2 Real.pi_pos).ne'
  field_simp

/-- C38 for `density`, at every centre that is a float. -/
theorem gaussian_agrees {A : Array2 ℝ} {M : Matrix (Fin n) (Fin n) ℝ} (hA : A.value = square M) {l : List ℝ}
    (hl : l.length = n) {st : Settings} (hq : ValidFraction st) {sigma : ℝ} (hs : 0 < sigma) (mus : List ℝ)
    (p : ℝ) :
    densityEigenvalue lib A (.floats mus) sigma p (some (.real (l.map some))) st =
      .ok (mus.map fun mu => sumOpt ((effective st.gram l).map (slqValue (.density mu sigma) p))) := by
  unfold densityEigenvalue
  rw [user_start hA (by simp [Eigs.size, hl]) hq, choose_user, Except.ok_bind']
  unfold densityLoop
  simp only
  congr 1
  apply List.map_congr_left
  intro mu _
  unfold densityAt
  simp only
  rw [filterMap_some]
  congr 1
  apply List.map_congr_left
  intro x _
  simp only [slqValue, applied, slqFunction, gaussian, gaussR]
  cases powR x p
  · simp only
    rw [gauss_constant hs]
    congr 3
    ring
  · rfl
  · rfl

/-- C38 for `logdet`, for positive eigenvalues. -/
theorem logarithm_agrees {A : Array2 ℝ} {M : Matrix (Fin n) (Fin n) ℝ} (hA : A.value = square M) {l : List ℝ}
    (hl : l.length = n) (hpos : ∀ x ∈ l, 0 < x) {st : Settings} (hq : ValidFraction st) (p : ℝ) :
    ∃ x, logdetEigenvalue lib A p (some (.real (l.map some))) st = .ok (some (.real x)) ∧
      sumOpt ((effective st.gram l).map (slqValue .logdet p)) = some x := by
  unfold logdetEigenvalue
  rw [user_start hA (by simp [Eigs.size, hl]) hq]
  unfold logdetChoose
  simp only [Except.ok_bind']
  have hprod : 0 < (l : Multiset ℝ).prod := by
    rw [Multiset.prod_coe]
    exact List.prod_pos hpos
  rw [logdetBranch_pos (by rw [toComplex_real, prod_ofReal]) hprod]
  refine ⟨_, rfl, ?_⟩
  have hlog : Real.log (l : Multiset ℝ).prod = (l.map Real.log).sum := by
    rw [Multiset.prod_coe, Real.log_list_prod]
    intro x hx
    exact (hpos x hx).ne'
  have hval : ∀ x, 0 < x → slqValue .logdet p x = some (p * Real.log x) := by
    intro x hx
    simp only [slqValue, applied, slqFunction, logarithm, powR_pos hx]
    rw [if_pos (Real.rpow_pos_of_pos hx p), Real.log_rpow hx]
  have hsq : (square M).rows = (square M).cols := rfl
  rw [hA, hlog]
  unfold effective
  cases st.gram
  · simp only [Bool.false_and, Bool.false_eq_true, if_false, one_mul]
    rw [List.map_congr_left (fun x hx => hval x (hpos x hx)), sumOpt_some, List.sum_map_mul_left]
  · simp only [Bool.true_and, hsq, decide_true, if_true]
    rw [List.map_map, List.map_congr_left (g := fun x => some (p * (2 * Real.log x))), sumOpt_some,
      List.sum_map_mul_left, List.sum_map_mul_left]
    intro x hx
    simp only [Function.comp_apply]
    rw [hval _ (by have := hpos x hx; positivity), Real.log_pow]
    norm_num

/-- For a negative eigenvalue and an even exponent they differ: `slq` takes the logarithm of the power, which is a
positive number, and `eigenvalue` returns a complex number. -/
theorem logarithm_differs {A : Array2 ℝ} {M : Matrix (Fin 1) (Fin 1) ℝ} (hA : A.value = square M)
    {st : Settings} (hq : ValidFraction st) {x : ℝ} (hx : x < 0) :
    slqValue .logdet 2 x = some (Real.log (x ^ 2)) ∧
      ∃ z : ℂ, logdetEigenvalue lib A 2 (some (.real [some x])) st = .ok (some (.cplx z)) ∧ z.im ≠ 0 := by
  constructor
  · have h := powR_natCast x 2
    have h2 : ((2 : ℕ) : ℝ) = 2 := by norm_num
    rw [h2] at h
    simp only [slqValue, applied, slqFunction, logarithm, h]
    rw [if_pos (by nlinarith)]
  · unfold logdetEigenvalue
    rw [user_start hA (by rfl) hq]
    unfold logdetChoose
    simp only [Except.ok_bind']
    have h := toComplex_real [x]
    simp only [List.map_cons, List.map_nil] at h
    rw [logdetBranch_neg two_ne_zero (d := x) (by rw [h]; simp) hx]
    refine ⟨_, rfl, ?_⟩
    split_ifs <;> simp [Real.pi_ne_zero]

/-! ### C55 for `eigencount` and `density` -/

/-- C55, `eigencount`, for every positive definite matrix and real exponent: the number of eigenvalues whose power is
in the closed interval. -/
theorem eigencount_eigenvalue_posDef (hlib : EigSpec lib) {M : Matrix (Fin n) (Fin n) ℝ} (hM : M.PosDef)
    (lo hi p : ℝ) {st : Settings} (hq : ValidFraction st) (hg : st.gram = false) (hs : st.sym = true) :
    eigencountEigenvalue lib (.dense (square M)) lo hi p none st =
      .ok (.real ((realEigenvalues M).countP (fun x => lo ≤ x ^ p ∧ x ^ p ≤ hi))) := by
  classical
  unfold eigencountEigenvalue
  refine (dense_start (M := M) hq (Or.inr rfl) _).trans ?_
  have he := hlib.eigh_ok n M
  rw [lowerSymm_of_isSymm (isSymm_of_posDef hM)] at he
  rw [choose_symmetric _ _ hg hs, Except.ok_bind']
  unfold countEigs
  simp only
  rw [filterMap_some]
  congr 2
  have hpos : ∀ x ∈ lib.eigh n M, 0 < x := by
    intro x hx
    exact posDef_eigenvalues hM (by rw [← he]; exact hx)
  rw [← he, Multiset.coe_countP]
  clear he
  revert hpos
  induction lib.eigh n M with
  | nil => simp
  | cons x l ih =>
    intro hpos
    rw [List.map_cons, List.sum_cons, List.countP_cons, ih (fun y hy => hpos y (List.mem_cons_of_mem _ hy)),
      powR_pos (hpos x List.mem_cons_self)]
    simp only [indicatorR]
    by_cases h : lo ≤ x ^ p ∧ x ^ p ≤ hi
    · rw [if_neg (by push Not; exact h)]
      simp [h]
      ring
    · rw [if_pos (by rw [not_and_or, not_le, not_le] at h; exact h)]
      simp [h]

/-- With `gram=True` the zero eigenvalues of the Gramian of a matrix with more columns than rows are not counted. -/
theorem eigencount_eigenvalue_gram_wide (hlib : EigSpec lib) {M : Matrix (Fin m) (Fin n) ℝ} (h : m < n)
    {lo hi : ℝ} (hlo : lo ≤ 0) (hhi : ∀ x ∈ realEigenvalues (Mᵀ * M), x ≤ hi) (hh : 0 ≤ hi)
    {st : Settings} (hq : ValidFraction st) (hg : st.gram = true) (hs : st.sym = false) :
    eigencountEigenvalue lib (.dense ⟨m, n, M⟩) lo hi 1 none st = .ok (.real m) ∧
      Multiset.card (realEigenvalues (Mᵀ * M)) = n := by
  constructor
  · unfold eigencountEigenvalue
    rw [dense_start (M := M) hq (Or.inl hg), choose_gram _ _ hg hs, Except.ok_bind']
    unfold countEigs
    simp only
    rw [filterMap_some]
    have h1 : ∀ x ∈ (lib.svd m n M).map (· ^ 2), indicatorR lo hi (powR x 1) = 1 := by
      intro x hx
      have hx' : x ∈ realEigenvalues (Mᵀ * M) := by
        rw [← hlib.svd_ok]
        exact Multiset.mem_add.2 (Or.inl hx)
      have h2 := powR_natCast x 1
      rw [Nat.cast_one, pow_one] at h2
      rw [h2]
      simp only [indicatorR]
      rw [if_neg]
      push Not
      exact ⟨hlo.trans (gram_eigenvalues hx'), hhi x hx'⟩
    have h3 := hlib.svd_length m n M
    rw [List.map_congr_left h1, List.map_const', List.sum_replicate, List.length_map, h3, min_eq_left h.le]
    simp
  · unfold realEigenvalues
    rw [Matrix.IsHermitian.roots_charpoly_eq_eigenvalues (A := Mᵀ * M) (gram_symm M)]
    simp

/-- C55, `density`, at centres that are floats, for every positive definite matrix and real exponent. -/
theorem density_eigenvalue_posDef (hlib : EigSpec lib) {M : Matrix (Fin n) (Fin n) ℝ} (hM : M.PosDef)
    (mus : List ℝ) (sigma p : ℝ) {st : Settings} (hq : ValidFraction st) (hg : st.gram = false)
    (hs : st.sym = true) :
    densityEigenvalue lib (.dense (square M)) (.floats mus) sigma p none st =
      .ok (mus.map fun mu => some (cfc (fun x : ℝ => 1 / (Real.sqrt (2 * Real.pi) * sigma) *
        Real.exp (-(1 / 2) * ((x ^ p - mu) / sigma) ^ 2)) M).trace) := by
  unfold densityEigenvalue
  refine (dense_start (M := M) hq (Or.inr rfl) _).trans ?_
  have he := hlib.eigh_ok n M
  rw [lowerSymm_of_isSymm (isSymm_of_posDef hM)] at he
  rw [choose_symmetric _ _ hg hs, Except.ok_bind']
  unfold densityLoop
  simp only
  congr 1
  apply List.map_congr_left
  intro mu _
  unfold densityAt
  simp only
  rw [filterMap_some, trace_cfc hM.1, show M.charpoly.roots = realEigenvalues M from rfl, ← he]
  apply sumOpt_congr
  intro x hx
  rw [powR_pos (posDef_eigenvalues hM (by rw [← he]; exact hx))]
  rfl

/-- At an integer centre the result is rounded to zero: `density([[1]], mu=1, sigma=1)` is 0. -/
theorem density_integer_wrong (hlib : EigSpec lib) {st : Settings} (hq : ValidFraction st) (hg : st.gram = false)
    (hs : st.sym = true) :
    densityEigenvalue lib (.dense (square !![1])) (.ints [1]) 1 1 none st = .ok [some 0] ∧
      densityEigenvalue lib (.dense (square !![1])) (.floats [1]) 1 1 none st =
        .ok [some (1 / Real.sqrt (2 * Real.pi))] := by
  have hM := posDef_one_one 1 one_pos
  have hl : lib.eigh 1 !![1] = [1] := by
    have he := hlib.eigh_ok 1 !![1]
    rw [lowerSymm_of_isSymm (isSymm_of_posDef hM)] at he
    unfold realEigenvalues at he
    have hc : (!![1] : Matrix (Fin 1) (Fin 1) ℝ).charpoly = Polynomial.X - Polynomial.C 1 := by
      simp [charpoly, charmatrix]
    rw [hc, Polynomial.roots_X_sub_C] at he
    exact Multiset.coe_eq_singleton.1 he
  have hd : densityAt ((1 : ℤ) : ℝ) 1 1 (.real [some 1]) = some (1 / Real.sqrt (2 * Real.pi)) := by
    simp [densityAt, sumOpt, powR, gaussR]
  have hd' : densityAt (1 : ℝ) 1 1 (.real [some 1]) = some (1 / Real.sqrt (2 * Real.pi)) := by
    simpa using hd
  constructor
  · unfold densityEigenvalue
    refine (dense_start (M := !![1]) hq (Or.inr rfl) _).trans ?_
    rw [choose_symmetric _ _ hg hs, Except.ok_bind', hl]
    simp only [densityLoop, List.map_cons, List.map_nil, hd, Option.map_some]
    have h1 : truncate (1 / Real.sqrt (2 * Real.pi)) = 0 := by
      unfold truncate
      rw [if_pos (by positivity), Int.floor_eq_iff]
      constructor
      · simp
      · have h3 : 1 < Real.sqrt (2 * Real.pi) := by
          rw [Real.lt_sqrt one_pos.le]
          have := Real.two_le_pi
          linarith
        rw [div_lt_iff₀ (by linarith)]
        simpa using h3
    rw [h1]
    simp
  · unfold densityEigenvalue
    refine (dense_start (M := !![1]) hq (Or.inr rfl) _).trans ?_
    rw [choose_symmetric _ _ hg hs, Except.ok_bind', hl]
    simp only [densityLoop, List.map_cons, List.map_nil, hd']

/-! ### Concrete cases -/

theorem someFraction : ValidFraction ⟨false, true, 9 / 10⟩ := by constructor <;> norm_num

example (hlib : EigSpec lib) : traceEigenvalue lib (.dense (square !![2, 1; 1, 2])) (1 / 2) none
    ⟨false, true, 9 / 10⟩ =
      .ok (some (cfc (fun x : ℝ => x ^ (1 / 2 : ℝ)) (!![2, 1; 1, 2] : Matrix (Fin 2) (Fin 2) ℝ)).trace) :=
  trace_eigenvalue_sym hlib posDef_two_one _ someFraction rfl rfl

example (hlib : EigSpec lib) : traceinvEigenvalue lib (.dense (square !![0, -1; 1, 0])) ((3 : ℤ) : ℝ) none
    ⟨false, false, 9 / 10⟩ = .ok (some ((!![0, -1; 1, 0] : Matrix (Fin 2) (Fin 2) ℝ) ^ (-3 : ℤ)).trace) :=
  traceinv_eigenvalue_int hlib (by rw [det_fin_two]; norm_num) 3 (by constructor <;> norm_num) rfl rfl

example (hlib : EigSpec lib) : trexpEigenvalue lib (.dense ⟨1, 2, !![1, 2]⟩) 1 ((1 : ℕ) : ℝ) none
    ⟨true, false, 9 / 10⟩ = .ok (some ((cfc (fun x : ℝ => Real.exp (1 * x ^ 1))
      ((!![1, 2] : Matrix (Fin 1) (Fin 2) ℝ)ᵀ * (!![1, 2] : Matrix (Fin 1) (Fin 2) ℝ))).trace -
        (2 - min 1 2 : ℕ))) :=
  trexp_eigenvalue_gram hlib _ 1 le_rfl (by constructor <;> norm_num) rfl rfl

example (hlib : EigSpec lib) (t : Option ℝ)
    (h : traceEigenvalue lib (.sparse 1 1 [(0, 0, 5)]) 1 none ⟨false, true, 9 / 10⟩ = .ok t) :
    ∃ x, t = some x ∧ x < (cfc (fun x : ℝ => x ^ (1 : ℝ)) (!![5] : Matrix (Fin 1) (Fin 1) ℝ)).trace := by
  refine sparse_trace_too_small hlib rfl ?_ one_pos (posDef_one_one 5 (by norm_num)) 1 someFraction rfl rfl h
  refine congrArg (Mat.mk 1 1) (Matrix.ext fun i j => ?_)
  fin_cases i
  fin_cases j
  simp [entry]

example (hlib : EigSpec lib) : eigencountEigenvalue lib (.dense (square !![2, 1; 1, 2])) 1 3 1 none
    ⟨false, true, 9 / 10⟩ = .ok (.real ((realEigenvalues (!![2, 1; 1, 2] : Matrix (Fin 2) (Fin 2) ℝ)).countP
      (fun x => 1 ≤ x ^ (1 : ℝ) ∧ x ^ (1 : ℝ) ≤ 3))) :=
  eigencount_eigenvalue_posDef hlib posDef_two_one 1 3 1 someFraction rfl rfl

example : Eigen.realPart 1e-8 2 (some ⟨-1, 1e-16⟩) = .error .runtimeError :=
  negative_sum_raises (by norm_num) (by norm_num) (by norm_num)

end Imate.Props
