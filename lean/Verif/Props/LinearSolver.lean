import Verif.Lemmas.LinearSolver
import Verif.Props.Hutchinson
import Mathlib.Analysis.Matrix.PosDef

/-!
# C67: `solver_tol` bounds the error of the Hutchinson method

`method='hutchinson'` solves a linear system per sample.  For a sparse matrix the system is solved
iteratively to the tolerance `solver_tol`.
-/

namespace Imate.Props
open Matrix Imate Imate.Hutchinson Imate.LinearSolver Imate.Spec

variable {n : ℕ}

/-- C67: when the iteration meets its tolerance, the solution that is used has a residual of at most
`tol` times the right hand side. -/
theorem linear_solver_residual_partial {S : Scipy ℝ} {a : Assume} (hspec : IterativeSpec (choose S a))
    {A : Matrix (Fin n) (Fin n) ℝ} {tol : ℝ} (hconv : Converges (choose S a) A tol) (b : Fin n → ℝ) :
    ∃ x : Fin n → ℝ, linearSolver S true tol a ⟨n, n, A⟩ ⟨n, b⟩ = .ok ⟨n, x⟩ ∧
      norm2 (b - A *ᵥ x) ≤ tol * norm2 b :=
  linearSolver_ok hspec hconv b

/-- C67: the solver fits the assumption.  It is enough that `minres` works for symmetric matrices, `cg` for positive
definite and `gmres` for all: every system whose matrix is as `assume_matrix` says is solved to the tolerance. -/
theorem linear_solver_fits {S : Scipy ℝ} (hminres : SolvesOn S.minres (Assumed .sym)) (hcg : SolvesOn S.cg (Assumed .pos))
    (hgmres : SolvesOn S.gmres (Assumed .gen)) (a : Assume) {A : Matrix (Fin n) (Fin n) ℝ} (hA : Assumed a n A) {tol : ℝ}
    (ht : 0 < tol) (b : Fin n → ℝ) :
    ∃ x : Fin n → ℝ, linearSolver S true tol a ⟨n, n, A⟩ ⟨n, b⟩ = .ok ⟨n, x⟩ ∧ norm2 (b - A *ᵥ x) ≤ tol * norm2 b := by
  have key : ∀ f : Iterative ℝ, choose S (rename a) = f → (∃ x : Fin n → ℝ, f ⟨n, n, A⟩ ⟨n, b⟩ tol = .ok (⟨n, x⟩, 0) ∧
      norm2 (b - A *ᵥ x) ≤ tol * norm2 b) → ∃ x : Fin n → ℝ, linearSolver S true tol a ⟨n, n, A⟩ ⟨n, b⟩ = .ok ⟨n, x⟩ ∧
      norm2 (b - A *ᵥ x) ≤ tol * norm2 b := by
    rintro f hf ⟨x, h1, h2⟩
    refine ⟨x, ?_, h2⟩
    unfold linearSolver
    dsimp only
    rw [if_pos rfl, hf, h1]
    rfl
  cases a with
  | sym => exact key S.minres rfl (hminres n A b tol hA ht)
  | pos => exact key S.cg rfl (hcg n A b tol hA ht)
  | symPos => exact key S.cg rfl (hcg n A b tol hA ht)
  | gen => exact key S.gmres rfl (hgmres n A b tol hA ht)

/-- the hypotheses are met: a solver that knows the inverse of invertible matrices only, and one that does not meet its
tolerance on the matrix `-1` -/
noncomputable example : ∃ S : Scipy ℝ, SolvesOn S.minres (Assumed .sym) ∧ SolvesOn S.cg (Assumed .pos) ∧
    SolvesOn S.gmres (Assumed .gen) ∧ ¬ SolvesOn S.cg (Assumed .sym) := by
  classical
  let inv : Iterative ℝ := fun A b _ =>
    if h : ∃ hb : A.rows = b.size, ∃ hc : A.cols = b.size, IsUnit ((A.val.submatrix (Fin.cast hb.symm) (Fin.cast hc.symm)).det) then
      .ok (⟨b.size, (A.val.submatrix (Fin.cast h.choose.symm) (Fin.cast h.choose_spec.choose.symm))⁻¹ *ᵥ b.val⟩, 0)
    else .ok (b, 1)
  have hinv : SolvesOn inv (Assumed .gen) := by
    intro n A b tol hA ht
    refine ⟨A⁻¹ *ᵥ b, ?_, ?_⟩
    · show dite _ _ _ = _
      rw [dif_pos ⟨rfl, rfl, hA⟩]
      rfl
    · have hu : IsUnit A.det := hA
      rw [mulVec_mulVec, mul_nonsing_inv A hu, one_mulVec, sub_self]
      have : norm2 (0 : Fin n → ℝ) = 0 := by simp [norm2]
      rw [this]
      exact mul_nonneg ht.le (Real.sqrt_nonneg _)
  let cg : Iterative ℝ := fun A b tol => if h : ∃ hr : 0 < A.rows, ∃ hc : 0 < A.cols, A.val ⟨0, hr⟩ ⟨0, hc⟩ < 0
    then .ok (b, 1) else inv A b tol
  refine ⟨⟨fun _ _ _ => .error .linAlgError, inv, cg, inv⟩, fun n A b tol hA ht => hinv n A b tol hA.2 ht, ?_, hinv, ?_⟩
  · intro n A b tol hA ht
    have hA' : A.PosDef := hA
    have hno : ¬ ∃ hr : 0 < n, ∃ hc : 0 < n, A ⟨0, hr⟩ ⟨0, hc⟩ < 0 := by
      rintro ⟨hr, hc, h⟩
      exact absurd hA'.diag_pos (not_lt.2 h.le)
    obtain ⟨x, h1, h2⟩ := hinv n A b tol hA'.det_pos.ne'.isUnit ht
    refine ⟨x, ?_, h2⟩
    show dite _ _ _ = _
    rw [dif_neg hno]
    exact h1
  · intro h
    obtain ⟨x, h1, -⟩ := h 1 (-1) 0 1 ⟨by simp [Matrix.IsSymm], by simp⟩ one_pos
    have : (if h : ∃ hr : 0 < 1, ∃ hc : 0 < 1, (-1 : Matrix (Fin 1) (Fin 1) ℝ) ⟨0, hr⟩ ⟨0, hc⟩ < 0 then
      (.ok (⟨1, 0⟩, 1) : Except PyExc (Vec ℝ × Int)) else inv ⟨1, 1, -1⟩ ⟨1, 0⟩ 1) = .ok (⟨1, x⟩, 0) := h1
    rw [dif_pos ⟨by norm_num, by norm_num, by simp⟩] at this
    injection this with this
    injection this with _ this
    simp at this

/-- C67: the columns of a two-dimensional right hand side are solved each on its own. -/
theorem linear_solver_columns (S : Scipy ℝ) (tol : ℝ) (a : Assume) (A : Mat ℝ) (bs : List (Vec ℝ))
    (xs : List (Vec ℝ)) (h : linearSolverColumns S tol a A bs = .ok xs) :
    xs.length = bs.length ∧
      ∀ (i : ℕ) (b : Vec ℝ), bs[i]? = some b → ∃ x, xs[i]? = some x ∧ linearSolver S true tol a A b = .ok x := by
  induction bs generalizing xs with
  | nil =>
    simp only [linearSolverColumns, Except.ok.injEq] at h
    subst h
    simp
  | cons b bs ih =>
    unfold linearSolverColumns at h
    cases h1 : linearSolver S true tol a A b with
    | error e => rw [h1] at h; simp [Except.error_bind'] at h
    | ok x =>
      rw [h1, Except.ok_bind'] at h
      cases h2 : linearSolverColumns S tol a A bs with
      | error e => rw [h2] at h; simp [Except.error_bind'] at h
      | ok ys =>
        rw [h2, Except.ok_bind'] at h
        have hxs : x :: ys = xs := Except.ok.inj h
        subst hxs
        obtain ⟨h3, h4⟩ := ih ys h2
        refine ⟨by simp [h3], ?_⟩
        intro i c hc
        cases i with
        | zero => simp at hc; subst hc; exact ⟨x, by simp, h1⟩
        | succ i => exact h4 i c (by simpa using hc)

/-- C67 (partial: the iterations have to meet their tolerance, see `linear_solver_flag_ignored`).  For every
exponent `p ≥ 1` and a matrix bounded below by `μ`, each sample is within
`n ((1 + tol)^p - 1) / μ^p ‖E‖²` of the sample with exact solutions; the random vectors have norm one. -/
theorem hutchinson_solver_tol_partial {S : Scipy ℝ} {a : Assume} (hspec : IterativeSpec (choose S a))
    {A : Matrix (Fin n) (Fin n) ℝ} {tol μ : ℝ} (ht : 0 ≤ tol) (hμ : 0 < μ) (hA : BoundedBelow μ A)
    (hconv : Converges (choose S a) A tol) {p : ℕ} (hp : 1 ≤ p) (E : Fin n → ℝ) :
    ∃ s, sampleOf (linearSolver S true tol) (square A) none none false (.int p) a ⟨n, E⟩ = .ok s ∧
      |s - n * (E ⬝ᵥ (A⁻¹ ^ p *ᵥ E))| ≤ n * (((1 + tol) ^ p - 1) / μ ^ p * (E ⬝ᵥ E)) := by
  obtain ⟨x, hx1, hx2⟩ := solveTimes_error hspec ht hμ hA hconv p E
  have hop : operatorDot (linearSolver S true tol) (square A) none (.int p) false a none ⟨n, E⟩ =
      .ok ⟨n, x⟩ := by
    unfold operatorDot
    have hv : (Exponent.int (p : ℤ)).val = ((p : ℤ) : ℚ) := rfl
    simp only [applyB, Except.ok_bind', hv]
    rw [if_neg (by norm_cast; omega)]
    by_cases h1 : p = 1
    · subst h1
      rw [if_pos (by norm_num)]
      unfold operatorOne
      rw [if_neg (by simp)]
      unfold solveTimes at hx1
      cases h2 : linearSolver S true tol a ⟨n, n, A⟩ ⟨n, E⟩ with
      | error e => rw [h2] at hx1; simp [Except.error_bind'] at hx1
      | ok y =>
        rw [h2, Except.ok_bind'] at hx1
        unfold solveTimes at hx1
        rw [← hx1]
        exact h2
    · rw [if_neg (by norm_cast), if_pos (by norm_cast; omega)]
      unfold operatorMany
      show (if false = true then _ else _) = _
      rw [if_neg (by simp)]
      exact hx1
  refine ⟨n * (E ⬝ᵥ x), ?_, ?_⟩
  · unfold sampleOf traceEstimate
    rw [if_neg (by simp)]
    have hg : gramianIfNeeded (square A) none none (.int p) false = none := by
      unfold gramianIfNeeded; rw [if_neg (by simp)]
    rw [hg, hop, Except.ok_bind']
    unfold applyC finalProduct
    simp only [Except.ok_bind']
    rw [if_neg (by simp)]
    show (innerProduct ⟨n, E⟩ ⟨n, x⟩ n >>= _) = _
    rw [innerProduct_eq, Except.ok_bind']
    rfl
  · rw [← mul_sub, ← dotProduct_sub, abs_mul, abs_of_nonneg (Nat.cast_nonneg n)]
    refine mul_le_mul_of_nonneg_left ?_ (Nat.cast_nonneg n)
    refine (abs_dot_le _ _).trans ?_
    have h := mul_le_mul_of_nonneg_left hx2 (norm2_nonneg E)
    refine h.trans (le_of_eq ?_)
    rw [← norm2_sq]; ring

/-- C67 (partial, likewise): with `gram=True` and `p = 1` each sample is within
`n ((1 + tol)^2 - 1) / μ^2 ‖E‖²` of the sample with exact solutions. -/
theorem hutchinson_gram_solver_tol_partial {S : Scipy ℝ} {a : Assume} (hspec : IterativeSpec (choose S a))
    {A : Matrix (Fin n) (Fin n) ℝ} {tol μ : ℝ} (ht : 0 ≤ tol) (hμ : 0 < μ) (hA : BoundedBelow μ A)
    (hconv : Converges (choose S a) Aᵀ tol) (E : Fin n → ℝ) :
    ∃ s, sampleOf (linearSolver S true tol) (square A) none none true (.int 1) a ⟨n, E⟩ = .ok s ∧
      |s - n * (E ⬝ᵥ ((Aᵀ * A)⁻¹ *ᵥ E))| ≤ n * (((1 + tol) ^ 2 - 1) / μ ^ 2 * (E ⬝ᵥ E)) := by
  have hAt := boundedBelow_transpose hA
  obtain ⟨x, hx1, hx2⟩ := linearSolver_ok hspec hconv E
  have he := error_le hμ hAt hx2
  have hy := norm2_inv_mulVec hμ hAt E
  have hv : (Exponent.int 1).val = 1 := by
    show ((1 : ℤ) : ℚ) = 1
    norm_num
  have hop : operatorDot (linearSolver S true tol) (square A) none (.int 1) true a none ⟨n, E⟩ =
      .ok ⟨n, x⟩ := by
    unfold operatorDot
    simp only [applyB, Except.ok_bind', hv]
    rw [if_neg (by norm_num), if_pos trivial]
    unfold operatorOne
    rw [if_pos rfl]
    exact hx1
  refine ⟨n * (x ⬝ᵥ x), ?_, ?_⟩
  · unfold sampleOf traceEstimate
    have hg : gramianIfNeeded (square A) none none (.int 1) true = none := by
      unfold gramianIfNeeded; rw [if_pos rfl, if_pos ⟨hv, rfl, rfl⟩]
    rw [hg, if_neg (fun h => h.2.2 ⟨hv, rfl, rfl⟩), hop, Except.ok_bind']
    unfold applyC finalProduct
    simp only [Except.ok_bind']
    rw [if_pos (by simp [hv])]
    show (innerProduct ⟨n, x⟩ ⟨n, x⟩ n >>= _) = _
    rw [innerProduct_eq, Except.ok_bind']
    rfl
  · have e1 : E ⬝ᵥ ((Aᵀ * A)⁻¹ *ᵥ E) = (Aᵀ⁻¹ *ᵥ E) ⬝ᵥ (Aᵀ⁻¹ *ᵥ E) := by
      rw [Matrix.mul_inv_rev, ← mulVec_mulVec, dotProduct_mulVec, ← mulVec_transpose, transpose_nonsing_inv]
    rw [e1]
    set y := Aᵀ⁻¹ *ᵥ E with hydef
    have e2 : x ⬝ᵥ x - y ⬝ᵥ y = (x - y) ⬝ᵥ (x - y) + 2 * ((x - y) ⬝ᵥ y) := by
      have h1 : (x - y) ⬝ᵥ (x - y) = x ⬝ᵥ x - x ⬝ᵥ y - (y ⬝ᵥ x - y ⬝ᵥ y) := by
        rw [sub_dotProduct, dotProduct_sub, dotProduct_sub]
      have h2 : (x - y) ⬝ᵥ y = x ⬝ᵥ y - y ⬝ᵥ y := by rw [sub_dotProduct]
      rw [h1, h2, dotProduct_comm y x]; ring
    rw [← mul_sub, abs_mul, abs_of_nonneg (Nat.cast_nonneg n), e2]
    refine mul_le_mul_of_nonneg_left ?_ (Nat.cast_nonneg n)
    have h3 := (abs_dot_le (x - y) y)
    have h4 : (x - y) ⬝ᵥ (x - y) = norm2 (x - y) ^ 2 := (norm2_sq _).symm
    have h5 : |(x - y) ⬝ᵥ (x - y) + 2 * ((x - y) ⬝ᵥ y)| ≤
        norm2 (x - y) ^ 2 + 2 * (norm2 (x - y) * norm2 y) := by
      rw [h4]
      refine (abs_add_le _ _).trans ?_
      rw [abs_of_nonneg (sq_nonneg _), abs_mul, abs_of_nonneg (by norm_num : (0 : ℝ) ≤ 2)]
      linarith
    refine h5.trans ?_
    have h6 : norm2 (x - y) ^ 2 ≤ (tol * norm2 E / μ) ^ 2 := pow_le_pow_left₀ (norm2_nonneg _) he 2
    have h7 : norm2 (x - y) * norm2 y ≤ (tol * norm2 E / μ) * (norm2 E / μ) :=
      mul_le_mul he hy (norm2_nonneg _) ((norm2_nonneg _).trans he)
    have e3 : ((1 + tol) ^ 2 - 1) / μ ^ 2 * (E ⬝ᵥ E) =
        (tol * norm2 E / μ) ^ 2 + 2 * ((tol * norm2 E / μ) * (norm2 E / μ)) := by
      rw [← norm2_sq]; field_simp; ring
    rw [e3]
    linarith

/-- C67 (partial, likewise): the mean of the `n` samples at an orthonormal basis is within
`n ((1 + tol)^p - 1) / μ^p` of the trace of the inverse power. -/
theorem hutchinson_basis_tol_partial {S : Scipy ℝ} {a : Assume} (hspec : IterativeSpec (choose S a))
    {A : Matrix (Fin n) (Fin n) ℝ} {tol μ : ℝ} (ht : 0 ≤ tol) (hμ : 0 < μ) (hA : BoundedBelow μ A)
    (hconv : Converges (choose S a) A tol) {p : ℕ} (hp : 1 ≤ p) {V : Fin n → Fin n → ℝ}
    (hV : Spec.Orthonormal V) :
    ∃ sample : Fin n → ℝ,
      (∀ i, sampleOf (linearSolver S true tol) (square A) none none false (.int p) a ⟨n, V i⟩ =
        .ok (sample i)) ∧
      |(∑ i, sample i) / n - (A⁻¹ ^ p).trace| ≤ n * (((1 + tol) ^ p - 1) / μ ^ p) := by
  choose sample h1 h2 using fun i => hutchinson_solver_tol_partial hspec ht hμ hA hconv hp (V i)
  refine ⟨sample, h1, ?_⟩
  rcases Nat.eq_zero_or_pos n with rfl | hn
  · simp [Matrix.trace]
  have hn' : (0 : ℝ) < n := by exact_mod_cast hn
  set c := ((1 + tol) ^ p - 1) / μ ^ p with hc
  have e1 : (∑ i, sample i) / n - (A⁻¹ ^ p).trace =
      (∑ i, (sample i - n * (V i ⬝ᵥ (A⁻¹ ^ p *ᵥ V i)))) / n := by
    rw [Finset.sum_sub_distrib, ← Finset.mul_sum, basis_trace hV]
    field_simp
  rw [e1, abs_div, abs_of_pos hn', div_le_iff₀ hn']
  refine (Finset.abs_sum_le_sum_abs _ _).trans ?_
  have h3 : ∀ i, |sample i - n * (V i ⬝ᵥ (A⁻¹ ^ p *ᵥ V i))| ≤ n * c := by
    intro i
    have := h2 i
    rwa [hV i i, if_pos rfl, mul_one] at this
  calc _ ≤ ∑ _i : Fin n, (n : ℝ) * c := Finset.sum_le_sum (fun i _ => h3 i)
    _ = n * c * n := by simp; ring

/-- C67 refuted: the flag of the iteration is dropped.  Whatever vector `y` one picks, there is a solver
that keeps SciPy's documentation and with which `linear_solver` returns `y`, without an error. -/
theorem linear_solver_flag_ignored (y : (m : ℕ) → Fin m → ℝ) :
    ∃ S : Scipy ℝ, (∀ a, IterativeSpec (choose S a)) ∧
      ∀ (n : ℕ) (a : Assume) (A : Matrix (Fin n) (Fin n) ℝ) (b : Fin n → ℝ) (tol : ℝ),
        linearSolver S true tol a ⟨n, n, A⟩ ⟨n, b⟩ = .ok ⟨n, y n⟩ := by
  let f : Iterative ℝ := fun _ b _ => .ok (⟨b.size, y b.size⟩, 10)
  refine ⟨⟨fun _ _ _ => .error .linAlgError, f, f, f⟩, ?_, ?_⟩
  · intro a n A b tol
    refine ⟨y n, 10, ?_, by norm_num⟩
    cases a <;> rfl
  · intro n a A b tol
    cases a <;> rfl

/-- C67 refuted, the consequence: an iteration that stops early makes a sample of the inverse of the
identity matrix any number, and the method does not notice. -/
theorem hutchinson_sample_anything (t : ℝ) (a : Assume) (tol : ℝ) :
    ∃ S : Scipy ℝ, (∀ a, IterativeSpec (choose S a)) ∧
      sampleOf (linearSolver S true tol) (square (1 : Matrix (Fin 1) (Fin 1) ℝ)) none none false (.int 1) a
        ⟨1, fun _ => 1⟩ = .ok t := by
  obtain ⟨S, h1, h2⟩ := linear_solver_flag_ignored (fun _ _ => t)
  refine ⟨S, h1, ?_⟩
  have hop : operatorDot (linearSolver S true tol) (square (1 : Matrix (Fin 1) (Fin 1) ℝ)) none (.int 1) false a none
      ⟨1, fun _ => 1⟩ = .ok ⟨1, fun _ => t⟩ := by
    unfold operatorDot
    have hv : (Exponent.int 1).val = 1 := by
      show ((1 : ℤ) : ℚ) = 1
      norm_num
    simp only [applyB, Except.ok_bind', hv]
    rw [if_neg (by norm_num), if_pos trivial]
    unfold operatorOne
    rw [if_neg (by simp)]
    exact h2 1 a 1 _ tol
  unfold sampleOf traceEstimate
  rw [if_neg (by simp)]
  have hg : gramianIfNeeded (square (1 : Matrix (Fin 1) (Fin 1) ℝ)) none none (.int 1) false = none := by
    unfold gramianIfNeeded; rw [if_neg (by simp)]
  rw [hg, hop, Except.ok_bind']
  unfold applyC finalProduct
  simp only [Except.ok_bind']
  rw [if_neg (by simp)]
  show (innerProduct ⟨1, fun _ => 1⟩ ⟨1, fun _ => t⟩ 1 >>= _) = _
  rw [innerProduct_eq, Except.ok_bind']
  simp [square, dotProduct]

/-! Non-vacuity: a solver that always meets its tolerance on the matrix `diag(2, 3)`. -/

noncomputable example : ∃ (S : Scipy ℝ) (A : Matrix (Fin 2) (Fin 2) ℝ), (∀ a, IterativeSpec (choose S a)) ∧
    BoundedBelow 2 A ∧ ∀ a, Converges (choose S a) A (1 / 10) := by
  classical
  let f : Iterative ℝ := fun A b tol =>
    if h : ∃ hb : A.rows = b.size, ∃ x : Fin A.cols → ℝ, norm2 ((fun i => b.val (Fin.cast hb i)) -
        A.val *ᵥ x) ≤ tol * norm2 b.val then .ok (⟨A.cols, h.choose_spec.choose⟩, 0)
    else .ok (⟨b.size, 0⟩, 1)
  have hf : IterativeSpec f := by
    intro n A b tol
    by_cases h : ∃ x : Fin n → ℝ, norm2 (b - A *ᵥ x) ≤ tol * norm2 b
    · refine ⟨h.choose, 0, ?_, fun _ => h.choose_spec⟩
      show dite _ _ _ = _
      rw [dif_pos ⟨rfl, h⟩]
    · refine ⟨0, 1, ?_, by norm_num⟩
      show dite _ _ _ = _
      rw [dif_neg (fun h' => h h'.choose_spec)]
  let A : Matrix (Fin 2) (Fin 2) ℝ := !![2, 0; 0, 3]
  have hA : BoundedBelow 2 A := by
    intro x
    simp only [A, dotProduct, Fin.sum_univ_two, mulVec, Matrix.of_apply, Matrix.cons_val', Matrix.cons_val_zero,
      Matrix.cons_val_one, Matrix.empty_val', Matrix.cons_val_fin_one]
    nlinarith [mul_self_nonneg (x 1), mul_self_nonneg (x 0)]
  refine ⟨⟨fun _ _ _ => .error .linAlgError, f, f, f⟩, A, ?_, hA, ?_⟩
  · intro a; cases a <;> exact hf
  · have : Converges f A (1 / 10) := by
      intro b x info h
      have hex : ∃ x : Fin 2 → ℝ, norm2 (b - A *ᵥ x) ≤ 1 / 10 * norm2 b := by
        refine ⟨A⁻¹ *ᵥ b, ?_⟩
        rw [mulVec_mulVec, mul_nonsing_inv A (isUnit_det (by norm_num) hA), one_mulVec, sub_self, norm2_zero]
        have := norm2_nonneg b
        positivity
      have h' : (dite _ _ _ : Except PyExc (Vec ℝ × Int)) = _ := h
      rw [dif_pos ⟨rfl, hex⟩] at h'
      have h2 := Except.ok.inj h'
      exact (congrArg Prod.snd h2).symm
    intro a; cases a <;> exact this

end Imate.Props
