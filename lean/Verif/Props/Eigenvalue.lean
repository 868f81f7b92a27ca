import Verif.Lemmas.Eigenvalue
import Verif.Lemmas.Cholesky
import Verif.Props.ExactTrace

/-!
# C36 (eigenvalue method) and C55: the eigenvalue methods
-/

namespace Imate.Props

open Imate.Hutchinson Imate.Direct Imate.Eigen Imate.Spec Matrix

variable {n m : ℕ} {lib : Eigen.Lib}

/-- `non_zero_eig_fraction` is in the documented range. -/
def ValidFraction (st : Settings) : Prop := 0 < st.fraction ∧ st.fraction < 1

theorem dense_start {α : Type} {M : Matrix (Fin m) (Fin n) ℝ} {st : Settings} (hq : ValidFraction st)
    (hsq : st.gram = true ∨ m = n) (k : Except PyExc α) :
    (checkSizes (.dense ⟨m, n, M⟩) none st.gram >>= fun _ => checkFraction st.fraction >>= fun _ => k) =
      k := by
  have h1 : checkSizes (.dense ⟨m, n, M⟩) none st.gram = .ok () := by
    unfold checkSizes checkSquare
    simp only
    rw [if_neg]
    rintro ⟨h1, h2⟩
    rcases hsq with h | h
    · rw [h] at h1; cases h1
    · exact h2 h
  rw [h1, Except.ok_bind', checkFraction_ok hq.1 hq.2, Except.ok_bind']

theorem choose_general (w : Which) (M : Matrix (Fin n) (Fin n) ℝ) {st : Settings}
    (hg : st.gram = false) (hs : st.sym = false) :
    chooseEigenvalues lib w (.dense (square M)) none st = .ok (.cplx ((lib.eig n M).map some)) := by
  unfold chooseEigenvalues computeEigenvalues plainEigenvalues
  simp only [hg, hs, Bool.false_eq_true, if_false]
  rw [if_neg (by simp [Array2.isSparse])]
  exact withSquare_square _ M

theorem choose_symmetric (w : Which) (M : Matrix (Fin n) (Fin n) ℝ) {st : Settings}
    (hg : st.gram = false) (hs : st.sym = true) :
    chooseEigenvalues lib w (.dense (square M)) none st = .ok (.real ((lib.eigh n M).map some)) := by
  unfold chooseEigenvalues computeEigenvalues plainEigenvalues
  simp only [hg, hs, Bool.false_eq_true, if_false, if_true]
  rw [if_neg (by simp [Array2.isSparse])]
  exact withSquare_square _ M

theorem choose_gram (w : Which) (M : Matrix (Fin m) (Fin n) ℝ) {st : Settings}
    (hg : st.gram = true) (hs : st.sym = false) :
    chooseEigenvalues lib w (.dense ⟨m, n, M⟩) none st =
      .ok (.real (((lib.svd m n M).map (· ^ 2)).map some)) := by
  unfold chooseEigenvalues computeEigenvalues gramEigenvalues denseSingular
  simp only [hg, hs, Bool.false_eq_true, if_false, if_true]
  rw [if_neg (by simp [Array2.isSparse]), Except.ok_bind', List.map_map]
  rfl

theorem eigenTrace_general (hlib : EigSpec lib) {f : Scalar} {w : Which} {M : Matrix (Fin n) (Fin n) ℝ}
    {st : Settings} (hq : ValidFraction st) (hg : st.gram = false) (hs : st.sym = false) {g : ℂ → ℂ} {t : ℝ}
    (h : ∀ z ∈ complexEigenvalues M, f.onComplex z = some (g z))
    (ht : ((complexEigenvalues M).map g).sum = t) :
    eigenTrace lib f w (.dense (square M)) none st = .ok (some t) := by
  unfold eigenTrace
  refine (dense_start (M := M) hq (Or.inr rfl) _).trans ?_
  rw [choose_general _ _ hg hs, Except.ok_bind']
  refine eigenTrace_complex (angleTol_nonneg _ _) (g := g) ?_ ?_
  · intro z hz
    exact h z (by rw [← hlib.eig_ok]; exact hz)
  · rw [hlib.eig_ok, ht]

theorem eigenTrace_symmetric (hlib : EigSpec lib) {f : Scalar} {w : Which} {M : Matrix (Fin n) (Fin n) ℝ}
    (hM : M.IsSymm) {st : Settings} (hq : ValidFraction st) (hg : st.gram = false) (hs : st.sym = true)
    {g : ℝ → ℝ} (h : ∀ x ∈ realEigenvalues M, f.onReal x = some (g x)) :
    eigenTrace lib f w (.dense (square M)) none st = .ok (some (cfc g M).trace) := by
  unfold eigenTrace
  have he := hlib.eigh_ok n M
  rw [lowerSymm_of_isSymm hM] at he
  refine (dense_start (M := M) hq (Or.inr rfl) _).trans ?_
  rw [choose_symmetric _ _ hg hs, Except.ok_bind', eigenTrace_real (g := g), he, trace_cfc hM]
  · rfl
  · intro x hx
    exact h x (by rw [← he]; exact hx)

/-- The eigenvalues of a positive definite matrix are positive. -/
theorem posDef_eigenvalues {M : Matrix (Fin n) (Fin n) ℝ} (hM : M.PosDef) {x : ℝ}
    (hx : x ∈ realEigenvalues M) : 0 < x := by
  unfold realEigenvalues at hx
  rw [hM.1.roots_charpoly_eq_eigenvalues] at hx
  obtain ⟨i, -, rfl⟩ := Multiset.mem_map.1 hx
  exact hM.eigenvalues_pos i

theorem gram_eigenvalues {M : Matrix (Fin m) (Fin n) ℝ} {x : ℝ} (hx : x ∈ realEigenvalues (Mᵀ * M)) :
    0 ≤ x := by
  have hp : (Mᵀ * M).PosSemidef := by
    have := posSemidef_conjTranspose_mul_self M
    rwa [conjTranspose_eq_transpose_of_trivial] at this
  unfold realEigenvalues at hx
  rw [hp.1.roots_charpoly_eq_eigenvalues] at hx
  obtain ⟨i, -, rfl⟩ := Multiset.mem_map.1 hx
  exact hp.eigenvalues_nonneg i

theorem gram_symm (M : Matrix (Fin m) (Fin n) ℝ) : (Mᵀ * M).IsSymm := by
  unfold Matrix.IsSymm
  rw [transpose_mul, transpose_transpose]

/-- With `gram=True` the zero eigenvalues of the Gramian of a matrix with more columns than rows are missing. -/
theorem eigenTrace_gram (hlib : EigSpec lib) {f : Scalar} {w : Which} {M : Matrix (Fin m) (Fin n) ℝ}
    {st : Settings} (hq : ValidFraction st) (hg : st.gram = true) (hs : st.sym = false)
    {g : ℝ → ℝ} (h : ∀ x ∈ realEigenvalues (Mᵀ * M), f.onReal x = some (g x)) :
    eigenTrace lib f w (.dense ⟨m, n, M⟩) none st =
      .ok (some ((cfc g (Mᵀ * M)).trace - (n - min m n : ℕ) * g 0)) := by
  unfold eigenTrace
  have he := hlib.svd_ok m n M
  rw [dense_start (M := M) hq (Or.inl hg), choose_gram _ _ hg hs, Except.ok_bind', eigenTrace_real (g := g),
    trace_cfc (A := Mᵀ * M) (gram_symm M)]
  · have : (((Mᵀ * M).charpoly.roots).map g).sum =
        ((((lib.svd m n M).map (· ^ 2) : List ℝ) : Multiset ℝ).map g).sum + (n - min m n : ℕ) * g 0 := by
      rw [show (Mᵀ * M).charpoly.roots = realEigenvalues (Mᵀ * M) from rfl, ← he]
      simp
    rw [this]
    congr 2
    ring
  · intro x hx
    exact h x (by rw [← he]; exact Multiset.mem_add.2 (Or.inl hx))

/-! ### `trace` and `traceinv` -/

/-- C55, `trace`, for every square matrix and natural exponent. -/
theorem trace_eigenvalue_nat (hlib : EigSpec lib) (M : Matrix (Fin n) (Fin n) ℝ) (k : ℕ) {st : Settings}
    (hq : ValidFraction st) (hg : st.gram = false) (hs : st.sym = false) :
    traceEigenvalue lib (.dense (square M)) k none st = .ok (some (M ^ k).trace) :=
  eigenTrace_general hlib hq hg hs (g := (· ^ k)) (fun z _ => powC_natCast z k) (sum_eigenvalues_pow M k)

/-- C55, `trace`, for every non-singular matrix and integer exponent. -/
theorem trace_eigenvalue_int (hlib : EigSpec lib) {M : Matrix (Fin n) (Fin n) ℝ} (hM : IsUnit M.det) (k : ℤ)
    {st : Settings} (hq : ValidFraction st) (hg : st.gram = false) (hs : st.sym = false) :
    traceEigenvalue lib (.dense (square M)) k none st = .ok (some (M ^ k).trace) :=
  eigenTrace_general hlib hq hg hs (g := (· ^ k))
    (fun _ hz => powC_intCast (eigenvalues_ne_zero hM hz) k) (sum_eigenvalues_zpow hM k)

/-- C55, `traceinv`, for every non-singular matrix and integer exponent. -/
theorem traceinv_eigenvalue_int (hlib : EigSpec lib) {M : Matrix (Fin n) (Fin n) ℝ} (hM : IsUnit M.det)
    (k : ℤ) {st : Settings} (hq : ValidFraction st) (hg : st.gram = false) (hs : st.sym = false) :
    traceinvEigenvalue lib (.dense (square M)) k none st = .ok (some (M ^ (-k)).trace) := by
  refine eigenTrace_general hlib hq hg hs (g := (· ^ (-k))) (fun z hz => ?_) (sum_eigenvalues_zpow hM (-k))
  have h0 := eigenvalues_ne_zero hM hz
  simp only [traceinvScalar]
  rw [powC_intCast h0, Option.bind_some, if_neg (zpow_ne_zero k h0), _root_.zpow_neg, one_div]

/-- C55, `trace`, for every positive definite matrix and real exponent. -/
theorem trace_eigenvalue_sym (hlib : EigSpec lib) {M : Matrix (Fin n) (Fin n) ℝ} (hM : M.PosDef) (p : ℝ)
    {st : Settings} (hq : ValidFraction st) (hg : st.gram = false) (hs : st.sym = true) :
    traceEigenvalue lib (.dense (square M)) p none st = .ok (some (cfc (fun x : ℝ => x ^ p) M).trace) := by
  refine eigenTrace_symmetric hlib (isSymm_of_posDef hM) hq hg hs (fun x hx => ?_)
  simp only [traceScalar, powR_pos (posDef_eigenvalues hM hx)]

/-- C55, `traceinv`, for every positive definite matrix and real exponent. -/
theorem traceinv_eigenvalue_sym (hlib : EigSpec lib) {M : Matrix (Fin n) (Fin n) ℝ} (hM : M.PosDef) (p : ℝ)
    {st : Settings} (hq : ValidFraction st) (hg : st.gram = false) (hs : st.sym = true) :
    traceinvEigenvalue lib (.dense (square M)) p none st =
      .ok (some (cfc (fun x : ℝ => x ^ (-p)) M).trace) := by
  refine eigenTrace_symmetric hlib (isSymm_of_posDef hM) hq hg hs (fun x hx => ?_)
  have h0 := posDef_eigenvalues hM hx
  simp only [traceinvScalar, powR_pos h0]
  rw [if_neg (Real.rpow_pos_of_pos h0 p).ne', Real.rpow_neg h0.le, one_div]

/-- C55, `trace` with `gram=True`, for every matrix of any shape and positive exponent. -/
theorem trace_eigenvalue_gram (hlib : EigSpec lib) (M : Matrix (Fin m) (Fin n) ℝ) {p : ℝ} (hp : 0 < p)
    {st : Settings} (hq : ValidFraction st) (hg : st.gram = true) (hs : st.sym = false) :
    traceEigenvalue lib (.dense ⟨m, n, M⟩) p none st =
      .ok (some (cfc (fun x : ℝ => x ^ p) (Mᵀ * M)).trace) := by
  unfold traceEigenvalue
  rw [eigenTrace_gram hlib hq hg hs (g := fun x => x ^ p)]
  · rw [Real.zero_rpow hp.ne', mul_zero, sub_zero]
  · intro x hx
    simp only [traceScalar]
    rcases (gram_eigenvalues hx).lt_or_eq with h | h
    · rw [powR_pos h]
    · rw [← h, Real.zero_rpow hp.ne']
      unfold powR
      rw [if_neg (lt_irrefl _), if_pos rfl, if_pos hp]

/-- … and for `p = 0` the number of columns of a matrix with more columns than rows is not returned. -/
theorem trace_eigenvalue_gram_zero_wide (hlib : EigSpec lib) {M : Matrix (Fin m) (Fin n) ℝ} (h : m < n)
    {st : Settings} (hq : ValidFraction st) (hg : st.gram = true) (hs : st.sym = false) :
    ∃ t, traceEigenvalue lib (.dense ⟨m, n, M⟩) 0 none st = .ok (some t) ∧
      t < ((Mᵀ * M) ^ 0).trace := by
  have := eigenTrace_gram (f := traceScalar ((0 : ℕ) : ℝ)) (w := whichFor ((0 : ℕ) : ℝ)) (M := M) hlib hq hg hs
    (g := fun x => x ^ 0) (fun x _ => by simp only [traceScalar, powR_natCast])
  rw [Nat.cast_zero] at this
  refine ⟨_, this, ?_⟩
  have hc : (cfc (fun x : ℝ => x ^ 0) (Mᵀ * M)).trace = ((Mᵀ * M) ^ 0).trace := by
    rw [trace_cfc (A := Mᵀ * M) (gram_symm M)]
    have hcard : Multiset.card (Mᵀ * M).charpoly.roots = n := by
      rw [Matrix.IsHermitian.roots_charpoly_eq_eigenvalues (A := Mᵀ * M) (gram_symm M)]
      simp
    simp [hcard]
  rw [hc, min_eq_left h.le]
  have : (0 : ℝ) < (n - m : ℕ) := by
    exact_mod_cast Nat.sub_pos_of_lt h
  simpa using this

/-- C55, `traceinv` with `gram=True`, for every matrix with full column rank. -/
theorem traceinv_eigenvalue_gram (hlib : EigSpec lib) {M : Matrix (Fin m) (Fin n) ℝ}
    (hM : (Mᵀ * M).PosDef) (hmn : n ≤ m) (p : ℝ)
    {st : Settings} (hq : ValidFraction st) (hg : st.gram = true) (hs : st.sym = false) :
    traceinvEigenvalue lib (.dense ⟨m, n, M⟩) p none st =
      .ok (some (cfc (fun x : ℝ => x ^ (-p)) (Mᵀ * M)).trace) := by
  unfold traceinvEigenvalue
  rw [eigenTrace_gram hlib hq hg hs (g := fun x => x ^ (-p))]
  · rw [min_eq_right hmn, Nat.sub_self, Nat.cast_zero, zero_mul, sub_zero]
  · intro x hx
    have h0 := posDef_eigenvalues hM hx
    simp only [traceinvScalar, powR_pos h0]
    rw [if_neg (Real.rpow_pos_of_pos h0 p).ne', Real.rpow_neg h0.le, one_div]

/-! ### `trexp` and `trlinfrac` -/

/-- C55, `trexp`, for every symmetric matrix and natural exponent. -/
theorem trexp_eigenvalue_sym (hlib : EigSpec lib) {M : Matrix (Fin n) (Fin n) ℝ} (hM : M.IsSymm) (c : ℝ)
    (k : ℕ) {st : Settings} (hq : ValidFraction st) (hg : st.gram = false) (hs : st.sym = true) :
    trexpEigenvalue lib (.dense (square M)) c k none st =
      .ok (some (cfc (fun x : ℝ => Real.exp (c * x ^ k)) M).trace) :=
  eigenTrace_symmetric hlib hM hq hg hs (fun x _ => by simp only [trexpScalar, powR_natCast])

/-- C55, `trexp`, for every positive definite matrix and real exponent. -/
theorem trexp_eigenvalue_posDef (hlib : EigSpec lib) {M : Matrix (Fin n) (Fin n) ℝ} (hM : M.PosDef) (c p : ℝ)
    {st : Settings} (hq : ValidFraction st) (hg : st.gram = false) (hs : st.sym = true) :
    trexpEigenvalue lib (.dense (square M)) c p none st =
      .ok (some (cfc (fun x : ℝ => Real.exp (c * x ^ p)) M).trace) :=
  eigenTrace_symmetric hlib (isSymm_of_posDef hM) hq hg hs
    (fun x hx => by simp only [trexpScalar, powR_pos (posDef_eigenvalues hM hx)])

/-- With `gram=True` the result of `trexp` lacks 1 for each column in excess of the rows: the zero eigenvalues of the
Gramian are missing. -/
theorem trexp_eigenvalue_gram (hlib : EigSpec lib) (M : Matrix (Fin m) (Fin n) ℝ) (c : ℝ) {k : ℕ} (hk : 1 ≤ k)
    {st : Settings} (hq : ValidFraction st) (hg : st.gram = true) (hs : st.sym = false) :
    trexpEigenvalue lib (.dense ⟨m, n, M⟩) c k none st =
      .ok (some ((cfc (fun x : ℝ => Real.exp (c * x ^ k)) (Mᵀ * M)).trace - (n - min m n : ℕ))) := by
  unfold trexpEigenvalue
  rw [eigenTrace_gram hlib hq hg hs (g := fun x => Real.exp (c * x ^ k))]
  · rw [zero_pow (by omega), mul_zero, Real.exp_zero, mul_one]
  · intro x _
    simp only [trexpScalar, powR_natCast]

/-- C55, `trlinfrac`, for every positive definite matrix and real exponent. -/
theorem trlinfrac_eigenvalue_posDef (hlib : EigSpec lib) {M : Matrix (Fin n) (Fin n) ℝ} (hM : M.PosDef)
    {a b c d p : ℝ} (hd : ∀ x ∈ realEigenvalues M, c * x ^ p + d ≠ 0)
    {st : Settings} (hq : ValidFraction st) (hg : st.gram = false) (hs : st.sym = true) :
    trlinfracEigenvalue lib (.dense (square M)) a b c d p none st =
      .ok (some (cfc (fun x : ℝ => (a * x ^ p + b) / (c * x ^ p + d)) M).trace) := by
  refine eigenTrace_symmetric hlib (isSymm_of_posDef hM) hq hg hs (fun x hx => ?_)
  simp only [trlinfracScalar, powR_pos (posDef_eigenvalues hM hx)]
  rw [if_neg (hd x hx)]

/-! ### What is wrong -/

/-- Eigenvalues given by the user are squared for `gram=True`.  The eigenvalues of the Gramian are not the squares
of the eigenvalues. -/
theorem user_eigenvalues_gram_wrong (lib : Eigen.Lib) {st : Settings} (hq : ValidFraction st)
    (hg : st.gram = true) :
    ∃ (M : Matrix (Fin 2) (Fin 2) ℝ) (l : List ℝ) (t : ℝ), (l : Multiset ℝ) = realEigenvalues M ∧
      traceEigenvalue lib (.dense (square M)) 1 (some (.real (l.map some))) st = .ok (some t) ∧
      t ≠ (Mᵀ * M).trace := by
  refine ⟨!![1, 1; 0, 1], [1, 1], 2, ?_, ?_, ?_⟩
  · have : (!![1, 1; 0, 1] : Matrix (Fin 2) (Fin 2) ℝ).charpoly =
        (Polynomial.X - Polynomial.C 1) * (Polynomial.X - Polynomial.C 1) := by
      rw [charpoly_fin_two]
      simp [Matrix.trace, Fin.sum_univ_two, det_fin_two]
      ring
    unfold realEigenvalues
    rw [this, Polynomial.roots_mul (mul_ne_zero (Polynomial.X_sub_C_ne_zero _) (Polynomial.X_sub_C_ne_zero _)),
      Polynomial.roots_X_sub_C]
    rfl
  · unfold traceEigenvalue eigenTrace
    have h1 : checkSizes (.dense (square !![1, 1; 0, 1])) (some (.real ([(1 : ℝ), 1].map some))) st.gram =
        .ok () := by
      unfold checkSizes
      simp only
      rw [if_neg (by simp [Eigs.size, Array2.value, square]), hg]
      exact checkSquare_gram _
    rw [h1, Except.ok_bind', checkFraction_ok hq.1 hq.2, Except.ok_bind']
    unfold chooseEigenvalues
    simp only [hg, if_true, Except.ok_bind']
    have := eigenTrace_real (f := traceScalar 1) (tol := angleTol (Array2.dense (square
      (!![1, 1; 0, 1] : Matrix (Fin 2) (Fin 2) ℝ))).isSparse st.sym) (rows := 2) (g := fun x => x)
      (l := [1, 1]) (by
        intro x hx
        have hx : x = 1 := by simpa using hx
        subst hx
        simp only [traceScalar, powR_pos one_pos, Real.one_rpow])
    have e : (Eigs.real ([(1 : ℝ), 1].map some)).sq = .real ([1, 1].map some) := by
      simp [Eigs.sq]
    rw [e]
    refine this.trans ?_
    norm_num
  · simp [Matrix.trace, Matrix.mul_apply, Fin.sum_univ_two]
    norm_num

/-- For a sparse matrix only a part of the eigenvalues is used: if the routine returns at all, the trace of a power of
a positive definite matrix is too small, for every exponent and every permitted fraction. -/
theorem sparse_trace_too_small (hlib : EigSpec lib) {A : Array2 ℝ} (hA : A.isSparse = true)
    {M : Matrix (Fin n) (Fin n) ℝ} (hv : A.value = square M) (hn : 0 < n) (hM : M.PosDef) (p : ℝ)
    {st : Settings} (hq : ValidFraction st) (hg : st.gram = false) (hs : st.sym = true) {t : Option ℝ}
    (h : traceEigenvalue lib A p none st = .ok t) :
    ∃ x, t = some x ∧ x < (cfc (fun x : ℝ => x ^ p) M).trace := by
  unfold traceEigenvalue eigenTrace at h
  have h1 : checkSizes A none st.gram = .ok () := checkSquare_square hv _
  rw [h1, Except.ok_bind', checkFraction_ok hq.1 hq.2, Except.ok_bind'] at h
  unfold chooseEigenvalues computeEigenvalues plainEigenvalues at h
  simp only [hg, hs, hA, if_true, Bool.false_eq_true, if_false] at h
  rw [hv, Eigen.withSquare_square] at h
  cases hl : lib.eigsh (whichFor p) (numNonZero (square M).rows st.fraction) n M with
  | error e => rw [hl] at h; cases h
  | ok l =>
    rw [hl, Except.ok_bind', Except.ok_bind'] at h
    obtain ⟨h2, h3⟩ := hlib.eigsh_ok _ _ _ _ _ hl
    rw [lowerSymm_of_isSymm (isSymm_of_posDef hM)] at h3
    unfold sumScalar at h
    simp only at h
    rw [filterMap_padded, sumOpt_congr (g := fun x => x ^ p)] at h
    · cases h
      refine ⟨_, rfl, ?_⟩
      rw [trace_cfc hM.1]
      obtain ⟨s, hs⟩ := Multiset.le_iff_exists_add.1 h3
      have hr : M.charpoly.roots = (l : Multiset ℝ) + s := hs
      rw [hr, Multiset.map_add, Multiset.sum_add]
      have hcard : Multiset.card M.charpoly.roots = n := by
        rw [hM.1.roots_charpoly_eq_eigenvalues]
        simp
      rw [hr, Multiset.card_add, Multiset.coe_card, h2] at hcard
      have hk : numNonZero (square M).rows st.fraction < n := by
        unfold numNonZero square
        simp only
        have h4 : ⌊(n : ℚ) * st.fraction⌋ < n := by
          rw [Int.floor_lt]
          have : (0 : ℚ) < n := by exact_mod_cast hn
          have := hq.2
          push_cast
          nlinarith
        omega
      have hpos : ∀ x ∈ s, 0 < x ^ p := by
        intro x hx
        refine Real.rpow_pos_of_pos (posDef_eigenvalues hM ?_) p
        rw [hs]
        exact Multiset.mem_add.2 (Or.inr hx)
      obtain ⟨x, hx⟩ := Multiset.card_pos_iff_exists_mem.1 (show 0 < Multiset.card s by omega)
      obtain ⟨s', rfl⟩ := Multiset.exists_cons_of_mem hx
      rw [Multiset.map_cons, Multiset.sum_cons]
      have h5 := hpos x (Multiset.mem_cons_self _ _)
      have h6 : 0 ≤ (s'.map fun x => x ^ p).sum := by
        apply Multiset.sum_nonneg
        intro y hy
        obtain ⟨z, hz, rfl⟩ := Multiset.mem_map.1 hy
        exact (hpos z (Multiset.mem_cons_of_mem hz)).le
      linarith
    · intro x hx
      simp only [traceScalar, powR_pos (posDef_eigenvalues hM (Multiset.mem_of_le h3 hx))]

/-- The test whether the sum is real rejects every negative sum with an imaginary part, however small: rounding
errors make the method raise for a negative trace. -/
theorem negative_sum_raises {tol : ℝ} {rows : ℕ} (ht : tol * rows ≤ 1) {t e : ℝ} (h : t < 0) (he : e ≠ 0) :
    Eigen.realPart tol rows (some ⟨t, e⟩) = .error .runtimeError := by
  unfold Eigen.realPart
  have h1 : Real.pi / 2 < |Complex.arg ⟨t, e⟩| := by
    rw [← not_le, Complex.abs_arg_le_pi_div_two_iff]
    push Not
    exact h
  have h2 : |Complex.arg ⟨t, e⟩| < Real.pi := by
    refine lt_of_le_of_ne (Complex.abs_arg_le_pi _) (fun h3 => ?_)
    rcases abs_choice (Complex.arg ⟨t, e⟩) with h4 | h4
    · rw [h4] at h3
      exact he (Complex.arg_eq_pi_iff.1 h3).2
    · have := Complex.neg_pi_lt_arg ⟨t, e⟩
      rw [h4] at h3
      linarith
  have h3 : modPi |Complex.arg ⟨t, e⟩| = |Complex.arg ⟨t, e⟩| := by
    unfold modPi
    have : ⌊|Complex.arg ⟨t, e⟩| / Real.pi⌋ = 0 := by
      rw [Int.floor_eq_iff]
      constructor
      · have := Real.pi_pos
        simp
        positivity
      · rw [div_lt_iff₀ Real.pi_pos]
        simpa using h2
    rw [this]
    simp
  simp only
  rw [h3, abs_abs, if_pos]
  have := Real.two_le_pi
  linarith

end Imate.Props
