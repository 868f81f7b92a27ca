import Verif.Props.HutchinsonRange
import Verif.Lemmas.ScaledConvergence

/-!
# C118: the Hutchinson method follows the scale of the matrix
-/

namespace Imate.Convergence

open Spec FloatLike

variable {k : ℝ}

theorem pyStdOf_scaled (hk : 0 < k) (xs : List (XR ℝ)) : pyStdOf (xs.map (scaled k)) = scaled k (pyStdOf xs) := by
  unfold pyStdOf
  rw [List.length_map]
  split
  · rw [meanOf_scaled hk, sumSq_scaled hk, div_scaled hk, div_scaled hk, sqrt_scaled hk]
  · rw [scaled_inf hk]

theorem pyMeetsTol_scaled (hk : 0 < k) (z atol rtol : XR ℝ) (xs : List (XR ℝ)) :
    pyMeetsTol z (scaled k atol) rtol (xs.map (scaled k)) = pyMeetsTol z atol rtol xs := by
  unfold pyMeetsTol pyErrorOf
  rw [pyStdOf_scaled hk, mul_scaled hk, div_scaled hk, List.length_map, meanOf_scaled hk, mul_scaled hk, max_scaled hk, lt_scaled hk]

theorem pyCheckConvergence_scaled (hk : 0 < k) (m : ℕ) (z atol rtol : XR ℝ) (xs : List (XR ℝ)) :
    pyCheckConvergence m z (scaled k atol) rtol (xs.map (scaled k)) = pyCheckConvergence m z atol rtol xs := by
  unfold pyCheckConvergence
  rw [pyMeetsTol_scaled hk, List.length_map]

theorem pyAverageEstimate_scaled (hk : 0 < k) (ez oz : XR ℝ) (xs : List (XR ℝ)) :
    pyAverageEstimate ez oz (xs.map (scaled k)) = (pyAverageEstimate ez oz xs).map (scaledAverage k) := by
  unfold pyAverageEstimate scaledAverage
  have hfun : ((fun x => !isOutlier (scaled k (meanOf xs)) (scaled k (mul oz (pyStdOf xs))) x) ∘ scaled k) =
      fun x => !isOutlier (meanOf xs) (mul oz (pyStdOf xs)) x := by
    funext x; simp [isOutlier_scaled hk]
  have hfun' : ((fun x => isOutlier (scaled k (meanOf xs)) (scaled k (mul oz (pyStdOf xs))) x) ∘ scaled k) =
      fun x => isOutlier (meanOf xs) (mul oz (pyStdOf xs)) x := by
    funext x; simp [isOutlier_scaled hk]
  simp only [meanOf_scaled hk, pyStdOf_scaled hk, mul_scaled hk, List.filter_map, List.countP_map, hfun, hfun',
    List.length_map, sumOf_scaled hk, div_scaled hk, sumSq_scaled hk, sqrt_scaled hk]
  split
  · rfl
  · simp only [Option.map_some, Option.some.injEq, Averaged.mk.injEq, true_and, and_true]
    split
    · rw [mul_scaled hk, div_scaled hk]
    · conv_lhs => rw [← scaled_inf hk, mul_scaled hk, div_scaled hk]

end Imate.Convergence

namespace Imate.Hutchinson

open Spec Convergence

/-- The loop on samples that are `k` times as large, with the absolute tolerance `k` times as large. -/
theorem sampling_scaled {k : ℝ} (hk : 0 < k) {sample sample' : Vec ℝ → Except PyExc ℝ} {st : Settings ℝ} {Es : List (Vec ℝ)}
    (h : ∀ E ∈ Es, sample' E = (sample E).map (k * ·)) (done : List (XR ℝ)) :
    sampling sample' { st with atol := scaled k st.atol } Es (done.map (scaled k)) =
      (sampling sample st Es done).map fun r => (r.1.map (scaled k), r.2) := by
  induction Es generalizing done with
  | nil => rfl
  | cons E Es ih =>
    unfold sampling
    rw [h E List.mem_cons_self]
    cases sample E with
    | error e => rfl
    | ok x =>
      show (if _ then _ else _) = Except.map _ (if _ then _ else _)
      have e : done.map (scaled k) ++ [XR.fin (k * x)] = (done ++ [XR.fin x]).map (scaled k) := by
        rw [List.map_append]; rfl
      simp only [e, pyCheckConvergence_scaled hk]
      split
      · rfl
      · exact ih (fun F hF => h F (List.mem_cons_of_mem _ hF)) _

end Imate.Hutchinson

namespace Imate.Props

open Imate.Hutchinson Imate.Spec Imate.Columns Imate.Lanczos Imate.Convergence Matrix

variable {n : ℕ} {solve : Solver ℝ} {a : Assume}

/-- The factor of the trace when `A` is multiplied by `c`: `c⁻ᵖ`, of the Gramian `c⁻²ᵖ`, and the square of this when `C` is given. -/
noncomputable def traceFactor (gram : Bool) (p : ℤ) (withC : Bool) (c : ℝ) : ℝ :=
  ((if gram then c ^ 2 else c) ^ (-p)) ^ (if withC then 2 else 1)

/-- the outcome with trace and error multiplied by `k` -/
noncomputable def scaledOutcome (k : ℝ) (r : Outcome ℝ) : Outcome ℝ :=
  ⟨scaled k r.trace, scaled k r.error, r.numOutliers, r.numSamplesUsed, r.converged⟩

theorem traceFactor_pos (gram : Bool) (p : ℤ) (withC : Bool) {c : ℝ} (hc : 0 < c) : 0 < traceFactor gram p withC c := by
  unfold traceFactor
  split <;> positivity

theorem smul_zpow_neg {M : Matrix (Fin n) (Fin n) ℝ} {d : ℝ} (hd : 0 < d) {p : ℤ} (hp : -1 ≤ p) (hu : 1 ≤ p → IsUnit M.det) :
    (d • M) ^ (-p) = d ^ (-p) • M ^ (-p) := by
  rcases lt_or_ge 0 p with h | h
  · obtain ⟨k, rfl⟩ := Int.eq_ofNat_of_zero_le h.le
    have hM := hu (by omega)
    have hdM : IsUnit (d • M).det := by
      rw [det_smul]
      exact (IsUnit.mk0 _ (pow_ne_zero _ hd.ne')).mul hM
    rw [Matrix.zpow_neg hdM, Matrix.zpow_neg hM, zpow_natCast, zpow_natCast, _root_.zpow_neg, zpow_natCast, smul_pow]
    have hk : IsUnit (M ^ k).det := by rw [det_pow]; exact hM.pow k
    let _ : Invertible (d ^ k) := invertibleOfNonzero (pow_ne_zero _ hd.ne')
    rw [Matrix.inv_smul _ (d ^ k) hk, invOf_eq_inv]
  · rcases (show p = 0 ∨ p = -1 by omega) with rfl | rfl
    · simp
    · simp

theorem subject_smul (gram : Bool) (A : Matrix (Fin n) (Fin n) ℝ) (c : ℝ) :
    subject gram (c • A) = (if gram then c ^ 2 else c) • subject gram A := by
  unfold subject
  cases gram
  · simp
  · simp [smul_smul, sq]

theorem subject_det (gram : Bool) {A : Matrix (Fin n) (Fin n) ℝ} (h : IsUnit A.det) : IsUnit (subject gram A).det := by
  unfold subject
  cases gram
  · exact h
  · simp only [if_true, det_mul, det_transpose]
    exact h.mul h

theorem sampledMatrix_smul (gram : Bool) {A : Matrix (Fin n) (Fin n) ℝ} {p : ℤ} (hp : -1 ≤ p) (hu : 1 ≤ p → IsUnit A.det)
    (B C : Option (Matrix (Fin n) (Fin n) ℝ)) (hBC : C.isSome → B.isSome) {c : ℝ} (hc : 0 < c) :
    sampledMatrix gram (c • A) p B C = traceFactor gram p C.isSome c • sampledMatrix gram A p B C := by
  have hd : 0 < (if gram then c ^ 2 else c) := by split <;> positivity
  have hz := smul_zpow_neg (M := subject gram A) hd hp fun h => subject_det gram (hu h)
  unfold sampledMatrix
  split
  · rename_i h
    obtain ⟨rfl, rfl, hB⟩ := h
    have hC : C.isSome = false := by
      cases C with
      | none => rfl
      | some C => rw [Option.isNone_iff_eq_none.1 hB] at hBC; simp at hBC
    let _ : Invertible c := invertibleOfNonzero hc.ne'
    rw [Matrix.inv_smul _ c (hu le_rfl), invOf_eq_inv, hC, transpose_smul, smul_mul_smul_comm]
    congr 1
    unfold traceFactor
    simp only [if_true, Bool.false_eq_true, if_false, pow_one, _root_.zpow_neg, zpow_one]
    rw [sq, mul_inv]
  · rw [subject_smul, hz]
    unfold traceFactor
    cases C with
    | none => simp
    | some C =>
      simp only [Option.elim_some, Option.isSome_some, if_true]
      rw [Matrix.mul_smul, smul_mul_smul_comm, Matrix.smul_mul, ← pow_two]

/-- **C118.**  The whole Hutchinson method, under the conditions of C35: with `A` multiplied by `c > 0`, and the absolute tolerance multiplied
by the factor of the trace, the same call gives the outcome with trace and error multiplied by that factor and all counts unchanged, or fails
in the same way.  Missing: the exponents and the case excluded in C35. -/
theorem hutchinson_scaled_partial (eps : ℝ) (clock : ℕ → ℕ → BitVec 64) (seed : BitVec 64)
    (orthogonalize : Bool) (hs : SolverSpec solve) {A : Matrix (Fin n) (Fin n) ℝ} (hA : Admissible a A) {p : ℤ} (hp : -1 ≤ p)
    (hu : 1 ≤ p → IsUnit A.det) (gram : Bool) (B C : Option (Matrix (Fin n) (Fin n) ℝ)) (hBC : C.isSome → B.isSome)
    (hex : ¬ (gram = true ∧ p = -1 ∧ B.isSome)) (st : Settings ℝ) {c : ℝ} (hc : 0 < c) :
    hutchinson solve eps clock seed orthogonalize (square (c • A)) (B.map square) (C.map square) gram (.int p) a
        { st with atol := scaled (traceFactor gram p C.isSome c) st.atol } =
      (hutchinson solve eps clock seed orthogonalize (square A) (B.map square) (C.map square) gram (.int p) a st).map
        (scaledOutcome (traceFactor gram p C.isSome c)) := by
  have hA' : Admissible a (c • A) := by
    cases a with
    | gen => trivial
    | sym => exact Matrix.IsSymm.smul (show A.IsSymm from hA) c
    | pos => exact Matrix.PosDef.smul (show A.PosDef from hA) hc
    | symPos => exact Matrix.PosDef.smul (show A.PosDef from hA) hc
  have hu' : 1 ≤ p → IsUnit (c • A).det := fun h => by
    rw [det_smul]
    exact (IsUnit.mk0 _ (pow_ne_zero _ hc.ne')).mul (hu h)
  obtain ⟨-, g⟩ := sample_form hs hA hp hu gram B C hBC hex
  obtain ⟨-, g'⟩ := sample_form hs hA' hp hu' gram B C hBC hex
  rw [sampledMatrix_smul gram hp hu B C hBC hc] at g'
  have hk := traceFactor_pos gram p C.isSome hc
  set k := traceFactor gram p C.isSome c
  unfold hutchinson
  simp only
  have hcl : ∀ m, clampSamples (square (c • A)) m = clampSamples (square A) m := fun m => rfl
  simp only [hcl]
  show (ofNative (generateColumnVectors HasSqrt.sqrt eps clock seed n _ orthogonalize) >>= _) = _
  cases hV : generateColumnVectors HasSqrt.sqrt eps clock seed n (clampSamples (square A) st.maxNumSamples) orthogonalize with
  | error e =>
    have e1 : generateColumnVectors HasSqrt.sqrt eps clock seed (square A).rows (clampSamples (square A) st.maxNumSamples) orthogonalize = .error e := hV
    rw [e1]
    rfl
  | ok V =>
    have e1 : generateColumnVectors HasSqrt.sqrt eps clock seed (square A).rows (clampSamples (square A) st.maxNumSamples) orthogonalize = .ok V := hV
    rw [e1]
    set st' : Settings ℝ := { st with minNumSamples := clampSamples (square A) st.minNumSamples,
                                      maxNumSamples := clampSamples (square A) st.maxNumSamples } with hst'
    show average solve (square (c • A)) (B.map square) (C.map square) gram (.int p) a { st' with atol := scaled k st'.atol }
        (V.toList.map fun v => (⟨n, v⟩ : Vec ℝ)) =
      (average solve (square A) (B.map square) (C.map square) gram (.int p) a st' (V.toList.map fun v => (⟨n, v⟩ : Vec ℝ))).map _
    unfold average
    have h1 := sampling_scaled hk (st := st') (sample := sampleOf solve (square A) (B.map square) (C.map square) gram (.int p) a)
      (sample' := sampleOf solve (square (c • A)) (B.map square) (C.map square) gram (.int p) a)
      (Es := V.toList.map fun v => (⟨n, v⟩ : Vec ℝ)) (fun E hE => by
        obtain ⟨v, -, rfl⟩ := List.mem_map.1 hE
        rw [g' v, g v]
        show _ = Except.ok _
        rw [smul_mulVec, dotProduct_smul, smul_eq_mul]
        congr 1
        ring) []
    rw [List.map_nil] at h1
    rw [h1]
    cases sampling (sampleOf solve (square A) (B.map square) (C.map square) gram (.int p) a) st'
        (V.toList.map fun v => (⟨n, v⟩ : Vec ℝ)) [] with
    | error e => rfl
    | ok r =>
      obtain ⟨xs, conv⟩ := r
      simp only [Except.map, Except.ok_bind']
      rw [pyAverageEstimate_scaled hk]
      cases pyAverageEstimate st'.errorZ st'.outlierZ xs with
      | none => rfl
      | some q => simp [scaledAverage, scaledOutcome]

/-- **C118** with `error_atol=0`, the default: the same settings. -/
theorem hutchinson_scaled_default_partial (eps : ℝ) (clock : ℕ → ℕ → BitVec 64) (seed : BitVec 64)
    (orthogonalize : Bool) (hs : SolverSpec solve) {A : Matrix (Fin n) (Fin n) ℝ} (hA : Admissible a A) {p : ℤ} (hp : -1 ≤ p)
    (hu : 1 ≤ p → IsUnit A.det) (gram : Bool) (B C : Option (Matrix (Fin n) (Fin n) ℝ)) (hBC : C.isSome → B.isSome)
    (hex : ¬ (gram = true ∧ p = -1 ∧ B.isSome)) (st : Settings ℝ) (h0 : st.atol = .fin 0) {c : ℝ} (hc : 0 < c) :
    hutchinson solve eps clock seed orthogonalize (square (c • A)) (B.map square) (C.map square) gram (.int p) a st =
      (hutchinson solve eps clock seed orthogonalize (square A) (B.map square) (C.map square) gram (.int p) a st).map
        (scaledOutcome (traceFactor gram p C.isSome c)) := by
  have h := hutchinson_scaled_partial eps clock seed orthogonalize hs hA hp hu gram B C hBC hex st hc
  rw [h0, scaled_fin, mul_zero] at h
  rw [← h]
  congr 1
  cases st
  simp only at h0
  rw [h0]

/-- A returned trace is a number. -/
theorem hutchinson_finite_partial {eps : ℝ} (he : 0 < eps) (he1 : eps ≤ 1) (clock : ℕ → ℕ → BitVec 64) (seed : BitVec 64)
    (orthogonalize : Bool) (hn : 1 ≤ n) (hs : SolverSpec solve) {A : Matrix (Fin n) (Fin n) ℝ} (hA : Admissible a A) {p : ℤ} (hp : -1 ≤ p)
    (hu : 1 ≤ p → IsUnit A.det) (gram : Bool) (B C : Option (Matrix (Fin n) (Fin n) ℝ)) (hBC : C.isSome → B.isSome)
    (hex : ¬ (gram = true ∧ p = -1 ∧ B.isSome)) {st : Settings ℝ} {r : Outcome ℝ}
    (h : hutchinson solve eps clock seed orthogonalize (square A) (B.map square) (C.map square) gram (.int p) a st = .ok r) :
    ∃ t, r.trace = XR.fin t := by
  set G := sampledMatrix gram A p B C
  have hb : ∀ v : Fin n → ℝ, v ⬝ᵥ v = 1 → -(∑ i, ∑ j, |G i j|) ≤ v ⬝ᵥ (G *ᵥ v) ∧ v ⬝ᵥ (G *ᵥ v) ≤ ∑ i, ∑ j, |G i j| := by
    intro v hv
    have hvi : ∀ i, |v i| ≤ 1 := fun i => by
      have h1 : v i * v i ≤ v ⬝ᵥ v := Finset.single_le_sum (f := fun i => v i * v i) (fun j _ => mul_self_nonneg _) (Finset.mem_univ i)
      rw [hv] at h1
      rw [abs_le]
      constructor <;> nlinarith
    rw [← abs_le]
    unfold dotProduct mulVec dotProduct
    refine (Finset.abs_sum_le_sum_abs _ _).trans (Finset.sum_le_sum fun i _ => ?_)
    rw [Finset.mul_sum]
    refine (Finset.abs_sum_le_sum_abs _ _).trans (Finset.sum_le_sum fun j _ => ?_)
    rw [abs_mul, abs_mul]
    have h1 := mul_le_of_le_one_right (abs_nonneg (G i j)) (hvi j)
    have h2 := mul_le_mul (hvi i) h1 (mul_nonneg (abs_nonneg _) (abs_nonneg _)) zero_le_one
    linarith
  obtain ⟨t, h1, -⟩ := hutchinson_range_partial he he1 clock seed orthogonalize hn hs hA hp hu gram B C hBC hex hb h
  exact ⟨t, h1⟩

/-- The matrix with diagonal `1, 2, 2` and its half: whatever is drawn, the second trace of the inverse is twice the first. -/
example (hs : SolverSpec solve) (clock : ℕ → ℕ → BitVec 64) (seed : BitVec 64) :
    ∃ r r' t, hutchinson solve (1 / 2 : ℝ) clock seed false (square (diagonal ![(1 : ℝ), 2, 2])) none none false (.int 1) .gen
      ⟨2, 2, .fin 0, .fin (1 / 100), .fin 2, .fin 3⟩ = .ok r ∧
      hutchinson solve (1 / 2 : ℝ) clock seed false (square ((1 / 2 : ℝ) • diagonal ![(1 : ℝ), 2, 2])) none none false (.int 1) .gen
      ⟨2, 2, .fin 0, .fin (1 / 100), .fin 2, .fin 3⟩ = .ok r' ∧
      r.trace = XR.fin t ∧ r'.trace = XR.fin (2 * t) := by
  have hdet : IsUnit (diagonal ![(1 : ℝ), 2, 2]).det := by
    rw [det_diagonal, Fin.prod_univ_three]
    exact IsUnit.mk0 _ (by simp)
  obtain ⟨r, h⟩ := hutchinson_plain_returns_partial (eps := 1 / 2) (by norm_num) (by norm_num) clock seed (n := 3) (by norm_num) (a := .gen) hs
    (A := diagonal ![(1 : ℝ), 2, 2]) trivial (p := 1) (by norm_num) (fun _ => hdet) false none none (by simp) (by simp)
    (st := ⟨2, 2, .fin 0, .fin (1 / 100), .fin 2, .fin 3⟩) (by norm_num) (by norm_num) (oz := 3) rfl (by norm_num)
  have h' := hutchinson_scaled_default_partial (1 / 2) clock seed false (n := 3) (a := .gen) hs
    (A := diagonal ![(1 : ℝ), 2, 2]) trivial (p := 1) (by norm_num) (fun _ => hdet) false none none (by simp) (by simp)
    ⟨2, 2, .fin 0, .fin (1 / 100), .fin 2, .fin 3⟩ rfl (c := 1 / 2) (by norm_num)
  rw [h] at h'
  obtain ⟨t, ht⟩ := hutchinson_finite_partial (eps := 1 / 2) (by norm_num) (by norm_num) clock seed false (n := 3) (by norm_num) (a := .gen) hs
    (A := diagonal ![(1 : ℝ), 2, 2]) trivial (p := 1) (by norm_num) (fun _ => hdet) false none none (by simp) (by simp) h
  refine ⟨r, _, t, h, h', ht, ?_⟩
  show scaled _ r.trace = _
  rw [ht, scaled_fin]
  simp [traceFactor]

end Imate.Props
