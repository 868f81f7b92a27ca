import Verif.Lemmas.DegreeMono
import Verif.Props.SlqConvergence

/-!
# C116: a higher Lanczos degree or a smaller tolerance does not make a sample worse

Two samples with the same vector of signs; `opt'` has a degree at least that of `opt` and a tolerance at most that of `opt`.  The
reorthogonalization and the contents of the work arrays may differ.
-/

namespace Imate.Props

open Matrix Imate.Lanczos Imate.Spec Imate.Gauss

variable {n : Nat} {z : Fin n → ℝ} {ext : External ℝ} {opt opt' : Options ℝ} {op : Operator ℝ n}
  {parameters junkAlpha junkBeta junkAlpha' junkBeta' estimate estimate' : Array ℝ} {converged : Array Bool} {num : Nat}
  {f : ℝ → ℝ} {M : ℝ → Matrix (Fin n) (Fin n) ℝ}

/-- The options `opt'` ask for more work than `opt` for the same problem. -/
structure Finer (opt opt' : Options ℝ) : Prop where
  gram : opt'.gram = opt.gram
  exponent : opt'.exponent = opt.exponent
  degree : opt.degree ≤ opt'.degree
  tol : 0 < opt'.tol ∧ opt'.tol ≤ opt.tol

theorem Finer.run (h : Finer opt opt') (hr : ExactRun ext opt op M parameters) : ExactRun ext opt' op M parameters :=
  ⟨hr.sqrt, hr.dot, hr.transposeDot, fun hg => hr.symmetric (h.gram ▸ hg), fun hg => hr.invertible (h.gram ▸ hg), h.tol.1,
    hr.degree.trans h.degree⟩

/-- The two samples of the same vector. -/
theorem finer_samples (hfin : Finer opt opt') (hr : ExactRun ext opt op M parameters) (hop : op.relationKnown = false ∨ num = 1)
    (hn : 0 < n) (hz : Rademacher z)
    (hpar : parameters.size = num) (hconv : converged.size = num) (hest : estimate.size = num) (hest' : estimate'.size = num)
    (hja : junkAlpha.size = opt.degree) (hjb : junkBeta.size = opt.degree)
    (hja' : junkAlpha'.size = opt'.degree) (hjb' : junkBeta'.size = opt'.degree) :
    ∃ e e', slqSample ext opt op f parameters num z junkAlpha junkBeta converged estimate = .ok (converged, e) ∧
      slqSample ext opt' op f parameters num z junkAlpha' junkBeta' converged estimate' = .ok (converged, e') ∧
      ∀ j < num, ∀ t, parameters[j]? = some t → converged[j]? = some false →
        ∃ value value', e[j]? = some value ∧ e'[j]? = some value' ∧
          ∀ Q lam a b, Spectral (target opt.gram (M t)) Q lam → (∀ i, lam i ∈ Set.Icc a b) →
            ∃ (k l : Nat) (th tau : Fin k → ℝ) (et mu : Fin l → ℝ),
              Rule a b th tau et mu ∧ Rule a b et (fun i => (z ⬝ᵥ z) * mu i) lam (weights Q z) ∧
              value = (z ⬝ᵥ z) * wsum tau th (fun x => f (ext.pow x opt.exponent)) ∧
              value' = (z ⬝ᵥ z) * wsum mu et fun x => f (ext.pow x opt.exponent) := by
  obtain ⟨e, h1, -, h3⟩ := slqSample_step (f := f) hr hop hn hz hpar hconv hest hja hjb
  obtain ⟨e', h1', -, h3'⟩ := slqSample_step (f := f) (hfin.run hr) hop hn hz hpar hconv hest' hja' hjb'
  refine ⟨e, e', h1, h1', fun j hj t ht hc => ?_⟩
  obtain ⟨value, hv, hrule⟩ := h3 j hj t ht hc
  obtain ⟨value', hv', hrule'⟩ := h3' j hj t ht hc
  rw [hfin.gram, hfin.exponent] at hrule'
  exact ⟨value, value', hv, hv', fun Q lam a b hQ hl => hrule.compare hrule' hfin.degree
    (mul_le_mul_of_nonneg_right hfin.tol.2 (Real.sqrt_nonneg _)) hQ hl⟩

private theorem eigenvalue_range (hn : 0 < n) {lam : Fin n → ℝ} (hl : ∀ i, 0 < lam i) :
    ∃ a b, 0 < a ∧ ∀ i, lam i ∈ Set.Icc a b := by
  haveI : Nonempty (Fin n) := ⟨⟨0, hn⟩⟩
  obtain ⟨i0, hi0⟩ := Finite.exists_min lam
  obtain ⟨i1, hi1⟩ := Finite.exists_max lam
  exact ⟨lam i0, lam i1, hl i0, fun i => ⟨hi0 i, hi1 i⟩⟩

private theorem wsum_scaled {k : Nat} (c : ℝ) (mu et : Fin k → ℝ) (g : ℝ → ℝ) :
    wsum (fun i => c * mu i) et g = c * wsum mu et g := by
  unfold wsum
  rw [Finset.mul_sum]
  exact Finset.sum_congr rfl fun i _ => by ring

/-- **C116 (`traceinv`).**  The sample of the finer run is between that of the coarser run and the exact quadratic form. -/
theorem slq_traceinv_finer (hfin : Finer opt opt') (hr : ExactRun ext opt op M parameters) (hop : op.relationKnown = false ∨ num = 1)
    (hn : 0 < n) (hz : Rademacher z)
    (hpar : parameters.size = num) (hconv : converged.size = num) (hest : estimate.size = num) (hest' : estimate'.size = num)
    (hja : junkAlpha.size = opt.degree) (hjb : junkBeta.size = opt.degree)
    (hja' : junkAlpha'.size = opt'.degree) (hjb' : junkBeta'.size = opt'.degree)
    (hf : ∀ x, 0 < x → f (ext.pow x opt.exponent) = x⁻¹) :
    ∃ e e', slqSample ext opt op f parameters num z junkAlpha junkBeta converged estimate = .ok (converged, e) ∧
      slqSample ext opt' op f parameters num z junkAlpha' junkBeta' converged estimate' = .ok (converged, e') ∧
      ∀ j < num, ∀ t, parameters[j]? = some t → converged[j]? = some false →
        ∃ value value', e[j]? = some value ∧ e'[j]? = some value' ∧
          ∀ Q lam, Spectral (target opt.gram (M t)) Q lam → (∀ i, 0 < lam i) →
            value ≤ value' ∧ value' ≤ z ⬝ᵥ ((target opt.gram (M t))⁻¹ *ᵥ z) := by
  obtain ⟨e, e', h1, h1', h3⟩ := finer_samples (f := f) hfin hr hop hn hz hpar hconv hest hest' hja hjb hja' hjb'
  refine ⟨e, e', h1, h1', fun j hj t ht hc => ?_⟩
  obtain ⟨value, value', hv, hv', h4⟩ := h3 j hj t ht hc
  refine ⟨value, value', hv, hv', fun Q lam hQ hl => ?_⟩
  obtain ⟨a, b, ha, hab⟩ := eigenvalue_range hn hl
  obtain ⟨k, l, th, tau, et, mu, hr1, hr2, rfl, rfl⟩ := h4 Q lam a b hQ hab
  have hzz : 0 ≤ z ⬝ᵥ z := Finset.sum_nonneg fun i _ => mul_self_nonneg (z i)
  have hinv : (target opt.gram (M t))⁻¹ = matrixFunction (fun x => x⁻¹) Q lam :=
    Matrix.inv_eq_right_inv (hQ.mul_inv fun i => (hl i).ne')
  rw [hinv, matrixFunction_form,
    wsum_congr (x := th) (g := fun x => x⁻¹) fun i _ => hf _ (ha.trans_le (hr1.th_mem i).1),
    wsum_congr (x := et) (g := fun x => x⁻¹) fun i _ => hf _ (ha.trans_le (hr2.th_mem i).1), ← wsum_scaled _ mu]
  exact ⟨by rw [wsum_scaled]; exact mul_le_mul_of_nonneg_left (hr1.inv_le ha) hzz, hr2.inv_le ha⟩

/-- **C116 (`logdet`).**  The sample of the finer run is between the exact quadratic form and that of the coarser run. -/
theorem slq_logdet_finer (hfin : Finer opt opt') (hr : ExactRun ext opt op M parameters) (hop : op.relationKnown = false ∨ num = 1)
    (hn : 0 < n) (hz : Rademacher z)
    (hpar : parameters.size = num) (hconv : converged.size = num) (hest : estimate.size = num) (hest' : estimate'.size = num)
    (hja : junkAlpha.size = opt.degree) (hjb : junkBeta.size = opt.degree)
    (hja' : junkAlpha'.size = opt'.degree) (hjb' : junkBeta'.size = opt'.degree) {q : ℝ} (hq : 0 ≤ q)
    (hf : ∀ x, 0 < x → f (ext.pow x opt.exponent) = q * Real.log x) :
    ∃ e e', slqSample ext opt op f parameters num z junkAlpha junkBeta converged estimate = .ok (converged, e) ∧
      slqSample ext opt' op f parameters num z junkAlpha' junkBeta' converged estimate' = .ok (converged, e') ∧
      ∀ j < num, ∀ t, parameters[j]? = some t → converged[j]? = some false →
        ∃ value value', e[j]? = some value ∧ e'[j]? = some value' ∧
          ∀ Q lam, Spectral (target opt.gram (M t)) Q lam → (∀ i, 0 < lam i) →
            q * z ⬝ᵥ (matrixFunction Real.log Q lam *ᵥ z) ≤ value' ∧ value' ≤ value := by
  obtain ⟨e, e', h1, h1', h3⟩ := finer_samples (f := f) hfin hr hop hn hz hpar hconv hest hest' hja hjb hja' hjb'
  refine ⟨e, e', h1, h1', fun j hj t ht hc => ?_⟩
  obtain ⟨value, value', hv, hv', h4⟩ := h3 j hj t ht hc
  refine ⟨value, value', hv, hv', fun Q lam hQ hl => ?_⟩
  obtain ⟨a, b, ha, hab⟩ := eigenvalue_range hn hl
  obtain ⟨k, l, th, tau, et, mu, hr1, hr2, rfl, rfl⟩ := h4 Q lam a b hQ hab
  have hzz : 0 ≤ z ⬝ᵥ z := Finset.sum_nonneg fun i _ => mul_self_nonneg (z i)
  rw [matrixFunction_form,
    wsum_congr (x := th) (g := fun x => q * Real.log x) fun i _ => hf _ (ha.trans_le (hr1.th_mem i).1),
    wsum_congr (x := et) (g := fun x => q * Real.log x) fun i _ => hf _ (ha.trans_le (hr2.th_mem i).1), wsum_mul, wsum_mul]
  refine ⟨?_, mul_le_mul_of_nonneg_left (mul_le_mul_of_nonneg_left (hr1.log_le ha) hq) hzz⟩
  have h5 := mul_le_mul_of_nonneg_left (hr2.log_le ha) hq
  rw [wsum_scaled] at h5
  linarith

/-- **C116 (`trexp`).**  The sample of the finer run is between that of the coarser run and the exact quadratic form, for every
symmetric matrix and coefficient. -/
theorem slq_trexp_finer (hfin : Finer opt opt') (hr : ExactRun ext opt op M parameters) (hop : op.relationKnown = false ∨ num = 1)
    (hn : 0 < n) (hz : Rademacher z)
    (hpar : parameters.size = num) (hconv : converged.size = num) (hest : estimate.size = num) (hest' : estimate'.size = num)
    (hja : junkAlpha.size = opt.degree) (hjb : junkBeta.size = opt.degree)
    (hja' : junkAlpha'.size = opt'.degree) (hjb' : junkBeta'.size = opt'.degree) {c : ℝ}
    (hf : ∀ x, f (ext.pow x opt.exponent) = Real.exp (c * x)) :
    ∃ e e', slqSample ext opt op f parameters num z junkAlpha junkBeta converged estimate = .ok (converged, e) ∧
      slqSample ext opt' op f parameters num z junkAlpha' junkBeta' converged estimate' = .ok (converged, e') ∧
      ∀ j < num, ∀ t, parameters[j]? = some t → converged[j]? = some false →
        ∃ value value', e[j]? = some value ∧ e'[j]? = some value' ∧
          ∀ Q lam, Spectral (target opt.gram (M t)) Q lam →
            value ≤ value' ∧ value' ≤ z ⬝ᵥ (matrixFunction (fun x => Real.exp (c * x)) Q lam *ᵥ z) := by
  obtain ⟨e, e', h1, h1', h3⟩ := finer_samples (f := f) hfin hr hop hn hz hpar hconv hest hest' hja hjb hja' hjb'
  refine ⟨e, e', h1, h1', fun j hj t ht hc => ?_⟩
  obtain ⟨value, value', hv, hv', h4⟩ := h3 j hj t ht hc
  refine ⟨value, value', hv, hv', fun Q lam hQ => ?_⟩
  haveI : Nonempty (Fin n) := ⟨⟨0, hn⟩⟩
  obtain ⟨i0, hi0⟩ := Finite.exists_min lam
  obtain ⟨i1, hi1⟩ := Finite.exists_max lam
  obtain ⟨k, l, th, tau, et, mu, hr1, hr2, rfl, rfl⟩ := h4 Q lam (lam i0) (lam i1) hQ fun i => ⟨hi0 i, hi1 i⟩
  have hzz : 0 ≤ z ⬝ᵥ z := Finset.sum_nonneg fun i _ => mul_self_nonneg (z i)
  have hder : ∀ (i : ℕ) (x : ℝ), HasDerivAt (fun x => c ^ i * Real.exp (c * x)) (c ^ (i + 1) * Real.exp (c * x)) x := fun i x => by
    have := (((hasDerivAt_id x).const_mul c).exp).const_mul (c ^ i)
    refine this.congr_deriv ?_
    simp only [id]
    ring
  have hpos : ∀ (i : ℕ) (x : ℝ), 0 ≤ c ^ (2 * i) * Real.exp (c * x) := fun i x =>
    mul_nonneg (Even.pow_nonneg (even_two_mul _) _) (Real.exp_pos _).le
  have e1 := hr1.le_of_deriv (F := fun i x => c ^ i * Real.exp (c * x)) (fun i _ x _ => hder i x) fun x _ => hpos _ x
  have e2 := hr2.le_of_deriv (F := fun i x => c ^ i * Real.exp (c * x)) (fun i _ x _ => hder i x) fun x _ => hpos _ x
  simp only [pow_zero, one_mul] at e1 e2
  rw [matrixFunction_form, funext hf]
  refine ⟨mul_le_mul_of_nonneg_left e1 hzz, ?_⟩
  rwa [wsum_scaled] at e2

/-! ### Non-vacuity -/

/-- `tr A⁻¹` of `diag(1, 4)` with one and with three steps: the sample grows, and stays below `5 / 4`. -/
example : ∃ value value', slqSample someExternal ⟨false, 1, 2, 1, 1/100⟩ (oneAndOp 4) (fun x => x⁻¹) #[0] 1 ![1, -1]
      #[0] #[0] #[false] #[0] = .ok (#[false], #[value]) ∧
    slqSample someExternal ⟨false, 1, 2, 3, 1/100⟩ (oneAndOp 4) (fun x => x⁻¹) #[0] 1 ![1, -1]
      (Array.replicate 3 0) (Array.replicate 3 0) #[false] #[0] = .ok (#[false], #[value']) ∧
    value ≤ value' ∧ value' ≤ 5 / 4 := by
  have hr1 : ExactRun someExternal ⟨false, 1, 2, 1, 1/100⟩ (oneAndOp 4) (fun _ => oneAnd 4) #[0] := by
    obtain ⟨h1, h2, h3, h4, h5, h6, h7⟩ := oneAnd_run 4
    exact ⟨h1, h2, h3, h4, fun h => absurd h (by simp), h6, by norm_num⟩
  obtain ⟨e, e', h1, h1', h3⟩ := slq_traceinv_finer (ext := someExternal) (opt := ⟨false, 1, 2, 1, 1/100⟩)
    (opt' := ⟨false, 1, 2, 3, 1/100⟩) (z := ![1, -1])
    ⟨rfl, rfl, by norm_num, by norm_num, le_rfl⟩ hr1 (Or.inl rfl) (by norm_num)
    (by intro i; fin_cases i <;> simp) (num := 1) (converged := #[false]) (estimate := #[0]) (estimate' := #[0])
    (junkAlpha := #[0]) (junkBeta := #[0]) (junkAlpha' := Array.replicate 3 0) (junkBeta' := Array.replicate 3 0) rfl rfl rfl rfl rfl rfl
    (by simp) (by simp) (f := fun x => x⁻¹) (fun x _ => by simp [someExternal])
  obtain ⟨v, v', hv, hv', h4⟩ := h3 0 (by norm_num) 0 rfl rfl
  have h5 := h4 1 ![1, 4] (oneAnd_spectral 4) (by intro i; fin_cases i <;> norm_num)
  rw [show target false (oneAnd 4) = oneAnd 4 from rfl, oneAnd_inv_form] at h5
  obtain ⟨e2, g1, g2, -⟩ := slqSample_rule (f := fun x : ℝ => x⁻¹) (z := ![1, -1]) hr1 (Or.inl rfl) (by norm_num)
    (by intro i; fin_cases i <;> simp) (num := 1) (converged := #[false]) (estimate := #[0]) (junkAlpha := #[0]) (junkBeta := #[0])
    rfl rfl rfl rfl rfl
  obtain ⟨e2', g1', g2', -⟩ := slqSample_rule (f := fun x : ℝ => x⁻¹) (z := ![1, -1]) (oneAnd_run 4) (Or.inl rfl) (by norm_num)
    (by intro i; fin_cases i <;> simp) (num := 1) (converged := #[false]) (estimate := #[0])
    (junkAlpha := Array.replicate 3 0) (junkBeta := Array.replicate 3 0) rfl rfl rfl (by simp) (by simp)
  rw [h1] at g1
  rw [h1'] at g1'
  obtain rfl : e = e2 := by simpa using g1
  obtain rfl : e' = e2' := by simpa using g1'
  obtain ⟨w, rfl⟩ := Array.size_eq_one_iff.1 g2
  obtain ⟨w', rfl⟩ := Array.size_eq_one_iff.1 g2'
  obtain rfl : w = v := by simpa using hv
  obtain rfl : w' = v' := by simpa using hv'
  exact ⟨w, w', h1, h1', h5⟩

end Imate.Props
