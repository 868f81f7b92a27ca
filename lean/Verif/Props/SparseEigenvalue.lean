import Verif.Spec.SparseEigenvalue
import Verif.Props.LogdetEigenvalue
import Verif.Lemmas.InterpolatorNorm
import Mathlib.Analysis.Normed.Algebra.MatrixExponential
import Mathlib.Analysis.Real.Pi.Bounds

/-!
# C106: the eigenvalue method of sparse matrices; more cases of C55
-/

namespace Imate.Props

open Imate.Hutchinson Imate.Direct Imate.Eigen Imate.Spec Matrix

variable {n m : ℕ} {lib : Eigen.Lib}

/-! ### The largest terms of a sum -/

/-- The largest terms make up their share of a sum. -/
theorem share_of_largest {α : Type} {l s : Multiset α} {g : α → ℝ} (hs : ∀ y ∈ s, 0 ≤ g y)
    (h : ∀ x ∈ l, ∀ y ∈ s, g y ≤ g x) :
    (l.map g).sum ≤ ((l + s).map g).sum ∧ Multiset.card l * ((l + s).map g).sum ≤ Multiset.card (l + s) * (l.map g).sum := by
  rw [Multiset.map_add, Multiset.sum_add, Multiset.card_add]
  have h0 : 0 ≤ (s.map g).sum := Multiset.sum_nonneg (by simpa using hs)
  refine ⟨by linarith, ?_⟩
  have h1 : ∀ y ∈ s, Multiset.card l * g y ≤ (l.map g).sum := fun y hy => by
    have := Multiset.card_nsmul_le_sum (s := l.map g) (a := g y) (by
      intro x hx
      obtain ⟨x', hx', rfl⟩ := Multiset.mem_map.1 hx
      exact h x' hx' y hy)
    simpa using this
  have h2 : Multiset.card l * (s.map g).sum ≤ Multiset.card s * (l.map g).sum := by
    have := Multiset.sum_le_card_nsmul (s.map fun y => Multiset.card l * g y) (l.map g).sum (by
      intro x hx
      obtain ⟨y, hy, rfl⟩ := Multiset.mem_map.1 hx
      exact h1 y hy)
    rw [Multiset.sum_map_mul_left] at this
    simpa using this
  push_cast
  linarith

theorem card_realEigenvalues {M : Matrix (Fin n) (Fin n) ℝ} (hM : M.IsSymm) : Multiset.card (realEigenvalues M) = n := by
  unfold realEigenvalues
  rw [Matrix.IsHermitian.roots_charpoly_eq_eigenvalues (A := M) hM]
  simp

/-! ### Symmetric matrices -/

theorem eigenTrace_sparse (hlib : EigSpec lib) (hend : EndSpec lib) {A : Array2 ℝ} (hA : A.isSparse = true)
    {M : Matrix (Fin n) (Fin n) ℝ} (hv : A.value = square M) (hM : M.IsSymm) {f : Scalar} {w : Which} {g : ℝ → ℝ}
    (hf : ∀ x ∈ realEigenvalues M, f.onReal x = some (g x))
    {st : Settings} (hq : ValidFraction st) (hg : st.gram = false) (hs : st.sym = true) {t : Option ℝ}
    (h : eigenTrace lib f w A none st = .ok t) :
    ∃ l s : Multiset ℝ, l + s = realEigenvalues M ∧ Multiset.card l = ⌊(n : ℚ) * st.fraction⌋.toNat ∧
      AtEnd w (fun x => |x|) l s ∧ t = some (l.map g).sum := by
  unfold eigenTrace at h
  have h1 : checkSizes A none st.gram = .ok () := checkSquare_square hv _
  rw [h1, Except.ok_bind', checkFraction_ok hq.1 hq.2, Except.ok_bind'] at h
  unfold chooseEigenvalues computeEigenvalues plainEigenvalues at h
  simp only [hg, hs, hA, if_true, Bool.false_eq_true, if_false] at h
  rw [hv, Eigen.withSquare_square] at h
  cases hl : lib.eigsh w (numNonZero (square M).rows st.fraction) n M with
  | error e => rw [hl] at h; cases h
  | ok l =>
    rw [hl, Except.ok_bind', Except.ok_bind'] at h
    obtain ⟨h2, -⟩ := hlib.eigsh_ok _ _ _ _ _ hl
    obtain ⟨s, h3, h4⟩ := hend.eigsh_end _ _ _ _ _ hl
    rw [lowerSymm_of_isSymm hM] at h3
    unfold sumScalar at h
    simp only at h
    rw [filterMap_padded, sumOpt_congr (g := g)] at h
    · cases h
      exact ⟨l, s, h3, by rw [Multiset.coe_card, h2]; rfl, h4, rfl⟩
    · intro x hx
      exact hf x (by rw [← h3]; exact Multiset.mem_add.2 (Or.inl hx))

/-- The share of the exact value that is found, if the terms at the wanted end are the largest. -/
theorem sparse_share (hlib : EigSpec lib) (hend : EndSpec lib) {A : Array2 ℝ} (hA : A.isSparse = true)
    {M : Matrix (Fin n) (Fin n) ℝ} (hv : A.value = square M) (hM : M.PosDef) {f : Scalar} {w : Which} {g : ℝ → ℝ}
    (hf : ∀ x, 0 < x → f.onReal x = some (g x)) (hg0 : ∀ x, 0 < x → 0 ≤ g x)
    (hw : (w = .largest ∧ ∀ x y, 0 < x → x ≤ y → g x ≤ g y) ∨ (w = .smallest ∧ ∀ x y, 0 < x → x ≤ y → g y ≤ g x))
    {st : Settings} (hq : ValidFraction st) (hg : st.gram = false) (hs : st.sym = true) {t : Option ℝ}
    (h : eigenTrace lib f w A none st = .ok t) :
    ∃ x, t = some x ∧ x ≤ (cfc g M).trace ∧ (⌊(n : ℚ) * st.fraction⌋.toNat : ℝ) * (cfc g M).trace ≤ n * x := by
  have hM' := isSymm_of_posDef hM
  obtain ⟨l, s, h1, h2, h3, rfl⟩ := eigenTrace_sparse hlib hend hA hv hM'
    (fun x hx => hf x (posDef_eigenvalues hM hx)) hq hg hs h
  refine ⟨_, rfl, ?_⟩
  have hpos : ∀ x ∈ l + s, 0 < x := fun x hx => posDef_eigenvalues hM (by rwa [← h1])
  have hl : ∀ x ∈ l, 0 < x := fun x hx => hpos x (Multiset.mem_add.2 (Or.inl hx))
  have hs : ∀ x ∈ s, 0 < x := fun x hx => hpos x (Multiset.mem_add.2 (Or.inr hx))
  have e1 : (cfc g M).trace = ((l + s).map g).sum := by
    rw [trace_cfc hM.1, h1]
    rfl
  have e2 : Multiset.card (l + s) = n := by rw [h1, card_realEigenvalues hM']
  have := share_of_largest (l := l) (s := s) (g := g) (fun y hy => hg0 y (hs y hy)) (fun x hx y hy => by
    rcases hw with ⟨rfl, hw⟩ | ⟨rfl, hw⟩
    · have := h3 x hx y hy
      simp only [abs_of_pos (hl x hx), abs_of_pos (hs y hy)] at this
      exact hw y x (hs y hy) this
    · have := h3 x hx y hy
      simp only [abs_of_pos (hl x hx), abs_of_pos (hs y hy)] at this
      exact hw x y (hl x hx) this)
  rw [e1, ← h2]
  rwa [e2] at this

/-- C106, `trace`, for every positive definite matrix and real exponent: the result is at most the trace, and at least the
fraction of it that the number of eigenvalues is of all eigenvalues. -/
theorem sparse_trace_share (hlib : EigSpec lib) (hend : EndSpec lib) {A : Array2 ℝ} (hA : A.isSparse = true)
    {M : Matrix (Fin n) (Fin n) ℝ} (hv : A.value = square M) (hM : M.PosDef) (p : ℝ)
    {st : Settings} (hq : ValidFraction st) (hg : st.gram = false) (hs : st.sym = true) {t : Option ℝ}
    (h : traceEigenvalue lib A p none st = .ok t) :
    ∃ x, t = some x ∧ x ≤ (cfc (fun x : ℝ => x ^ p) M).trace ∧
      (⌊(n : ℚ) * st.fraction⌋.toNat : ℝ) * (cfc (fun x : ℝ => x ^ p) M).trace ≤ n * x := by
  refine sparse_share hlib hend hA hv hM (fun x hx => by simp only [traceScalar, powR_pos hx])
    (fun x hx => (Real.rpow_pos_of_pos hx p).le) ?_ hq hg hs h
  by_cases hp : 0 ≤ p
  · exact Or.inl ⟨by unfold whichFor; rw [if_pos hp], fun x y hx hxy => Real.rpow_le_rpow hx.le hxy hp⟩
  · exact Or.inr ⟨by unfold whichFor; rw [if_neg hp], fun x y hx hxy =>
      Real.rpow_le_rpow_of_nonpos hx hxy (not_le.1 hp).le⟩

/-- C106, `traceinv`. -/
theorem sparse_traceinv_share (hlib : EigSpec lib) (hend : EndSpec lib) {A : Array2 ℝ} (hA : A.isSparse = true)
    {M : Matrix (Fin n) (Fin n) ℝ} (hv : A.value = square M) (hM : M.PosDef) (p : ℝ)
    {st : Settings} (hq : ValidFraction st) (hg : st.gram = false) (hs : st.sym = true) {t : Option ℝ}
    (h : traceinvEigenvalue lib A p none st = .ok t) :
    ∃ x, t = some x ∧ x ≤ (cfc (fun x : ℝ => x ^ (-p)) M).trace ∧
      (⌊(n : ℚ) * st.fraction⌋.toNat : ℝ) * (cfc (fun x : ℝ => x ^ (-p)) M).trace ≤ n * x := by
  refine sparse_share hlib hend hA hv hM (fun x hx => by
    simp only [traceinvScalar, powR_pos hx]
    rw [if_neg (Real.rpow_pos_of_pos hx p).ne', Real.rpow_neg hx.le, one_div])
    (fun x hx => (Real.rpow_pos_of_pos hx (-p)).le) ?_ hq hg hs h
  by_cases hp : 0 ≤ p
  · exact Or.inr ⟨by unfold whichForInverse; rw [if_pos hp], fun x y hx hxy =>
      Real.rpow_le_rpow_of_nonpos hx hxy (by linarith)⟩
  · exact Or.inl ⟨by unfold whichForInverse; rw [if_neg hp], fun x y hx hxy =>
      Real.rpow_le_rpow hx.le hxy (by linarith [not_le.1 hp])⟩

/-- C106, `trexp`, for every coefficient and exponent. -/
theorem sparse_trexp_share (hlib : EigSpec lib) (hend : EndSpec lib) {A : Array2 ℝ} (hA : A.isSparse = true)
    {M : Matrix (Fin n) (Fin n) ℝ} (hv : A.value = square M) (hM : M.PosDef) (c p : ℝ)
    {st : Settings} (hq : ValidFraction st) (hg : st.gram = false) (hs : st.sym = true) {t : Option ℝ}
    (h : trexpEigenvalue lib A c p none st = .ok t) :
    ∃ x, t = some x ∧ x ≤ (cfc (fun x : ℝ => Real.exp (c * x ^ p)) M).trace ∧
      (⌊(n : ℚ) * st.fraction⌋.toNat : ℝ) * (cfc (fun x : ℝ => Real.exp (c * x ^ p)) M).trace ≤ n * x := by
  refine sparse_share hlib hend hA hv hM (fun x hx => by simp only [trexpScalar, powR_pos hx])
    (fun x hx => (Real.exp_pos _).le) ?_ hq hg hs h
  by_cases hcp : 0 ≤ c * p
  · refine Or.inl ⟨by unfold whichFor; rw [if_pos hcp], fun x y hx hxy => Real.exp_le_exp.2 ?_⟩
    rcases le_or_gt 0 c with hc | hc
    · rcases hc.eq_or_lt with rfl | hc
      · simp
      · exact mul_le_mul_of_nonneg_left (Real.rpow_le_rpow hx.le hxy (nonneg_of_mul_nonneg_right hcp hc)) hc.le
    · exact mul_le_mul_of_nonpos_left (Real.rpow_le_rpow_of_nonpos hx hxy (by
        by_contra hp
        have := mul_neg_of_neg_of_pos hc (not_le.1 hp)
        linarith)) hc.le
  · have hcp := not_le.1 hcp
    refine Or.inr ⟨by unfold whichFor; rw [if_neg hcp.not_ge], fun x y hx hxy => Real.exp_le_exp.2 ?_⟩
    rcases mul_neg_iff.1 hcp with ⟨hc, hp⟩ | ⟨hc, hp⟩
    · exact mul_le_mul_of_nonneg_left (Real.rpow_le_rpow_of_nonpos hx hxy hp.le) hc.le
    · exact mul_le_mul_of_nonpos_left (Real.rpow_le_rpow hx.le hxy hp.le) hc.le

/-! ### General matrices -/

theorem eigenTrace_sparse_general (hlib : EigSpec lib) (hend : EndSpec lib) {A : Array2 ℝ} (hA : A.isSparse = true)
    {M : Matrix (Fin n) (Fin n) ℝ} (hv : A.value = square M) {L : Multiset ℝ} (hL : complexEigenvalues M = L.map (↑))
    {f : Scalar} {w : Which} {g : ℝ → ℝ} (hf : ∀ x ∈ L, f.onComplex x = some ((g x : ℝ) : ℂ))
    {st : Settings} (hq : ValidFraction st) (hg : st.gram = false) (hs : st.sym = false) {t : Option ℝ}
    (h : eigenTrace lib f w A none st = .ok t) :
    ∃ l s : Multiset ℝ, l + s = L ∧ Multiset.card l = ⌊(n : ℚ) * st.fraction⌋.toNat ∧
      AtEnd w (fun x => |x|) l s ∧ t = some (l.map g).sum := by
  unfold eigenTrace at h
  have h1 : checkSizes A none st.gram = .ok () := checkSquare_square hv _
  rw [h1, Except.ok_bind', checkFraction_ok hq.1 hq.2, Except.ok_bind'] at h
  unfold chooseEigenvalues computeEigenvalues plainEigenvalues at h
  simp only [hg, hs, hA, if_true, Bool.false_eq_true, if_false] at h
  rw [hv, Eigen.withSquare_square] at h
  cases hl : lib.eigs w (numNonZero (square M).rows st.fraction) n M with
  | error e => rw [hl] at h; cases h
  | ok l =>
    rw [hl, Except.ok_bind', Except.ok_bind'] at h
    obtain ⟨h2, -⟩ := hlib.eigs_ok _ _ _ _ _ hl
    obtain ⟨s, h3, h4⟩ := hend.eigs_end _ _ _ _ _ hl
    rw [hL] at h3
    have hre : ∀ z ∈ (l : Multiset ℂ) + s, ∃ x ∈ L, (x : ℂ) = z := fun z hz => by
      rw [h3] at hz
      exact Multiset.mem_map.1 hz
    have back : ∀ u : Multiset ℂ, u ≤ (l : Multiset ℂ) + s → (u.map Complex.re).map (fun x : ℝ => (x : ℂ)) = u := fun u hu => by
      rw [Multiset.map_map]
      conv_rhs => rw [← Multiset.map_id u]
      refine Multiset.map_congr rfl fun z hz => ?_
      obtain ⟨x, -, rfl⟩ := hre z (Multiset.mem_of_le hu hz)
      simp
    have hlb := back _ (Multiset.le_add_right (l : Multiset ℂ) s)
    have hsb := back _ (Multiset.le_add_left s (l : Multiset ℂ))
    have hadd : (l : Multiset ℂ).map Complex.re + s.map Complex.re = L := by
      rw [← Multiset.map_add, h3, Multiset.map_map]
      simp
    unfold sumScalar at h
    simp only at h
    rw [filterMap_padded, sumOpt_congr (g := fun z => ((g z.re : ℝ) : ℂ))] at h
    · have e1 : ((l : Multiset ℂ).map fun z => ((g z.re : ℝ) : ℂ)).sum = ((((l : Multiset ℂ).map Complex.re).map g).sum : ℝ) := by
        rw [Multiset.map_map]
        have := map_multiset_sum Complex.ofRealHom ((l : Multiset ℂ).map (g ∘ Complex.re))
        rw [Multiset.map_map] at this
        exact this.symm
      rw [e1, realPart_real (angleTol_nonneg _ _)] at h
      cases h
      refine ⟨_, _, hadd, by rw [Multiset.card_map, Multiset.coe_card, h2]; rfl, ?_, rfl⟩
      have hn : ∀ z ∈ (l : Multiset ℂ) + s, ‖z‖ = |z.re| := fun z hz => by
        obtain ⟨x, -, rfl⟩ := hre z hz
        simp
      unfold AtEnd at h4 ⊢
      cases w with
      | largest =>
        intro x hx y hy
        obtain ⟨a, ha, rfl⟩ := Multiset.mem_map.1 hx
        obtain ⟨b, hb, rfl⟩ := Multiset.mem_map.1 hy
        have := h4 a ha b hb
        simp only at this
        rwa [hn a (Multiset.mem_add.2 (Or.inl ha)), hn b (Multiset.mem_add.2 (Or.inr hb))] at this
      | smallest =>
        intro x hx y hy
        obtain ⟨a, ha, rfl⟩ := Multiset.mem_map.1 hx
        obtain ⟨b, hb, rfl⟩ := Multiset.mem_map.1 hy
        have := h4 a ha b hb
        simp only at this
        rwa [hn a (Multiset.mem_add.2 (Or.inl ha)), hn b (Multiset.mem_add.2 (Or.inr hb))] at this
      | bothEnds => trivial
    · intro z hz
      obtain ⟨x, hx, rfl⟩ := hre z (Multiset.mem_add.2 (Or.inl hz))
      simpa using hf x hx

/-- C106 for matrices that are not symmetric, but have positive eigenvalues, and integer exponents. -/
theorem sparse_trace_share_general (hlib : EigSpec lib) (hend : EndSpec lib) {A : Array2 ℝ} (hA : A.isSparse = true)
    {M : Matrix (Fin n) (Fin n) ℝ} (hv : A.value = square M) {L : Multiset ℝ} (hL : complexEigenvalues M = L.map (↑))
    (hpos : ∀ x ∈ L, 0 < x) (j : ℤ)
    {st : Settings} (hq : ValidFraction st) (hg : st.gram = false) (hs : st.sym = false) {t : Option ℝ}
    (h : traceEigenvalue lib A j none st = .ok t) :
    ∃ x, t = some x ∧ x ≤ (M ^ j).trace ∧ (⌊(n : ℚ) * st.fraction⌋.toNat : ℝ) * (M ^ j).trace ≤ n * x := by
  have h0 : ∀ x ∈ L, (x : ℂ) ≠ 0 := fun x hx => by exact_mod_cast (hpos x hx).ne'
  obtain ⟨l, s, h1, h2, h3, rfl⟩ := eigenTrace_sparse_general (g := fun x => x ^ j) hlib hend hA hv hL (fun x hx => by
    simp only [traceScalar, powC_intCast (h0 x hx)]
    push_cast
    rfl) hq hg hs h
  refine ⟨_, rfl, ?_⟩
  have hl : ∀ x ∈ l, 0 < x := fun x hx => hpos x (by rw [← h1]; exact Multiset.mem_add.2 (Or.inl hx))
  have hs : ∀ x ∈ s, 0 < x := fun x hx => hpos x (by rw [← h1]; exact Multiset.mem_add.2 (Or.inr hx))
  have hdet : IsUnit M.det := by
    rw [isUnit_iff_ne_zero]
    intro hd
    have := det_eq_prod_eigenvalues M
    rw [hd, hL] at this
    have h5 := Multiset.prod_eq_zero_iff.1 (this.trans (by simp))
    obtain ⟨x, hx, hx0⟩ := Multiset.mem_map.1 h5
    exact h0 x hx hx0
  have e1 : (M ^ j).trace = ((l + s).map fun x => x ^ j).sum := by
    have := sum_eigenvalues_zpow hdet j
    rw [hL, Multiset.map_map, ← h1] at this
    have e3 := map_multiset_sum Complex.ofRealHom ((l + s).map fun x => x ^ j)
    rw [Multiset.map_map] at e3
    have e4 : (((((l + s).map fun x : ℝ => x ^ j).sum : ℝ)) : ℂ) = ((M ^ j).trace : ℝ) := by
      rw [← this]
      refine e3.trans ?_
      congr 1
      refine Multiset.map_congr rfl fun x _ => ?_
      simp
    exact_mod_cast e4.symm
  have e2 : Multiset.card (l + s) = n := by
    rw [h1, ← Multiset.card_map (fun x : ℝ => (x : ℂ)), ← hL]
    unfold complexEigenvalues
    rw [← (IsAlgClosed.splits _).natDegree_eq_card_roots, charpoly_natDegree_eq_dim, Fintype.card_fin]
  have := share_of_largest (l := l) (s := s) (g := fun x => x ^ j) (fun y hy => (zpow_pos (hs y hy) j).le) (fun x hx y hy => by
    by_cases hj : (0 : ℝ) ≤ j
    · rw [show whichFor j = .largest by unfold whichFor; rw [if_pos hj]] at h3
      have := h3 x hx y hy
      simp only [abs_of_pos (hl x hx), abs_of_pos (hs y hy)] at this
      have hj' : (0 : ℤ) ≤ j := by exact_mod_cast hj
      obtain ⟨i, rfl⟩ : ∃ i : ℕ, j = i := ⟨j.toNat, by omega⟩
      simpa using pow_le_pow_left₀ (hs y hy).le this i
    · rw [show whichFor j = .smallest by unfold whichFor; rw [if_neg hj]] at h3
      have := h3 x hx y hy
      simp only [abs_of_pos (hl x hx), abs_of_pos (hs y hy)] at this
      have hj' : ¬ (0 : ℤ) ≤ j := by exact_mod_cast hj
      obtain ⟨i, rfl⟩ : ∃ i : ℕ, j = -i := ⟨(-j).toNat, by omega⟩
      simp only [_root_.zpow_neg, zpow_natCast]
      exact inv_anti₀ (pow_pos (hl x hx) i) (pow_le_pow_left₀ (hl x hx).le this i))
  rw [e1, ← h2]
  rwa [e2] at this

/-- The test that the sum is real does nothing for sparse matrices that are not symmetric with more than 314 rows: whatever
complex numbers ARPACK returns, the real part of the sum is returned. -/
theorem sparse_sum_never_rejected {A : Array2 ℝ} (hA : A.isSparse = true)
    {M : Matrix (Fin n) (Fin n) ℝ} (hv : A.value = square M) (hn : 315 ≤ n) {f : Scalar} {w : Which} {g : ℂ → ℂ}
    {st : Settings} (hq : ValidFraction st) (hg : st.gram = false) (hs : st.sym = false) {l : List ℂ}
    (hl : lib.eigs w ⌊(n : ℚ) * st.fraction⌋.toNat n M = .ok l) (hf : ∀ z ∈ l, f.onComplex z = some (g z)) :
    eigenTrace lib f w A none st = .ok (some ((l.map g).sum).re) := by
  unfold eigenTrace
  have h1 : checkSizes A none st.gram = .ok () := checkSquare_square hv _
  rw [h1, Except.ok_bind', checkFraction_ok hq.1 hq.2, Except.ok_bind']
  unfold chooseEigenvalues computeEigenvalues plainEigenvalues
  simp only [hg, hs, hA, if_true, Bool.false_eq_true, if_false]
  have e1 : numNonZero (square M).rows st.fraction = ⌊(n : ℚ) * st.fraction⌋.toNat := rfl
  rw [hv, Eigen.withSquare_square, e1, hl, Except.ok_bind', Except.ok_bind']
  unfold sumScalar
  simp only
  rw [filterMap_padded, sumOpt_congr hf]
  unfold Eigen.realPart angleTol
  simp only [hA, hs]
  rw [if_neg]
  · simp
  · rw [if_pos (by rfl), not_lt]
    have h2 : abs (modPi (abs (Complex.arg ((l : Multiset ℂ).map g).sum))) ≤ Real.pi := by
      unfold modPi
      set x := abs (Complex.arg ((l : Multiset ℂ).map g).sum)
      have hpi := Real.pi_pos
      have k1 := Int.floor_le (x / Real.pi)
      have k2 := Int.lt_floor_add_one (x / Real.pi)
      rw [le_div_iff₀ hpi] at k1
      rw [div_lt_iff₀ hpi] at k2
      rw [abs_le]
      constructor <;> nlinarith
    have h3 : (315 : ℝ) ≤ (square M).rows := by exact_mod_cast hn
    have h4 := Real.pi_lt_d2
    refine h2.trans ?_
    norm_num at h4 ⊢
    linarith

/-! ### Gramians -/

/-- C106, `trace` with `gram=True`, for every matrix of any shape and positive exponent. -/
theorem sparse_trace_share_gram (hlib : EigSpec lib) (hend : EndSpec lib) {A : Array2 ℝ} (hA : A.isSparse = true)
    {M : Matrix (Fin m) (Fin n) ℝ} (hv : A.value = ⟨m, n, M⟩) {p : ℝ} (hp : 0 < p)
    {st : Settings} (hq : ValidFraction st) (hg : st.gram = true) {t : Option ℝ}
    (h : traceEigenvalue lib A p none st = .ok t) :
    ∃ x, t = some x ∧ x ≤ (cfc (fun x : ℝ => x ^ p) (Mᵀ * M)).trace ∧
      (⌊(m : ℚ) * st.fraction⌋.toNat : ℝ) * (cfc (fun x : ℝ => x ^ p) (Mᵀ * M)).trace ≤ n * x := by
  unfold traceEigenvalue eigenTrace at h
  have h1 : checkSizes A none st.gram = .ok () := by
    unfold checkSizes
    simp only
    rw [hg]
    exact checkSquare_gram _
  rw [h1, Except.ok_bind', checkFraction_ok hq.1 hq.2, Except.ok_bind'] at h
  unfold chooseEigenvalues computeEigenvalues gramEigenvalues at h
  simp only [hg, hA, if_true] at h
  rw [hv] at h
  have hw : whichFor p = .largest := by unfold whichFor; rw [if_pos hp.le]
  rw [hw] at h
  cases hl : lib.svds .largest (numNonZero m st.fraction) m n M with
  | error e => simp only [hl] at h; cases h
  | ok l =>
    simp only [hl] at h
    rw [Except.ok_bind', Except.ok_bind'] at h
    obtain ⟨h2, -, -⟩ := hlib.svds_ok _ _ _ _ _ _ hl
    obtain ⟨s, h3, h4⟩ := hend.svds_end _ _ _ _ _ _ hl
    have h4 := h4 (Or.inr rfl)
    unfold sumScalar at h
    simp only at h
    have hpos : ∀ x ∈ ((l.map (· ^ 2) : List ℝ) : Multiset ℝ) + s, 0 ≤ x := fun x hx => gram_eigenvalues (by rwa [← h3])
    rw [filterMap_padded, sumOpt_congr (g := fun x => x ^ p)] at h
    · cases h
      refine ⟨_, rfl, ?_⟩
      have e1 : (cfc (fun x : ℝ => x ^ p) (Mᵀ * M)).trace =
          ((((l.map (· ^ 2) : List ℝ) : Multiset ℝ) + s).map fun x => x ^ p).sum := by
        rw [trace_cfc (A := Mᵀ * M) (gram_symm M), h3]
        rfl
      have e2 : Multiset.card (((l.map (· ^ 2) : List ℝ) : Multiset ℝ) + s) = n := by
        rw [h3, card_realEigenvalues (gram_symm M)]
      have e3 : Multiset.card ((l.map (· ^ 2) : List ℝ) : Multiset ℝ) = ⌊(m : ℚ) * st.fraction⌋.toNat := by
        rw [Multiset.coe_card, List.length_map, h2]
        rfl
      have := share_of_largest (l := ((l.map (· ^ 2) : List ℝ) : Multiset ℝ)) (s := s) (g := fun x => x ^ p)
        (fun y hy => Real.rpow_nonneg (hpos y (Multiset.mem_add.2 (Or.inr hy))) p)
        (fun x hx y hy => Real.rpow_le_rpow (hpos y (Multiset.mem_add.2 (Or.inr hy))) (h4 x hx y hy) hp.le)
      rw [e1, ← e3]
      rwa [e2] at this
    · intro x hx
      simp only [traceScalar]
      rcases (hpos x (Multiset.mem_add.2 (Or.inl hx))).lt_or_eq with h | h
      · rw [powR_pos h]
      · rw [← h, Real.zero_rpow hp.ne']
        unfold powR
        rw [if_neg (lt_irrefl _), if_pos rfl, if_pos hp]

/-! ### The wrong end -/

theorem diagonal_eigenvalues : realEigenvalues (diagonal ![(1 : ℝ), 2]) = {1, 2} := by
  unfold realEigenvalues
  rw [Imate.Interp.roots_diagonal]
  rfl

theorem one_of_two {l s : Multiset ℝ} (h : l + s = {1, 2}) (hc : Multiset.card l = 1) (h3 : AtEnd .largest (fun x => |x|) l s) :
    l = {2} := by
  obtain ⟨x, rfl⟩ := Multiset.card_eq_one.1 hc
  have hx : x ∈ ({1, 2} : Multiset ℝ) := by rw [← h]; exact Multiset.mem_add.2 (Or.inl (Multiset.mem_singleton_self x))
  rcases Multiset.mem_cons.1 hx with rfl | hx
  · have h2 : (2 : ℝ) ∈ s := by
      have : (2 : ℝ) ∈ ({1} : Multiset ℝ) + s := by rw [h]; simp
      rcases Multiset.mem_add.1 this with h4 | h4
      · norm_num at h4
      · exact h4
    have := h3 1 (Multiset.mem_singleton_self _) 2 h2
    norm_num at this
  · rw [Multiset.mem_singleton.1 hx]

/-- C106 fails for `trlinfrac`, which does not look at its coefficients: with `1 / lambda` and half of the eigenvalues it uses the
large eigenvalues, whose terms are the small ones. -/
theorem sparse_trlinfrac_wrong_end (hlib : EigSpec lib) (hend : EndSpec lib) {A : Array2 ℝ} (hA : A.isSparse = true)
    (hv : A.value = square (diagonal ![(1 : ℝ), 2])) {st : Settings} (hf : st.fraction = 1 / 2) (hg : st.gram = false)
    (hs : st.sym = true) {t : Option ℝ} (h : trlinfracEigenvalue lib A 0 1 1 0 1 none st = .ok t) :
    t = some (1 / 2) ∧ (diagonal ![(1 : ℝ), 2])⁻¹.trace = 3 / 2 ∧
      (⌊((2 : ℕ) : ℚ) * st.fraction⌋.toNat : ℝ) * (3 / 2) > (2 : ℕ) * (1 / 2) := by
  have hk : ⌊((2 : ℕ) : ℚ) * st.fraction⌋.toNat = 1 := by rw [hf]; norm_num
  have hw : whichFor 1 = .largest := by unfold whichFor; rw [if_pos (by norm_num)]
  unfold trlinfracEigenvalue at h
  rw [hw] at h
  obtain ⟨l, s, h1, h2, h3, rfl⟩ := eigenTrace_sparse (g := fun x => 1 / x) hlib hend hA hv (diagonal_transpose _)
    (fun x hx => by
      rw [diagonal_eigenvalues] at hx
      have hx0 : 0 < x := by
        rcases Multiset.mem_cons.1 hx with rfl | hx
        · norm_num
        · rw [Multiset.mem_singleton.1 hx]; norm_num
      simp only [trlinfracScalar, powR_pos hx0, Real.rpow_one]
      rw [if_neg (by simpa using hx0.ne')]
      simp) ⟨by rw [hf]; norm_num, by rw [hf]; norm_num⟩ hg hs h
  rw [diagonal_eigenvalues] at h1
  rw [hk] at h2
  rw [one_of_two h1 h2 h3, hk]
  refine ⟨by simp, ?_, by norm_num⟩
  have e : (diagonal ![(1 : ℝ), 2])⁻¹ = diagonal ![1, 1 / 2] := by
    refine inv_eq_right_inv ?_
    rw [diagonal_mul_diagonal, ← diagonal_one]
    congr 1
    funext i
    fin_cases i <;> norm_num
  rw [e, trace_diagonal, Fin.sum_univ_two]
  norm_num

/-! ### More dense matrices (C55) -/

/-- C55, `gram=True` for a symmetric matrix and `assume_matrix='sym'`. -/
theorem eigenTrace_gram_symmetric (hlib : EigSpec lib) {f : Scalar} {w : Which} {M : Matrix (Fin n) (Fin n) ℝ} (hM : M.IsSymm)
    {st : Settings} (hq : ValidFraction st) (hg : st.gram = true) (hs : st.sym = true)
    {g : ℝ → ℝ} (h : ∀ x, 0 ≤ x → f.onReal x = some (g x)) :
    eigenTrace lib f w (.dense (square M)) none st = .ok (some (cfc g (Mᵀ * M)).trace) := by
  unfold eigenTrace
  refine (dense_start (M := M) hq (Or.inr rfl) _).trans ?_
  have he := hlib.svdh_ok n M
  rw [lowerSymm_of_isSymm hM] at he
  have e1 : chooseEigenvalues lib w (.dense (square M)) none st = .ok (.real (((lib.svdh n M).map (· ^ 2)).map some)) := by
    unfold chooseEigenvalues computeEigenvalues gramEigenvalues denseSingular
    simp only [hg, hs, if_true]
    rw [if_neg (by simp [Array2.isSparse])]
    have := Eigen.withSquare_square (fun n A => Except.ok (ε := PyExc) (lib.svdh n A)) M
    rw [show (Array2.dense (square M)).value = square M from rfl, this, Except.ok_bind', List.map_map]
    rfl
  rw [e1, Except.ok_bind', eigenTrace_real (g := g)]
  · rw [← Multiset.map_coe, he, Multiset.map_map, Multiset.map_map]
    have e2 : Mᵀ * M = M ^ 2 := by rw [hM.eq, pow_two]
    have hM' : M.IsHermitian := hM
    have e3 := cfc_comp_pow (R := ℝ) g 2 M ((M.finite_real_spectrum.image _).continuousOn _) hM'
    have e4 : (cfc g (M ^ 2)).trace = (cfc (fun x => g (x ^ 2)) M).trace := congrArg Matrix.trace e3.symm
    rw [e2, e4, trace_cfc hM']
    congr 3
    refine Multiset.map_congr rfl fun x _ => ?_
    simp
  · intro x hx
    obtain ⟨y, -, rfl⟩ := List.mem_map.1 hx
    exact h _ (sq_nonneg y)

/-- C55, `trace` with `gram=True` and `assume_matrix='sym'`. -/
theorem trace_eigenvalue_gram_sym (hlib : EigSpec lib) {M : Matrix (Fin n) (Fin n) ℝ} (hM : M.IsSymm) {p : ℝ} (hp : 0 < p)
    {st : Settings} (hq : ValidFraction st) (hg : st.gram = true) (hs : st.sym = true) :
    traceEigenvalue lib (.dense (square M)) p none st = .ok (some (cfc (fun x : ℝ => x ^ p) (Mᵀ * M)).trace) := by
  refine eigenTrace_gram_symmetric hlib hM hq hg hs fun x hx => ?_
  simp only [traceScalar]
  rcases hx.lt_or_eq with h | h
  · rw [powR_pos h]
  · rw [← h, Real.zero_rpow hp.ne']
    unfold powR
    rw [if_neg (lt_irrefl _), if_pos rfl, if_pos hp]

/-- A matrix that is not square cannot be used with `gram=True` and `assume_matrix='sym'`. -/
theorem gram_sym_not_square (M : Matrix (Fin m) (Fin n) ℝ) (hmn : m ≠ n) {f : Scalar} {w : Which}
    {st : Settings} (hq : ValidFraction st) (hg : st.gram = true) (hs : st.sym = true) :
    eigenTrace lib f w (.dense ⟨m, n, M⟩) none st = .error .valueError := by
  unfold eigenTrace
  rw [dense_start (M := M) hq (Or.inl hg)]
  unfold chooseEigenvalues computeEigenvalues gramEigenvalues denseSingular Eigen.withSquare
  simp only [hg, hs, if_true]
  rw [if_neg (by simp [Array2.isSparse]), dif_neg (by exact hmn)]
  rfl

/-- C55, `trexp`, for every square matrix and natural exponent. -/
theorem trexp_eigenvalue_nat (hlib : EigSpec lib) (M : Matrix (Fin n) (Fin n) ℝ) (c : ℝ) (k : ℕ) {st : Settings}
    (hq : ValidFraction st) (hg : st.gram = false) (hs : st.sym = false) :
    trexpEigenvalue lib (.dense (square M)) c k none st = .ok (some (NormedSpace.exp (c • M ^ k)).trace) := by
  refine eigenTrace_general hlib hq hg hs (g := fun z => Complex.exp (c * z ^ k)) (fun z _ => ?_) ?_
  · simp only [trexpScalar, powC_natCast, Option.map_some]
  · let _ : NormedRing (Matrix (Fin n) (Fin n) ℝ) := Matrix.linftyOpNormedRing
    let _ : NormedAlgebra ℝ (Matrix (Fin n) (Fin n) ℝ) := Matrix.linftyOpNormedAlgebra
    have h1 := NormedSpace.exp_series_hasSum_exp' (𝕂 := ℝ) (c • M ^ k)
    have h2 := h1.mapL (LinearMap.toContinuousLinearMap (traceLinearMap (Fin n) ℝ ℝ))
    have h3 : HasSum (fun j : ℕ => ((((j.factorial : ℝ)⁻¹ • (c • M ^ k) ^ j).trace : ℝ) : ℂ))
        ((NormedSpace.exp (c • M ^ k)).trace : ℝ) := Complex.hasSum_ofReal.2 h2
    have h4 : ∀ l : List ℂ, HasSum (fun j : ℕ => (l.map fun z => (j.factorial : ℂ)⁻¹ * (c * z ^ k) ^ j).sum)
        (l.map fun z => Complex.exp (c * z ^ k)).sum := by
      intro l
      induction l with
      | nil => simpa using hasSum_zero
      | cons z l ih =>
        simp only [List.map_cons, List.sum_cons]
        refine HasSum.add ?_ ih
        have := NormedSpace.exp_series_hasSum_exp' (𝕂 := ℂ) (c * z ^ k)
        rw [← Complex.exp_eq_exp_ℂ] at this
        simpa using this
    have h5 := h4 (complexEigenvalues M).toList
    have e1 : ∀ g : ℂ → ℂ, ((complexEigenvalues M).toList.map g).sum = ((complexEigenvalues M).map g).sum := fun g => by
      conv_rhs => rw [← Multiset.coe_toList (complexEigenvalues M)]
      simp
    rw [e1] at h5
    refine HasSum.unique h5 ?_
    convert h3 using 2 with j
    rw [e1]
    have e2 : ((j.factorial : ℝ)⁻¹ • (c • M ^ k) ^ j).trace = (j.factorial : ℝ)⁻¹ * (c ^ j * (M ^ (k * j)).trace) := by
      rw [trace_smul, smul_pow, trace_smul, ← pow_mul]
      rfl
    rw [e2]
    push_cast
    rw [← sum_eigenvalues_pow, ← Multiset.sum_map_mul_left, ← Multiset.sum_map_mul_left]
    congr 1
    refine Multiset.map_congr rfl fun z _ => ?_
    rw [mul_pow, pow_mul]

/-! ### The assumptions can be met -/

theorem exists_end {α : Type} (w : Which) (size : α → ℝ) (S : Multiset α) (k : ℕ) (hk : k ≤ Multiset.card S) :
    ∃ l : List α, l.length = k ∧ ∃ s, (l : Multiset α) + s = S ∧ AtEnd w size (l : Multiset α) s := by
  classical
  induction k with
  | zero => exact ⟨[], rfl, S, by simp, by cases w <;> simp [AtEnd]⟩
  | succ k ih =>
    obtain ⟨l, h1, s, h2, h3⟩ := ih (by omega)
    have hs : s.toFinset.Nonempty := by
      rw [← h2, Multiset.card_add, Multiset.coe_card, h1] at hk
      obtain ⟨x, hx⟩ := Multiset.card_pos_iff_exists_mem.1 (show 0 < Multiset.card s by omega)
      exact ⟨x, Multiset.mem_toFinset.2 hx⟩
    obtain ⟨x, hx, hb⟩ : ∃ x ∈ s, ∀ y ∈ s, (w = .largest → size y ≤ size x) ∧ (w = .smallest → size x ≤ size y) := by
      cases w with
      | largest =>
        obtain ⟨x, hx, h⟩ := s.toFinset.exists_max_image size hs
        exact ⟨x, Multiset.mem_toFinset.1 hx, fun y hy => ⟨fun _ => h y (Multiset.mem_toFinset.2 hy), by simp⟩⟩
      | smallest =>
        obtain ⟨x, hx, h⟩ := s.toFinset.exists_min_image size hs
        exact ⟨x, Multiset.mem_toFinset.1 hx, fun y hy => ⟨by simp, fun _ => h y (Multiset.mem_toFinset.2 hy)⟩⟩
      | bothEnds =>
        obtain ⟨x, hx⟩ := hs
        exact ⟨x, Multiset.mem_toFinset.1 hx, fun y hy => ⟨by simp, by simp⟩⟩
    obtain ⟨s', rfl⟩ := Multiset.exists_cons_of_mem hx
    refine ⟨x :: l, by rw [List.length_cons, h1], s', ?_, ?_⟩
    · rw [← h2, ← Multiset.cons_coe, Multiset.cons_add, Multiset.add_cons]
    · cases w with
      | largest =>
        intro a ha y hy
        rcases List.mem_cons.1 ha with rfl | ha
        · exact (hb y (Multiset.mem_cons_of_mem hy)).1 rfl
        · exact h3 a ha y (Multiset.mem_cons_of_mem hy)
      | smallest =>
        intro a ha y hy
        rcases List.mem_cons.1 ha with rfl | ha
        · exact (hb y (Multiset.mem_cons_of_mem hy)).2 rfl
        · exact h3 a ha y (Multiset.mem_cons_of_mem hy)
      | bothEnds => trivial

/-- Both specifications hold for some routines, and these return for all fractions that are permitted. -/
theorem endSpec_satisfiable : ∃ lib, EigSpec lib ∧ EndSpec lib ∧
    ∀ (w : Which) (k n : ℕ) (A : Matrix (Fin n) (Fin n) ℝ), A.IsSymm → k ≤ n → ∃ l, lib.eigsh w k n A = .ok l := by
  classical
  obtain ⟨lib, h⟩ := eigSpec_satisfiable
  refine ⟨{ lib with
    eigs := fun w k n A => if h : k ≤ Multiset.card (complexEigenvalues A) then
      .ok (exists_end w (fun z => ‖z‖) (complexEigenvalues A) k h).choose else .error .valueError
    eigsh := fun w k n A => if h : k ≤ Multiset.card (realEigenvalues (lowerSymm A)) then
      .ok (exists_end w (fun x => |x|) (realEigenvalues (lowerSymm A)) k h).choose else .error .valueError
    svds := fun w k m n A => if h : k ≤ Multiset.card (lib.svd m n A : Multiset ℝ) then
      .ok (exists_end w (fun x => x ^ 2) (lib.svd m n A : Multiset ℝ) k h).choose else .error .valueError },
    ⟨h.eig_ok, h.eigh_ok, h.svd_length, h.svd_ok, h.svdh_ok, ?_, ?_, ?_⟩, ⟨?_, ?_, ?_⟩, ?_⟩
  · intro w k n A l hl
    simp only at hl
    split_ifs at hl with hk
    cases hl
    obtain ⟨h1, s, h2, -⟩ := (exists_end w (fun z => ‖z‖) (complexEigenvalues A) k hk).choose_spec
    exact ⟨h1, by conv_rhs => rw [← h2]
                  exact Multiset.le_add_right _ _⟩
  · intro w k n A l hl
    simp only at hl
    split_ifs at hl with hk
    cases hl
    obtain ⟨h1, s, h2, -⟩ := (exists_end w (fun x => |x|) (realEigenvalues (lowerSymm A)) k hk).choose_spec
    exact ⟨h1, by conv_rhs => rw [← h2]
                  exact Multiset.le_add_right _ _⟩
  · intro w k m n A l hl
    simp only at hl
    split_ifs at hl with hk
    cases hl
    obtain ⟨h1, s, h2, -⟩ := (exists_end w (fun x => x ^ 2) (lib.svd m n A : Multiset ℝ) k hk).choose_spec
    refine ⟨h1, by rwa [Multiset.coe_card, h.svd_length] at hk, ?_⟩
    rw [← h.svd_ok m n A, ← Multiset.map_coe, ← Multiset.map_coe]
    refine le_trans ?_ (Multiset.le_add_right _ _)
    refine Multiset.map_le_map ?_
    conv_rhs => rw [← h2]
    exact Multiset.le_add_right _ _
  · intro w k n A l hl
    simp only at hl
    split_ifs at hl with hk
    cases hl
    exact (exists_end w (fun z => ‖z‖) (complexEigenvalues A) k hk).choose_spec.2
  · intro w k n A l hl
    simp only at hl
    split_ifs at hl with hk
    cases hl
    exact (exists_end w (fun x => |x|) (realEigenvalues (lowerSymm A)) k hk).choose_spec.2
  · intro w k m n A l hl
    simp only at hl
    split_ifs at hl with hk
    cases hl
    obtain ⟨h1, s, h2, h3⟩ := (exists_end w (fun x => x ^ 2) (lib.svd m n A : Multiset ℝ) k hk).choose_spec
    refine ⟨s.map (· ^ 2) + Multiset.replicate (n - min m n) 0, ?_, fun hw => ?_⟩
    · rw [← h.svd_ok m n A, ← Multiset.map_coe, ← Multiset.map_coe, ← add_assoc, ← Multiset.map_add, h2]
    · cases w with
      | largest =>
        intro x hx y hy
        obtain ⟨a, ha, rfl⟩ := Multiset.mem_map.1 (by rwa [← Multiset.map_coe] at hx)
        rcases Multiset.mem_add.1 hy with hy | hy
        · obtain ⟨b, hb, rfl⟩ := Multiset.mem_map.1 hy
          exact h3 a ha b hb
        · rw [Multiset.eq_of_mem_replicate hy]
          exact sq_nonneg a
      | smallest =>
        have hw : n ≤ m := by simpa using hw
        intro x hx y hy
        obtain ⟨a, ha, rfl⟩ := Multiset.mem_map.1 (by rwa [← Multiset.map_coe] at hx)
        rw [min_eq_right hw, Nat.sub_self, Multiset.replicate_zero, add_zero] at hy
        obtain ⟨b, hb, rfl⟩ := Multiset.mem_map.1 hy
        exact h3 a ha b hb
      | bothEnds => trivial
  · intro w k n A hA hk
    simp only
    rw [dif_pos (by rw [lowerSymm_of_isSymm hA, card_realEigenvalues hA]; exact hk)]
    exact ⟨_, rfl⟩

end Imate.Props
