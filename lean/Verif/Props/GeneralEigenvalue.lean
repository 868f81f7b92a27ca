import Verif.Props.Functions
import Verif.Props.LogdetEigenvalue

/-! C55 and C36 for matrices that are not symmetric: `eigencount`, `density` and `logdet` of their complex eigenvalues. -/

namespace Imate.Props

open Imate.Hutchinson Imate.Direct Imate.Eigen Imate.Spec Matrix

variable {n : ℕ} {lib : Eigen.Lib}

theorem powC_ofReal {x : ℝ} (hx : 0 < x) (p : ℝ) : powC (x : ℂ) p = some ((x ^ p : ℝ) : ℂ) := by
  unfold powC
  rw [if_neg (by exact_mod_cast hx.ne'), Complex.ofReal_cpow hx.le]

theorem list_of_spectrum {l : List ℂ} {L : Multiset ℝ} (h : (l : Multiset ℂ) = L.map (↑)) :
    ∃ r : List ℝ, l = r.map (fun x : ℝ => (x : ℂ)) ∧ (r : Multiset ℝ) = L := by
  refine ⟨l.map Complex.re, ?_, ?_⟩
  · rw [List.map_map]
    conv_lhs => rw [← List.map_id l]
    apply List.map_congr_left
    intro z hz
    have : z ∈ L.map (fun x : ℝ => (x : ℂ)) := by rw [← h]; exact hz
    obtain ⟨x, -, rfl⟩ := Multiset.mem_map.1 this
    simp
  · have := congrArg (Multiset.map Complex.re) h
    rw [Multiset.map_map, Multiset.map_coe] at this
    rw [this]
    conv_rhs => rw [← Multiset.map_id L]
    exact Multiset.map_congr rfl fun x _ => by simp

/-- C55, `eigencount` of a matrix that is not symmetric, but has positive eigenvalues, for every exponent: the number of eigenvalues
whose power is in the interval, the ends included. -/
theorem eigencount_eigenvalue_spectrum (hlib : EigSpec lib) {M : Matrix (Fin n) (Fin n) ℝ} {L : Multiset ℝ}
    (hL : complexEigenvalues M = L.map (↑)) (hpos : ∀ x ∈ L, 0 < x) (lo hi p : ℝ) {st : Settings} (hq : ValidFraction st)
    (hg : st.gram = false) (hs : st.sym = false) :
    eigencountEigenvalue lib (.dense (square M)) lo hi p none st =
      .ok (.cplx (L.countP (fun x => lo ≤ x ^ p ∧ x ^ p ≤ hi))) := by
  classical
  unfold eigencountEigenvalue
  refine (dense_start (M := M) hq (Or.inr rfl) _).trans ?_
  rw [choose_general _ _ hg hs, Except.ok_bind']
  obtain ⟨r, h1, h2⟩ := list_of_spectrum ((hlib.eig_ok n M).trans hL)
  unfold countEigs
  simp only
  rw [filterMap_some, h1, ← h2, Multiset.coe_countP]
  congr 2
  have hr : ∀ x ∈ r, 0 < x := fun x hx => hpos x (by rw [← h2]; exact hx)
  clear h1 h2
  induction r with
  | nil => simp
  | cons x l ih =>
    rw [List.map_cons, List.map_cons, List.sum_cons, List.countP_cons, ih (fun y hy => hr y (List.mem_cons_of_mem _ hy)),
      powC_ofReal (hr x List.mem_cons_self)]
    simp only [indicatorC, ltC, Complex.ofReal_re, Complex.ofReal_im, lt_irrefl, and_false, or_false]
    by_cases h : lo ≤ x ^ p ∧ x ^ p ≤ hi
    · rw [if_neg (by push Not; exact h)]
      simp [h]
      ring
    · rw [if_pos (by rw [not_and_or, not_le, not_le] at h; exact h)]
      simp [h]

/-- C55, `eigencount` of any matrix: an eigenvalue that is not real is counted by its real part. -/
theorem eigencount_eigenvalue_complex (hlib : EigSpec lib) {M : Matrix (Fin n) (Fin n) ℝ} (lo hi : ℝ)
    (hlo : ∀ z ∈ complexEigenvalues M, z.re ≠ lo) (hhi : ∀ z ∈ complexEigenvalues M, z.re ≠ hi)
    {st : Settings} (hq : ValidFraction st) (hg : st.gram = false) (hs : st.sym = false) :
    eigencountEigenvalue lib (.dense (square M)) lo hi 1 none st =
      .ok (.cplx ((complexEigenvalues M).countP (fun z => lo < z.re ∧ z.re < hi))) := by
  classical
  unfold eigencountEigenvalue
  refine (dense_start (M := M) hq (Or.inr rfl) _).trans ?_
  rw [choose_general _ _ hg hs, Except.ok_bind']
  have h2 := hlib.eig_ok n M
  unfold countEigs
  simp only
  rw [filterMap_some]
  rw [← h2] at hlo hhi
  rw [← h2, Multiset.coe_countP]
  congr 2
  replace hlo : ∀ z ∈ lib.eig n M, z.re ≠ lo := fun z hz => hlo z hz
  replace hhi : ∀ z ∈ lib.eig n M, z.re ≠ hi := fun z hz => hhi z hz
  clear h2
  revert hlo hhi
  induction lib.eig n M with
  | nil => simp
  | cons z l ih =>
    intro hlo hhi
    have e : powC z 1 = some z := by
      have := powC_natCast z 1
      simpa using this
    rw [List.map_cons, List.sum_cons, List.countP_cons, ih (fun y hy => hlo y (List.mem_cons_of_mem _ hy))
      (fun y hy => hhi y (List.mem_cons_of_mem _ hy)), e]
    have a := hlo z List.mem_cons_self
    have b := hhi z List.mem_cons_self
    by_cases h : lo < z.re ∧ z.re < hi
    · have h5 : ¬ (ltC z lo ∨ ltC hi z) := by
        unfold ltC
        simp only [Complex.ofReal_re, Complex.ofReal_im]
        rintro ((h' | h') | (h' | h'))
        · exact absurd h' (not_lt.2 h.1.le)
        · exact a h'.1
        · exact absurd h' (not_lt.2 h.2.le)
        · exact b h'.1.symm
      simp only [indicatorC, if_neg h5]
      simp [h]
      ring
    · have h5 : ltC z lo ∨ ltC hi z := by
        unfold ltC
        simp only [Complex.ofReal_re, Complex.ofReal_im]
        rw [not_and_or, not_lt, not_lt] at h
        rcases h with h | h
        · exact Or.inl (Or.inl (lt_of_le_of_ne h a))
        · exact Or.inr (Or.inl (lt_of_le_of_ne h b.symm))
      simp only [indicatorC, if_pos h5]
      simp [h]

theorem sumOpt_ofReal (g : ℝ → ℝ) (l : List ℝ) {f : ℂ → Option ℂ} (h : ∀ x ∈ l, f x = some ((g x : ℝ) : ℂ)) :
    sumOpt ((l.map fun x : ℝ => (x : ℂ)).map f) = some (((l.map g).sum : ℝ) : ℂ) := by
  rw [sumOpt_congr (g := fun z => ((g z.re : ℝ) : ℂ))]
  · congr 1
    rw [Multiset.map_coe, Multiset.sum_coe, List.map_map]
    have := map_list_sum Complex.ofRealHom (l.map g)
    rw [List.map_map] at this
    exact (this.trans (by congr 1)).symm
  · intro z hz
    obtain ⟨x, hx, rfl⟩ := List.mem_map.1 hz
    simpa using h x hx

/-- C55, `density` of a matrix that is not symmetric, but has positive eigenvalues, for every exponent: the sum of the Gaussians at
the powers of the eigenvalues. -/
theorem density_eigenvalue_spectrum (hlib : EigSpec lib) {M : Matrix (Fin n) (Fin n) ℝ} {L : Multiset ℝ}
    (hL : complexEigenvalues M = L.map (↑)) (hpos : ∀ x ∈ L, 0 < x) (mus : List ℝ) (sigma p : ℝ) {st : Settings}
    (hq : ValidFraction st) (hg : st.gram = false) (hs : st.sym = false) :
    densityEigenvalue lib (.dense (square M)) (.floats mus) sigma p none st =
      .ok (mus.map fun mu => some (L.map fun x : ℝ => 1 / (Real.sqrt (2 * Real.pi) * sigma) *
        Real.exp (-(1 / 2) * ((x ^ p - mu) / sigma) ^ 2)).sum) := by
  unfold densityEigenvalue
  refine (dense_start (M := M) hq (Or.inr rfl) _).trans ?_
  rw [choose_general _ _ hg hs, Except.ok_bind']
  obtain ⟨r, h1, h2⟩ := list_of_spectrum ((hlib.eig_ok n M).trans hL)
  unfold densityLoop
  simp only
  congr 1
  apply List.map_congr_left
  intro mu _
  unfold densityAt
  simp only
  rw [filterMap_some, h1, sumOpt_ofReal (fun x : ℝ => 1 / (Real.sqrt (2 * Real.pi) * sigma) *
        Real.exp (-(1 / 2) * ((x ^ p - mu) / sigma) ^ 2)), ← h2]
  · simp
  · intro x hx
    rw [powC_ofReal (hpos x (by rw [← h2]; exact hx))]
    simp [gaussC]

/-- C36: a sum of the logarithms whose imaginary part is within `π/2` of `k π` gives the determinant of the sign of `(-1)ᵏ`. -/
theorem roundImag_near {rows : ℕ} {z : ℂ} {k : ℤ} (h : |z.im - k * Real.pi| < Real.pi / 2) :
    (Even k → roundImag none rows z = .ok (.real z.re)) ∧
      (Odd k → roundImag none rows z = .ok (.cplx (z.re + Real.pi * Complex.I))) := by
  have hp := Real.pi_pos
  have hq : quotient z.im = k.natAbs := by
    unfold quotient
    have h1 : abs (|z.im| - k.natAbs * Real.pi) < Real.pi / 2 := by
      have : (k.natAbs : ℝ) * Real.pi = |k * Real.pi| := by
        rw [abs_mul, abs_of_pos hp, Nat.cast_natAbs, Int.cast_abs]
      rw [this]
      exact lt_of_le_of_lt (abs_abs_sub_abs_le_abs_sub _ _) h
    rw [abs_lt] at h1
    rw [Nat.floor_eq_iff (by positivity)]
    constructor
    · have : (k.natAbs : ℝ) - 1 / 2 ≤ |z.im| / Real.pi := by
        rw [le_div_iff₀ hp]
        nlinarith [h1.1]
      linarith
    · have : |z.im| / Real.pi < (k.natAbs : ℝ) + 1 / 2 := by
        rw [div_lt_iff₀ hp]
        nlinarith [h1.2]
      linarith
  unfold roundImag
  rw [if_neg (not_not.2 (show isReal none rows z.im from trivial)), hq]
  constructor
  · intro he
    obtain ⟨j, hj⟩ := Int.natAbs_even.2 he
    rw [if_pos]
    rw [hj, eq_comm, Nat.floor_eq_iff (by positivity)]
    have : (j + j) / 2 = j := by omega
    rw [this]
    push_cast
    constructor <;> linarith
  · intro ho
    obtain ⟨j, hj⟩ := Int.natAbs_odd.2 ho
    rw [if_neg]
    rw [hj]
    have : (2 * j + 1) / 2 = j := by omega
    rw [this, show (((2 * j + 1 : ℕ) : ℝ)) / 2 + 1 / 2 = ((j + 1 : ℕ) : ℝ) by push_cast; ring, Nat.floor_natCast]
    omega

/-- C36, sparse matrices that are not symmetric, with positive eigenvalues: the result is the sum of the logarithms of the
eigenvalues that ARPACK finds at both ends of the spectrum, half of `non_zero_eig_fraction` of them at each. -/
theorem logdet_sparse_general {A : Array2 ℝ} (hA : A.isSparse = true) {M : Matrix (Fin n) (Fin n) ℝ} (hv : A.value = square M)
    {p : ℝ} (hp : p ≠ 0) {st : Settings} (hq : ValidFraction st) (hg : st.gram = false) (hs : st.sym = false) {large small : List ℝ}
    (hl : lib.eigs .largest (⌊(n : ℚ) * st.fraction⌋.toNat / 2) n M = .ok (large.map fun x : ℝ => (x : ℂ)))
    (hm : lib.eigs .smallest (⌊(n : ℚ) * st.fraction⌋.toNat / 2) n M = .ok (small.map fun x : ℝ => (x : ℂ)))
    (hpos : ∀ x ∈ large ++ small, 0 < x) :
    logdetEigenvalue lib A p none st =
      .ok (some (.real (((large.map Real.log).sum + (small.map Real.log).sum) * p))) := by
  unfold logdetEigenvalue
  have h1 : checkSizes A none st.gram = .ok () := checkSquare_square hv _
  rw [h1, Except.ok_bind', checkFraction_ok hq.1 hq.2, Except.ok_bind']
  unfold logdetChoose logdetEigenvalues
  simp only [hs, hA, if_true, Bool.false_eq_true, if_false]
  have e1 : numNonZero (square M).rows st.fraction = ⌊(n : ℚ) * st.fraction⌋.toNat := rfl
  rw [hv, if_pos (by rfl), Eigen.withSquare_square, Eigen.withSquare_square, e1, hl, hm, Except.ok_bind', Except.ok_bind',
    Except.ok_bind']
  unfold logdetBranch toComplex
  simp only
  rw [if_neg hp, filterMap_padded, ← List.map_append, sumOpt_ofReal Real.log]
  · unfold finishLogdet imagTol
    simp only [hA, hs, hg]
    rw [if_pos (by rfl), (roundImag_near (k := 0) (by simp [Real.pi_pos])).1 (by simp)]
    simp [applyExponent, Num.scale, Except.ok_bind', Except.map, bind, Except.bind]
  · intro x hx
    unfold logC
    rw [if_neg (by exact_mod_cast (hpos x hx).ne'), Complex.ofReal_log (hpos x hx).le]

/-- The hypotheses are met by a matrix that is not symmetric. -/
theorem triangular_spectrum : complexEigenvalues !![(1 : ℝ), 1; 0, 2] = ({1, 2} : Multiset ℝ).map (fun x : ℝ => (x : ℂ)) := by
  unfold complexEigenvalues
  have : (!![(1 : ℝ), 1; 0, 2].map (algebraMap ℝ ℂ)).charpoly =
      (({1, 2} : Multiset ℂ).map fun a => Polynomial.X - Polynomial.C a).prod := by
    rw [charpoly_fin_two]
    simp [trace_fin_two, det_fin_two]
    ring_nf
  have h2 : (!![(1 : ℝ), 1; 0, 2].map ((↑) : ℝ → ℂ)) = !![(1 : ℝ), 1; 0, 2].map (algebraMap ℝ ℂ) := rfl
  rw [h2, this, Polynomial.roots_multiset_prod_X_sub_C]
  simp

example (hlib : EigSpec lib) : eigencountEigenvalue lib (.dense (square !![(1 : ℝ), 1; 0, 2])) 2 5 2 none ⟨false, false, 9 / 10⟩ =
    .ok (.cplx 1) := by
  classical
  rw [eigencount_eigenvalue_spectrum hlib triangular_spectrum (by simp) 2 5 2 (by constructor <;> norm_num) rfl rfl]
  rw [show ({1, 2} : Multiset ℝ) = (([1, 2] : List ℝ) : Multiset ℝ) from rfl, Multiset.coe_countP]
  norm_num [List.countP_cons]

end Imate.Props
