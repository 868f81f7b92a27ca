import Verif.Lemmas.TraceConvex
import Verif.Props.Top
import Mathlib.Analysis.Convex.SpecificFunctions.Pow
import Mathlib.Analysis.Convex.SpecificFunctions.Basic

/-! Minkowski's inequality for the Schatten norm and its reverse for the anti-norm. -/

namespace Imate.Interp

open Imate.Spec Imate.Eigen Imate.Props Matrix Finset

variable {n : ℕ}

theorem convexOn_rpow_neg {p : ℝ} (hp : p < 0) : ConvexOn ℝ (Set.Ioi 0) fun x : ℝ => x ^ p := by
  refine ⟨convex_Ioi 0, fun x hx y hy a b ha hb hab => ?_⟩
  have hx : 0 < x := hx
  have hy : 0 < y := hy
  simp only [smul_eq_mul]
  have hz : 0 < a * x + b * y := by
    have := (convex_Ioi (0 : ℝ)) hx hy ha hb hab
    simpa using this
  rw [Real.rpow_def_of_pos hx, Real.rpow_def_of_pos hy, Real.rpow_def_of_pos hz]
  have h1 := strictConcaveOn_log_Ioi.concaveOn.2 hx hy ha hb hab
  have h2 := convexOn_exp.2 (Set.mem_univ (Real.log x * p)) (Set.mem_univ (Real.log y * p)) ha hb hab
  simp only [smul_eq_mul] at h1 h2
  refine (Real.exp_le_exp.2 ?_).trans h2
  nlinarith

theorem trace_cfc_neg {M : Matrix (Fin n) (Fin n) ℝ} (hM : M.IsHermitian) (f : ℝ → ℝ) :
    (cfc (fun x => -f x) M).trace = -(cfc f M).trace := by
  rw [trace_cfc hM, trace_cfc hM]
  exact Multiset.sum_map_neg

theorem trace_cfc_log {M : Matrix (Fin n) (Fin n) ℝ} (hM : M.PosDef) : (cfc Real.log M).trace = Real.log M.det := by
  rw [trace_cfc hM.1, hM.1.roots_charpoly_eq_eigenvalues, Multiset.map_map, hM.1.det_eq_prod_eigenvalues]
  simp only [RCLike.ofReal_real_eq_id, id]
  rw [Real.log_prod fun i _ => (hM.eigenvalues_pos i).ne']
  rfl

theorem schattenNorm_pos {M : Matrix (Fin n) (Fin n) ℝ} (hM : M.PosDef) (hn : 0 < n) (p : ℝ) :
    0 < schattenNorm M p := by
  unfold schattenNorm
  have hn' : (0 : ℝ) < n := by exact_mod_cast hn
  split_ifs
  · exact Real.rpow_pos_of_pos (abs_pos.2 hM.det_pos.ne') _
  · exact Real.rpow_pos_of_pos (abs_pos.2 (div_pos (cfc_trace_pos hM hn p) hn').ne') _

/-- The power of the norm is the mean of the powers. -/
theorem schattenNorm_rpow {M : Matrix (Fin n) (Fin n) ℝ} (hM : M.PosDef) (hn : 0 < n) {p : ℝ} (hp : p ≠ 0) :
    (cfc (fun x : ℝ => x ^ p) M).trace = n * schattenNorm M p ^ p := by
  have hn' : (0 : ℝ) < n := by exact_mod_cast hn
  have h := div_pos (cfc_trace_pos hM hn p) hn'
  unfold schattenNorm
  rw [if_neg hp, abs_of_pos h, ← Real.rpow_mul h.le, one_div_mul_cancel hp, Real.rpow_one, mul_div_cancel₀ _ hn'.ne']

/-- The logarithm of the norm of order zero. -/
theorem schattenNorm_log {M : Matrix (Fin n) (Fin n) ℝ} (hM : M.PosDef) (hn : 0 < n) :
    Real.log M.det = n * Real.log (schattenNorm M 0) := by
  have hn' : (n : ℝ) ≠ 0 := by exact_mod_cast hn.ne'
  unfold schattenNorm
  rw [if_pos rfl, abs_of_pos hM.det_pos, Real.log_rpow hM.det_pos]
  field_simp

/-- A convex combination of matrices of norm one. -/
theorem schattenNorm_combination {A B : Matrix (Fin n) (Fin n) ℝ} (hA : A.PosDef) (hB : B.PosDef) (hn : 0 < n)
    {p : ℝ} (hA1 : schattenNorm A p = 1) (hB1 : schattenNorm B p = 1) {a b : ℝ} (ha : 0 < a) (hb : 0 < b)
    (hab : a + b = 1) :
    (1 ≤ p → schattenNorm (a • A + b • B) p ≤ 1) ∧ (p < 1 → 1 ≤ schattenNorm (a • A + b • B) p) := by
  have hX : (a • A + b • B).PosDef := (hA.smul ha).add (hB.smul hb)
  have hn' : (0 : ℝ) < n := by exact_mod_cast hn
  have hN := schattenNorm_pos hX hn p
  by_cases hp : p = 0
  · subst hp
    refine ⟨fun h => absurd h (by norm_num), fun _ => ?_⟩
    have hcv : ConvexOn ℝ (Set.Ioi 0) fun x => -Real.log x := strictConcaveOn_log_Ioi.concaveOn.neg
    have h := trace_convex hA hB hcv ha hb hab
    rw [trace_cfc_neg hA.1, trace_cfc_neg hB.1, trace_cfc_neg hX.1, trace_cfc_log hA, trace_cfc_log hB,
      trace_cfc_log hX, schattenNorm_log hA hn, schattenNorm_log hB hn, schattenNorm_log hX hn, hA1, hB1] at h
    simp only [Real.log_one, mul_zero, neg_zero, add_zero] at h
    by_contra hlt
    push Not at hlt
    have := Real.log_neg hN hlt
    nlinarith
  · have hAt := schattenNorm_rpow hA hn hp
    have hBt := schattenNorm_rpow hB hn hp
    have hXt := schattenNorm_rpow hX hn hp
    rw [hA1, Real.one_rpow, mul_one] at hAt
    rw [hB1, Real.one_rpow, mul_one] at hBt
    constructor
    · intro h1
      have hcv : ConvexOn ℝ (Set.Ioi 0) fun x : ℝ => x ^ p :=
        (convexOn_rpow h1).subset Set.Ioi_subset_Ici_self (convex_Ioi 0)
      have h := trace_convex hA hB hcv ha hb hab
      rw [hAt, hBt, hXt, ← add_mul, hab, one_mul] at h
      by_contra hlt
      push Not at hlt
      have := Real.one_lt_rpow hlt (by linarith : 0 < p)
      nlinarith
    · intro h1
      rcases lt_or_gt_of_ne hp with hneg | hpos
      · have h := trace_convex hA hB (convexOn_rpow_neg hneg) ha hb hab
        rw [hAt, hBt, hXt, ← add_mul, hab, one_mul] at h
        by_contra hlt
        push Not at hlt
        have := Real.one_lt_rpow_of_pos_of_lt_one_of_neg hN hlt hneg
        nlinarith
      · have hcv : ConvexOn ℝ (Set.Ioi 0) fun x : ℝ => -x ^ p :=
          ((Real.concaveOn_rpow hpos.le h1.le).subset Set.Ioi_subset_Ici_self (convex_Ioi 0)).neg
        have h := trace_convex hA hB hcv ha hb hab
        rw [trace_cfc_neg hA.1, trace_cfc_neg hB.1, trace_cfc_neg hX.1, hAt, hBt, hXt] at h
        by_contra hlt
        push Not at hlt
        have := Real.rpow_lt_one hN.le hlt hpos
        nlinarith

/-- Minkowski's inequality and its reverse. -/
theorem schattenNorm_add {A B : Matrix (Fin n) (Fin n) ℝ} (hA : A.PosDef) (hB : B.PosDef) (hn : 0 < n) (p : ℝ) :
    (1 ≤ p → schattenNorm (A + B) p ≤ schattenNorm A p + schattenNorm B p) ∧
      (p < 1 → schattenNorm A p + schattenNorm B p ≤ schattenNorm (A + B) p) := by
  set NA := schattenNorm A p with hNA
  set NB := schattenNorm B p with hNB
  have hA0 : 0 < NA := schattenNorm_pos hA hn p
  have hB0 : 0 < NB := schattenNorm_pos hB hn p
  have hA' : (NA⁻¹ • A).PosDef := hA.smul (inv_pos.2 hA0)
  have hB' : (NB⁻¹ • B).PosDef := hB.smul (inv_pos.2 hB0)
  have hs : 0 < NA + NB := by positivity
  have hA1 : schattenNorm (NA⁻¹ • A) p = 1 := by
    rw [schattenNorm_smul hA hn (inv_pos.2 hA0), ← hNA, inv_mul_cancel₀ hA0.ne']
  have hB1 : schattenNorm (NB⁻¹ • B) p = 1 := by
    rw [schattenNorm_smul hB hn (inv_pos.2 hB0), ← hNB, inv_mul_cancel₀ hB0.ne']
  have ha : 0 < NA / (NA + NB) := by positivity
  have hb : 0 < NB / (NA + NB) := by positivity
  have hab : NA / (NA + NB) + NB / (NA + NB) = 1 := by field_simp
  have key := schattenNorm_combination hA' hB' hn hA1 hB1 ha hb hab
  have hX := (hA'.smul ha).add (hB'.smul hb)
  have heq : A + B = (NA + NB) • ((NA / (NA + NB)) • NA⁻¹ • A + (NB / (NA + NB)) • NB⁻¹ • B) := by
    rw [smul_add, smul_smul, smul_smul, smul_smul, smul_smul]
    have e1 : (NA + NB) * (NA / (NA + NB) * NA⁻¹) = 1 := by field_simp
    have e2 : (NA + NB) * (NB / (NA + NB) * NB⁻¹) = 1 := by field_simp
    rw [mul_assoc, mul_assoc, e1, e2, one_smul, one_smul]
  rw [heq, schattenNorm_smul hX hn hs]
  constructor
  · intro h; nlinarith [key.1 h]
  · intro h; nlinarith [key.2 h]

/-- The harmonic mean of the eigenvalues is at most their arithmetic mean. -/
theorem schattenNorm_neg_one_le {M : Matrix (Fin n) (Fin n) ℝ} (hM : M.PosDef) (hn : 0 < n) :
    schattenNorm M (-1) ≤ M.trace / n := by
  have hn' : (0 : ℝ) < n := by exact_mod_cast hn
  have hN := schattenNorm_pos hM hn (-1)
  have ht := schattenNorm_rpow hM hn (p := -1) (by norm_num)
  have htr : M.trace = (cfc (fun x : ℝ => x) M).trace := by rw [cfc_self_eq hM.1]
  rw [trace_cfc hM.1, hM.1.roots_charpoly_eq_eigenvalues, Multiset.map_map] at ht htr
  have h2 := (convexOn_rpow_neg (p := -1) (by norm_num)).map_sum_le (t := univ) (w := fun _ : Fin n => 1 / (n : ℝ))
    (p := hM.1.eigenvalues) (fun i _ => by positivity) (by simp [hn'.ne']) (fun i _ => hM.eigenvalues_pos i)
  simp only [smul_eq_mul, ← mul_sum] at h2
  have e1 : ∑ i, hM.1.eigenvalues i = M.trace := htr.symm
  have e2 : ∑ i, hM.1.eigenvalues i ^ (-1 : ℝ) = n * schattenNorm M (-1) ^ (-1 : ℝ) := ht
  have hpos : 0 < M.trace := by
    rw [← e1]
    have : Nonempty (Fin n) := ⟨⟨0, hn⟩⟩
    exact sum_pos (fun i _ => hM.eigenvalues_pos i) univ_nonempty
  rw [e1, e2, Real.rpow_neg_one, Real.rpow_neg_one, one_div, inv_mul_cancel_left₀ hn'.ne'] at h2
  have h3 := (inv_le_inv₀ (by positivity) hN).1 h2
  rw [div_eq_inv_mul]
  exact h3

end Imate.Interp
