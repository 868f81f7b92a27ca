import Verif.Lemmas.Minkowski
import Verif.Lemmas.Interpolator

/-! Norms of diagonal matrices, the norm of order two, and problems whose norm is the Schatten norm. -/

namespace Imate.Interp

open Imate.Spec Imate.Eigen Imate.Props Matrix Finset

variable {n : ℕ} {P : Problem n}

theorem roots_diagonal (d : Fin n → ℝ) : (diagonal d).charpoly.roots = univ.val.map d := by
  have : (∏ i, (Polynomial.X - Polynomial.C (d i))) =
      ((univ.val.map d).map fun a => Polynomial.X - Polynomial.C a).prod := by
    rw [Multiset.map_map]; rfl
  rw [charpoly_diagonal, this, Polynomial.roots_multiset_prod_X_sub_C]

theorem trace_cfc_diagonal (d : Fin n → ℝ) (f : ℝ → ℝ) : (cfc f (diagonal d)).trace = ∑ i, f (d i) := by
  rw [trace_cfc (isHermitian_diagonal d), roots_diagonal, Multiset.map_map]; rfl

theorem posDef_diagonal {d : Fin n → ℝ} (hd : ∀ i, 0 < d i) : (diagonal d).PosDef := by
  rw [posDef_diagonal_iff]; exact hd

theorem schattenNorm_diagonal {d : Fin n → ℝ} {p : ℝ} (hp : p ≠ 0) :
    schattenNorm (diagonal d) p = |(∑ i, d i ^ p) / n| ^ (1 / p) := by
  unfold schattenNorm
  rw [if_neg hp, trace_cfc_diagonal]

/-- The norm of order two is the normalised Frobenius norm. -/
theorem schattenNorm_two {M : Matrix (Fin n) (Fin n) ℝ} (hM : M.IsHermitian) :
    schattenNorm M 2 = Real.sqrt ((M * M).trace / n) := by
  have h : cfc (fun x : ℝ => x ^ (2 : ℝ)) M = M * M := by
    have h1 : (fun x : ℝ => x ^ (2 : ℝ)) = fun x : ℝ => x ^ 2 := by
      funext x; exact_mod_cast Real.rpow_natCast x 2
    rw [h1]
    exact (cfc_pow_id (R := ℝ) M 2 hM).trans (pow_two M)
  have hnn : 0 ≤ (M * M).trace / n := by
    refine div_nonneg ?_ (Nat.cast_nonneg _)
    simp only [Matrix.trace, diag_apply, mul_apply]
    refine sum_nonneg fun i _ => sum_nonneg fun j _ => ?_
    have : M j i = M i j := by have := hM.apply i j; simpa using this
    rw [this]; exact mul_self_nonneg _
  unfold schattenNorm
  rw [if_neg (by norm_num), h, abs_of_nonneg hnn, Real.sqrt_eq_rpow]

/-- A problem with positive definite matrices whose norm is the Schatten norm. -/
theorem goodProblem_of (hn : 0 < n) (hA : P.A.PosDef) (hB : ∀ B, P.B = some B → B.PosDef)
    (hS : ComputesSchatten P) : GoodProblem P :=
  ⟨hA, hB, fun M hM => ⟨_, schattenNorm_pos hM hn P.p, hS M hM⟩⟩

theorem bound_eq (hn : 0 < n) (hA : P.A.PosDef) (hB : ∀ B, P.B = some B → B.PosDef) (hS : ComputesSchatten P)
    (t : ℝ) : P.bound t = .ok (some (schattenNorm P.A P.p + t * schattenNorm P.matB P.p)) := by
  unfold Problem.bound Problem.inputNorms Problem.matB
  rw [hS _ hA]
  cases h : P.B with
  | none =>
    simp only [bind, Except.bind, Option.getD_none, schattenNorm_one hn]
    rw [if_neg one_ne_zero]
    simp
  | some B =>
    have hb := schattenNorm_pos (hB B h) hn P.p
    simp only [bind, Except.bind, hS _ (hB B h), Option.getD_some]
    rw [if_neg hb.ne', add_mul, div_mul_cancel₀ _ hb.ne']

end Imate.Interp
