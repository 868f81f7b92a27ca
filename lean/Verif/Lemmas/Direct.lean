import Verif.Model.ExactTrace
import Verif.Lemmas.Mem
import Verif.Spec.Hutchinson
import Mathlib.LinearAlgebra.Matrix.Trace

/-!
# Lemmas on the direct methods
-/

namespace Imate.Direct

open Imate.Hutchinson Imate.Spec Matrix

variable {n : ℕ}

theorem mul_square (A B : Matrix (Fin n) (Fin n) ℝ) : mul (square A) (square B) = .ok (square (A * B)) := by
  unfold mul square
  rw [dif_pos rfl]
  rfl

theorem mulTimes_square (A : Matrix (Fin n) (Fin n) ℝ) (k j : ℕ) :
    mulTimes (square A) k (square (A ^ j)) = .ok (square (A ^ (j + k))) := by
  induction k generalizing j with
  | zero => rfl
  | succ k ih =>
    unfold mulTimes
    rw [mul_square, ← pow_succ, Except.ok_bind', ih]
    congr 3
    omega

theorem powerLoop_square (A : Matrix (Fin n) (Fin n) ℝ) {k : ℕ} (hk : 1 ≤ k) {q : ℤ} (hq : q = k) :
    powerLoop (square A) (square A) (.int q) = .ok (square (A ^ k)) := by
  unfold powerLoop
  have h := mulTimes_square A (k - 1) 1
  rw [pow_one] at h
  simp only
  rw [show (q - 1).toNat = k - 1 by omega, h]
  congr 3
  omega

theorem diagSum_square (A : Matrix (Fin n) (Fin n) ℝ) : diagSum (square A) = A.trace := by
  unfold diagSum square Matrix.trace
  simp only [diag_apply]
  exact Fintype.sum_equiv (finCongr (Nat.min_self n)) _ _ (fun i => by congr 1)

theorem frobeniusSq_eq {m : ℕ} (A : Matrix (Fin m) (Fin n) ℝ) :
    frobeniusSq ⟨m, n, A⟩ = (Aᵀ * A).trace := by
  unfold frobeniusSq Matrix.trace
  simp only [diag_apply, mul_apply, transpose_apply]
  rw [Finset.sum_comm]
  exact Finset.sum_congr rfl fun _ _ => Finset.sum_congr rfl fun _ _ => pow_two _

theorem sumMulTranspose_square (A : Matrix (Fin n) (Fin n) ℝ) :
    sumMulTranspose (square A) = .ok (A * A).trace := by
  unfold sumMulTranspose square
  rw [dif_pos rfl]
  congr 1

theorem gramian_eq {m : ℕ} (A : Matrix (Fin m) (Fin n) ℝ) :
    (⟨m, n, A⟩ : Mat ℝ).gramian = square (Aᵀ * A) := rfl

end Imate.Direct
