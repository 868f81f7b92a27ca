import Mathlib.Analysis.Real.Sqrt
import Mathlib.Data.Matrix.Mul
import Verif.Model.Mem

/-!
# Specification: the Lanczos recurrence up to small errors
-/

namespace Imate.Spec

open Matrix

variable {n : ℕ}

/-- Euclidean length. -/
noncomputable def len (x : Fin n → ℝ) : ℝ := Real.sqrt (x ⬝ᵥ x)

/-- A routine `dot` for products with `M` that makes an error of at most `e` relative to the product of absolute values;
`P` bounds the absolute values of the entries of `M`. -/
def AccurateDot (dot : Array ℝ → Array ℝ → Except Fault (Array ℝ)) (M P : Matrix (Fin n) (Fin n) ℝ) (e : ℝ) : Prop :=
  (∀ i j, |M i j| ≤ P i j) ∧ ∀ (x : Fin n → ℝ) (c : Array ℝ), c.size = n →
    ∃ r : Fin n → ℝ, dot (Array.ofFn x) c = .ok (Array.ofFn r) ∧
      ∀ i, |r i - (M *ᵥ x) i| ≤ e * (P *ᵥ fun j => |x j|) i

/-- Element `j` of `M v_k - α_k v_k - β_{k-1} v_{k-1}`, the last term only for `k > 0`. -/
noncomputable def rest (M : Matrix (Fin n) (Fin n) ℝ) (alpha beta : ℕ → ℝ) (v : ℕ → Fin n → ℝ) (k : ℕ) (i : Fin n) : ℝ :=
  (M *ᵥ v k) i - alpha k * v k i - if k = 0 then 0 else beta (k - 1) * v (k - 1) i

/-- The sum of the absolute values of the terms of `rest`. -/
noncomputable def restAbs (P : Matrix (Fin n) (Fin n) ℝ) (alpha beta : ℕ → ℝ) (v : ℕ → Fin n → ℝ) (k : ℕ) (i : Fin n) :
    ℝ :=
  (P *ᵥ fun j => |v k j|) i + |alpha k * v k i| + if k = 0 then 0 else |beta (k - 1) * v (k - 1) i|

/-- The coefficients `alpha`, `beta` of `size` steps come from vectors `v 0, ..., v (size - 1)` for which the recurrence of
Lanczos holds up to small errors: the first is the direction of the start vector `z`, all have length one, `alpha k` is the
Rayleigh quotient of `v k`, and `M v_k = β_k v_{k+1} + α_k v_k + β_{k-1} v_{k-1}`. -/
structure NearlyLanczos (M P : Matrix (Fin n) (Fin n) ℝ) (z : Fin n → ℝ) (size : ℕ) (alpha beta : ℕ → ℝ)
    (eUnit eAlpha eRec eLast : ℝ) (v : ℕ → Fin n → ℝ) : Prop where
  start : ∀ i, |v 0 i - z i / len z| ≤ eUnit * |z i / len z|
  unit : ∀ k < size, |len (v k) - 1| ≤ eUnit
  diagonal : ∀ k < size, |alpha k - v k ⬝ᵥ (M *ᵥ v k)| ≤ eAlpha * ∑ i, |v k i| * (P *ᵥ fun j => |v k j|) i
  recurrence : ∀ k, k + 1 < size → ∀ i,
    |beta k * v (k + 1) i - rest M alpha beta v k i| ≤ eRec * restAbs P alpha beta v k i
  last : ∃ r : Fin n → ℝ, (∀ i, |r i - rest M alpha beta v (size - 1) i| ≤ eRec * restAbs P alpha beta v (size - 1) i) ∧
    |beta (size - 1) - len r| ≤ eLast * len r

end Imate.Spec
