import Verif.Spec.RoundedLanczos

/-!
# Specification: the recurrences of Golub and Kahan up to small errors
-/

namespace Imate.Spec

open Matrix

variable {n : ℕ}

/-- Element `i` of `M v_k - β_{k-1} u_{k-1}`, the last term only for `k > 0`. -/
noncomputable def leftRest (M : Matrix (Fin n) (Fin n) ℝ) (beta : ℕ → ℝ) (u v : ℕ → Fin n → ℝ) (k : ℕ) (i : Fin n) : ℝ :=
  (M *ᵥ v k) i - if k = 0 then 0 else beta (k - 1) * u (k - 1) i

/-- The sum of the absolute values of the terms of `leftRest`. -/
noncomputable def leftAbs (P : Matrix (Fin n) (Fin n) ℝ) (beta : ℕ → ℝ) (u v : ℕ → Fin n → ℝ) (k : ℕ) (i : Fin n) : ℝ :=
  (P *ᵥ fun j => |v k j|) i + if k = 0 then 0 else |beta (k - 1) * u (k - 1) i|

/-- Element `i` of `Mᵀ u_k - α_k v_k`. -/
noncomputable def rightRest (M : Matrix (Fin n) (Fin n) ℝ) (alpha : ℕ → ℝ) (u v : ℕ → Fin n → ℝ) (k : ℕ) (i : Fin n) : ℝ :=
  (Mᵀ *ᵥ u k) i - alpha k * v k i

/-- The sum of the absolute values of the terms of `rightRest`; `Q` bounds the absolute values of the entries of `Mᵀ`. -/
noncomputable def rightAbs (Q : Matrix (Fin n) (Fin n) ℝ) (alpha : ℕ → ℝ) (u v : ℕ → Fin n → ℝ) (k : ℕ) (i : Fin n) : ℝ :=
  (Q *ᵥ fun j => |u k j|) i + |alpha k * v k i|

/-- The coefficients `alpha`, `beta` of `size` steps come from vectors `u 0, ..., u (size - 1)` and `v 0, ..., v (size - 1)` for
which the recurrences of Golub and Kahan hold up to small errors: `v 0` is the direction of the start vector `z`, all have length
one, `M v_k = α_k u_k + β_{k-1} u_{k-1}` and `Mᵀ u_k = β_k v_{k+1} + α_k v_k`. -/
structure NearlyGolubKahn (M P Q : Matrix (Fin n) (Fin n) ℝ) (z : Fin n → ℝ) (size : ℕ) (alpha beta : ℕ → ℝ)
    (eUnit eLeft eRight eLast : ℝ) (u v : ℕ → Fin n → ℝ) : Prop where
  start : ∀ i, |v 0 i - z i / len z| ≤ eUnit * |z i / len z|
  unitLeft : ∀ k < size, |len (u k) - 1| ≤ eUnit
  unitRight : ∀ k < size, |len (v k) - 1| ≤ eUnit
  positive : ∀ k < size, 0 < alpha k
  left : ∀ k < size, ∀ i, |alpha k * u k i - leftRest M beta u v k i| ≤ eLeft * leftAbs P beta u v k i
  right : ∀ k, k + 1 < size → ∀ i, |beta k * v (k + 1) i - rightRest M alpha u v k i| ≤ eRight * rightAbs Q alpha u v k i
  last : ∃ r : Fin n → ℝ, (∀ i, |r i - rightRest M alpha u v (size - 1) i| ≤ eRight * rightAbs Q alpha u v (size - 1) i) ∧
    |beta (size - 1) - len r| ≤ eLast * len r

/-- The recurrences hold up to small errors for `k` steps, after which `M v_k = β_{k-1} u_{k-1}` up to an error of the same
size, so that there is no direction for `u_k`. -/
structure GolubKahnBreakdown (M P Q : Matrix (Fin n) (Fin n) ℝ) (z : Fin n → ℝ) (k : ℕ) (alpha beta : ℕ → ℝ)
    (eUnit eLeft eRight : ℝ) (u v : ℕ → Fin n → ℝ) : Prop where
  start : ∀ i, |v 0 i - z i / len z| ≤ eUnit * |z i / len z|
  unitLeft : ∀ l < k, |len (u l) - 1| ≤ eUnit
  unitRight : ∀ l ≤ k, |len (v l) - 1| ≤ eUnit
  left : ∀ l < k, ∀ i, |alpha l * u l i - leftRest M beta u v l i| ≤ eLeft * leftAbs P beta u v l i
  right : ∀ l < k, ∀ i, |beta l * v (l + 1) i - rightRest M alpha u v l i| ≤ eRight * rightAbs Q alpha u v l i
  zero : ∀ i, |leftRest M beta u v k i| ≤ eLeft * leftAbs P beta u v k i

end Imate.Spec
