import Verif.Spec.Random
import Verif.Spec.Krylov

/-! Specification vocabulary for C18. -/

namespace Imate.Spec

open Imate.Random Matrix

/-- Entry `k` of random vector `j` of length `n` read off a generator in state `x`: the signs are the
bits of the stream of draws, 64 per draw. -/
def drawnVector (x : Xoshiro) (n j : Nat) : Fin n → ℝ :=
  fun k => if (draw x ((j * n + k) / 64)).getLsbD ((j * n + k) % 64) then 1 else -1

/-- `v` is a linear combination of `f 0, …, f (t-1)`. -/
def CombinationOf {n : Nat} (f : Nat → Fin n → ℝ) (t : Nat) (v : Fin n → ℝ) : Prop :=
  ∃ c : Fin t → ℝ, v = ∑ a, c a • f a

/-- Unit vectors. -/
def Units {n : Nat} (V : Array (Fin n → ℝ)) : Prop :=
  ∀ i (h : i < V.size), V[i] ⬝ᵥ V[i] = 1

/-- Pairwise orthogonal vectors. -/
def PairwiseOrthogonal {n : Nat} (V : Array (Fin n → ℝ)) : Prop :=
  ∀ i j (hi : i < V.size) (hj : j < V.size), i ≠ j → V[i] ⬝ᵥ V[j] = 0

end Imate.Spec
