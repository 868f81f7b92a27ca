import Mathlib.Data.List.Range
import Mathlib.Data.Multiset.Basic

/-!
# The entries of a thresholded symmetric matrix
-/

namespace Imate.Spec

/-- The triples (row, column, value) of all pairs `i ≤ j < n` with a value above the threshold, and of the places
opposite to them, each once. -/
def thresholdedEntries {V : Type} (n : ℕ) (entry : ℕ → ℕ → V) (above : V → Bool) : List (ℕ × ℕ × V) :=
  (List.range n).flatMap fun i => (List.range n).flatMap fun j =>
    let v := entry (min i j) (max i j)
    if above v then [(i, j, v)] else []

end Imate.Spec
