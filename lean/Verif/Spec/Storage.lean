import Mathlib.Data.Matrix.Mul
import Mathlib.Order.Interval.Finset.Nat

/-!
# Specification: which mathematical matrix a stored matrix represents

Textbook definitions of dense row-major/column-major storage and of compressed sparse row/column
storage (with duplicate entries summed, as SciPy defines it).  No reference to the model.
-/

namespace Imate.Spec

variable {K : Type _}

/-- `A` is a row-major (C order) or column-major (Fortran order) array of the `n × m` matrix `M`. -/
def DenseRepr {n m : Nat} (rowMajor : Bool) (A : Array K) (M : Matrix (Fin n) (Fin m) K) : Prop :=
  A.size = n * m ∧
    ∀ (i : Fin n) (j : Fin m), A[if rowMajor then i.1 * m + j.1 else i.1 + n * j.1]? = some (M i j)

/-- `(data, indices, ptr)` is a compressed-sparse-row triple of the `n × m` matrix `M`: row `i`
occupies positions `ptr[i] ≤ k < ptr[i+1]`, position `k` adds `data[k]` at column `indices[k]`. -/
def CSRRepr [AddCommMonoid K] {n m : Nat} (data : Array K) (indices ptr : Array Nat)
    (M : Matrix (Fin n) (Fin m) K) : Prop :=
  ptr.size = n + 1 ∧ indices.size = data.size ∧
  ∀ i : Fin n, ∃ lo hi, ptr[i.1]? = some lo ∧ ptr[i.1 + 1]? = some hi ∧ lo ≤ hi ∧ hi ≤ data.size ∧
    (∀ k, lo ≤ k → k < hi → ∃ j < m, indices[k]? = some j) ∧
    ∀ j : Fin m, M i j = ∑ k ∈ Finset.Ico lo hi,
      if indices[k]? = some j.1 then data.getD k 0 else 0

/-- Compressed-sparse-column storage is compressed-sparse-row storage of the transpose. -/
def CSCRepr [AddCommMonoid K] {n m : Nat} (data : Array K) (indices ptr : Array Nat)
    (M : Matrix (Fin n) (Fin m) K) : Prop :=
  CSRRepr data indices ptr M.transpose

end Imate.Spec
