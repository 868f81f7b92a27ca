import Verif.Model.Operators
import Verif.Spec.Storage

/-! # Specification: what a stored operator stands for -/

namespace Imate.Spec

variable {K : Type _} [Field K]

/-- The stored matrix (whatever its format) represents the mathematical matrix `M`. -/
def Represents {n m : Nat} (S : StoredMatrix K) (M : Matrix (Fin n) (Fin m) K) : Prop :=
  match S with
  | .dense A rowMajor => DenseRepr rowMajor A M
  | .csr data indices ptr => CSRRepr data indices ptr M
  | .csc data indices ptr => CSCRepr data indices ptr M

/-- The rectangular identity: ones at `(i,i)`. -/
def rectOne {n m : Nat} : Matrix (Fin n) (Fin m) K := fun i j => if i.1 = j.1 then 1 else 0

end Imate.Spec
