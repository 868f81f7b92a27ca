import Verif.Spec.Operators

/-! # Specification of the matrices that the GPU code can handle -/

namespace Imate.Spec

variable {K : Type _}

/-- A sparse matrix of `n` rows and `m` columns stores at least one entry. -/
def StoresEntry (n m : Nat) : StoredMatrix K → Prop
  | .dense _ _ => True
  | .csr _ _ ptr => ∃ nnz, ptr[n]? = some nnz ∧ 0 < nnz
  | .csc _ _ ptr => ∃ nnz, ptr[m]? = some nnz ∧ 0 < nnz

/-- The storage is dense. -/
def IsDense : StoredMatrix K → Prop
  | .dense _ _ => True
  | _ => False

/-- The storage is by compressed columns. -/
def IsCSC : StoredMatrix K → Prop
  | .csc _ _ _ => True
  | _ => False

end Imate.Spec
