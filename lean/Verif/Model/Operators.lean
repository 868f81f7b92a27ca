import Verif.Model.VectorOps
import Verif.Model.MatrixOps

/-!
# Model of `imate/_c_linear_operator/*.cpp`

The class hierarchy (`cDenseMatrix`, `cCSRMatrix`, `cCSCMatrix`, and the three affine matrix
function classes) is modelled by a sum type and a structure.  `set_parameters` stores a pointer to
the current parameter; here the parameter is an argument of the product (`none` = pointer not set,
on which the code's `assert` fires).
-/

namespace Imate

variable {K : Type _} [Field K] [DecidableEq K]

/-- A stored matrix: `cDenseMatrix` (c_dense_matrix.cpp:38-53), `cCSRMatrix`
(c_csr_matrix.cpp:39-55), `cCSCMatrix` (c_csc_matrix.cpp:39-55). -/
inductive StoredMatrix (K : Type _) where
  | dense (A : Array K) (rowMajor : Bool)
  | csr (data : Array K) (indices ptr : Array Nat)
  | csc (data : Array K) (indices ptr : Array Nat)

namespace StoredMatrix

/-- `dot`: c_dense_matrix.cpp:121-133, c_csr_matrix.cpp:137-149, c_csc_matrix.cpp:138-151. -/
def dot (S : StoredMatrix K) (numRows numColumns : Nat) (vector product : Array K) :
    Except Fault (Array K) :=
  match S with
  | dense A rm => MatrixOps.denseMatvec A vector numRows numColumns rm product
  | csr d ix p => MatrixOps.csrMatvec d ix p vector numRows product
  | csc d ix p => MatrixOps.cscMatvec d ix p vector numRows numColumns product

/-- `dot_plus`: c_dense_matrix.cpp:140-154, c_csr_matrix.cpp:156-170, c_csc_matrix.cpp:158-172. -/
def dotPlus (S : StoredMatrix K) (numRows numColumns : Nat) (vector : Array K) (alpha : K)
    (product : Array K) : Except Fault (Array K) :=
  match S with
  | dense A rm => MatrixOps.denseMatvecPlus A vector alpha numRows numColumns rm product
  | csr d ix p => MatrixOps.csrMatvecPlus d ix p vector alpha numRows product
  | csc d ix p => MatrixOps.cscMatvecPlus d ix p vector alpha numColumns product

/-- `transpose_dot`: c_dense_matrix.cpp:161-173, c_csr_matrix.cpp:177-190,
c_csc_matrix.cpp:179-191. -/
def transposeDot (S : StoredMatrix K) (numRows numColumns : Nat) (vector product : Array K) :
    Except Fault (Array K) :=
  match S with
  | dense A rm => MatrixOps.denseTransposedMatvec A vector numRows numColumns rm product
  | csr d ix p => MatrixOps.csrTransposedMatvec d ix p vector numRows numColumns product
  | csc d ix p => MatrixOps.cscTransposedMatvec d ix p vector numColumns product

/-- `transpose_dot_plus`: c_dense_matrix.cpp:180-194, c_csr_matrix.cpp:197-211,
c_csc_matrix.cpp:198-212. -/
def transposeDotPlus (S : StoredMatrix K) (numRows numColumns : Nat) (vector : Array K) (alpha : K)
    (product : Array K) : Except Fault (Array K) :=
  match S with
  | dense A rm => MatrixOps.denseTransposedMatvecPlus A vector alpha numRows numColumns rm product
  | csr d ix p => MatrixOps.csrTransposedMatvecPlus d ix p vector alpha numRows product
  | csc d ix p => MatrixOps.cscTransposedMatvecPlus d ix p vector alpha numColumns product

/-- The element test inside `is_identity_matrix`, c_dense_matrix.cpp:100-109 and
c_csr_matrix.cpp:96-106: `true` means "go on", `false` means "return 0".  Note the `else if`: it is
reached for a diagonal element that equals one. -/
def identityElementOk (row column : Nat) (x : K) : Bool :=
  if row = column ∧ x ≠ 1 then false
  else if x ≠ 0 then false
  else true

/-- `is_identity_matrix`: c_dense_matrix.cpp:78-114, c_csr_matrix.cpp:80-111,
c_csc_matrix.cpp:80-112.  The early `return 0` is modelled by a flag that, once `false`, makes the
remaining iterations skip. -/
def isIdentity (S : StoredMatrix K) (numRows numColumns : Nat) : Except Fault Bool :=
  match S with
  | dense A rm =>
    forRange 0 numRows (fun row ok =>
      forRange 0 numColumns (fun column ok =>
        if ok then do
          let x ← rd A (if rm then row * numColumns + column else column * numRows + row)
          .ok (identityElementOk row column x)
        else .ok false) ok) true
  | csr d ix p =>
    forRange 0 numRows (fun row ok =>
      if ok then do
        forRange (← rd p row) (← rd p (row + 1)) (fun k ok =>
          if ok then do
            let column ← rd ix k
            .ok (identityElementOk row column (← rd d k))
          else .ok false) ok
      else .ok false) true
  | csc d ix p =>
    forRange 0 numColumns (fun column ok =>
      if ok then do
        forRange (← rd p column) (← rd p (column + 1)) (fun k ok =>
          if ok then do
            let row ← rd ix k
            .ok (identityElementOk row column (← rd d k))
          else .ok false) ok
      else .ok false) true

end StoredMatrix

/-- `cAffineMatrixFunction` and its dense/CSR/CSC subclasses after construction. -/
structure AffineOp (K : Type _) where
  A : StoredMatrix K
  B : Option (StoredMatrix K)
  numRows : Nat
  numColumns : Nat
  bIsIdentity : Bool
  eigenvalueRelationKnown : Bool

namespace AffineOp

/-- The two constructors, c_csr_affine_matrix_function.cpp:28-47 and 54-78 (identical in
c_csc_affine_matrix_function.cpp and, with other storage arguments,
c_dense_affine_matrix_function.cpp:28-46, 53-75). -/
def construct (A : StoredMatrix K) (B : Option (StoredMatrix K)) (numRows numColumns : Nat) :
    Except Fault (AffineOp K) :=
  match B with
  | none => .ok ⟨A, none, numRows, numColumns, true, true⟩
  | some B => do
    if ← B.isIdentity numRows numColumns then
      .ok ⟨A, some B, numRows, numColumns, true, true⟩
    else
      .ok ⟨A, some B, numRows, numColumns, false, false⟩

/-- `_add_scaled_vector`, c_affine_matrix_function.cpp:135-145. -/
def addScaledVector (input : Array K) (n : Nat) (scale : K) (output : Array K) :
    Except Fault (Array K) :=
  VectorOps.subtractScaledVector input n (-scale) output

/-- `dot`, c_csr_affine_matrix_function.cpp:111-143 (same text in the CSC class;
c_dense_affine_matrix_function.cpp:108-140).  `parameters = none` models the `NULL` pointer, on
which `assert` fires (line 124/138). -/
def dot (O : AffineOp K) (parameter : Option K) (vector product : Array K) :
    Except Fault (Array K) := do
  let product ← O.A.dot O.numRows O.numColumns vector product
  match parameter with
  | none => .error .abort
  | some t =>
    if O.bIsIdentity then
      let minVectorSize := if O.numRows < O.numColumns then O.numRows else O.numColumns
      addScaledVector vector minVectorSize t product
    else match O.B with
      | none => .error .abort
      | some B => B.dotPlus O.numRows O.numColumns vector t product

/-- `transpose_dot`, c_csr_affine_matrix_function.cpp:167-199 (CSC: same text;
c_dense_affine_matrix_function.cpp:164-196). -/
def transposeDot (O : AffineOp K) (parameter : Option K) (vector product : Array K) :
    Except Fault (Array K) := do
  let product ← O.A.transposeDot O.numRows O.numColumns vector product
  match parameter with
  | none => .error .abort
  | some t =>
    if O.bIsIdentity then
      let minVectorSize := if O.numRows < O.numColumns then O.numRows else O.numColumns
      addScaledVector vector minVectorSize t product
    else match O.B with
      | none => .error .abort
      | some B => B.transposeDotPlus O.numRows O.numColumns vector t product

/-- `get_eigenvalue`, c_affine_matrix_function.cpp:97-113. -/
def getEigenvalue (knownParameter knownEigenvalue inquiryParameter : K) : K :=
  knownEigenvalue - knownParameter + inquiryParameter

end AffineOp
end Imate
