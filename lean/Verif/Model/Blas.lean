import Verif.Model.Cuda

/-!
# Model of the build with OpenBLAS (`USE_CBLAS == 1`)

* `imate/_c_basic_algebra/cblas_interface.cpp`
* the `USE_CBLAS == 1` branches of `c_vector_operations.cpp` and `c_matrix_operations.cpp`

The routines of OpenBLAS are modelled by their documented behaviour over exact arithmetic: a size that is zero or negative
means nothing to do; an illegal argument of `gemv` is reported on the console and the routine returns without doing
anything.  Increments are one everywhere and left out.
-/

namespace Imate.Blas

variable {K : Type _} [Field K] [DecidableEq K]

/-- `DataType` -/
inductive Precision where
  | single
  | double
  | extended
  deriving DecidableEq, Repr

/-- The conversion of a `LongIndexType` to the `int` of the BLAS interface, cblas_interface.h:41-98 (modulo `2^32`). -/
def toInt (n : Nat) : Int := ((n : Int) + 2 ^ 31) % 2 ^ 32 - 2 ^ 31

/-- How many elements a routine works on. -/
def count (n : Nat) : Nat := (toInt n).toNat

/-- The specialisations for `long double` abort, cblas_interface.cpp:98-133, 181-202, 252-275, 323-344, 388-405,
451-470. -/
def native {α : Type _} (p : Precision) (r : Except Fault α) : Except Fault α :=
  match p with
  | .single => r
  | .double => r
  | .extended => .error .abort

/-- `xcopy`, cblas_interface.cpp:143-202 -/
def xcopy (p : Precision) (n : Nat) (x y : Array K) : Except Fault (Array K) :=
  native p (forRange 0 (count n) (fun i y => do wr y i (← rd x i)) y)

/-- `xaxpy`, cblas_interface.cpp:212-275 -/
def xaxpy (p : Precision) (n : Nat) (alpha : K) (x y : Array K) : Except Fault (Array K) :=
  native p (Cuda.axpy (count n) alpha x y)

/-- `xdot`, cblas_interface.cpp:285-344 -/
def xdot (p : Precision) (n : Nat) (x y : Array K) : Except Fault K :=
  native p (MatrixOps.plainDot (rd x) (rd y) (count n))

/-- `xnrm2`, cblas_interface.cpp:354-405 -/
def xnrm2 (sqrt : K → K) (p : Precision) (n : Nat) (x : Array K) : Except Fault K :=
  native p (do .ok (sqrt (← MatrixOps.plainDot (rd x) (rd x) (count n))))

/-- `xscal`, cblas_interface.cpp:415-470 -/
def xscal (p : Precision) (n : Nat) (alpha : K) (x : Array K) : Except Fault (Array K) :=
  native p (Cuda.scal (count n) alpha x)

/-- `xgemv` without transposition, cblas_interface.cpp:44-133: `y := alpha * A * x + beta * y`, where entry `(i, j)` is at
`i * lda + j` (row major) or `i + j * lda` (column major). -/
def xgemv (p : Precision) (rowMajor : Bool) (m n : Int) (alpha : K) (A : Array K) (lda : Int) (x : Array K) (beta : K)
    (y : Array K) : Except Fault (Array K) :=
  native p (
    if m < 0 ∨ n < 0 ∨ lda < max 1 (if rowMajor then n else m) then .ok y
    else if m = 0 ∨ n = 0 then .ok y
    else forRange 0 m.toNat (fun i y => do
      let s ← MatrixOps.plainDot (fun j => rd A (if rowMajor then i * lda.toNat + j else i + j * lda.toNat)) (rd x) n.toNat
      wr y i (alpha * s + (← Cuda.scaledOld beta y i))) y)

/-- `copy_vector`, c_vector_operations.cpp:44-52 -/
def copyVector (p : Precision) (input : Array K) (n : Nat) (output : Array K) : Except Fault (Array K) :=
  xcopy p n input output

/-- `copy_scaled_vector`, c_vector_operations.cpp:87-97 -/
def copyScaledVector (p : Precision) (input : Array K) (n : Nat) (scale : K) (output : Array K) : Except Fault (Array K) := do
  let output ← xcopy p n input output
  xscal p n scale output

/-- `subtract_scaled_vector`, c_vector_operations.cpp:142-151 -/
def subtractScaledVector (p : Precision) (input : Array K) (n : Nat) (scale : K) (output : Array K) :
    Except Fault (Array K) := xaxpy p n (-scale) input output

/-- `inner_product`, c_vector_operations.cpp:209-219 -/
def innerProduct (p : Precision) (v1 v2 : Array K) (n : Nat) : Except Fault K := xdot p n v1 v2

/-- `euclidean_norm`, c_vector_operations.cpp:285-293 -/
def euclideanNorm (sqrt : K → K) (p : Precision) (v : Array K) (n : Nat) : Except Fault K := xnrm2 sqrt p n v

/-- `normalize_vector_in_place`, c_vector_operations.cpp:342-354 -/
def normalizeInPlace (sqrt : K → K) (p : Precision) (v : Array K) (n : Nat) : Except Fault (Array K × K) := do
  let norm ← euclideanNorm sqrt p v n
  .ok (← xscal p n (1 / norm) v, norm)

/-- `normalize_vector_and_copy`, c_vector_operations.cpp:394-406 -/
def normalizeAndCopy (sqrt : K → K) (p : Precision) (v : Array K) (n : Nat) (output : Array K) :
    Except Fault (Array K × K) := do
  let norm ← euclideanNorm sqrt p v n
  .ok (← copyScaledVector p v n (1 / norm) output, norm)

/-- `dense_matvec`, c_matrix_operations.cpp:69-91: the leading dimension is the number of rows in both layouts. -/
def denseMatvec (p : Precision) (A b : Array K) (numRows numColumns : Nat) (rowMajor : Bool) (c : Array K) :
    Except Fault (Array K) :=
  xgemv p rowMajor (toInt numRows) (toInt numColumns) 1 A (toInt numRows) b 0 c

/-- The product with the Gram matrix of a dense matrix: `dot` (c_dense_matrix.cpp:121-133, here with OpenBLAS) and then
`transpose_dot` (c_dense_matrix.cpp:161-173), as in c_golub_kahn_bidiagonalization.cpp. -/
def gramProduct (p : Precision) (A b : Array K) (numRows numColumns : Nat) (rowMajor : Bool) (c d : Array K) :
    Except Fault (Array K) := do
  let c ← denseMatvec p A b numRows numColumns rowMajor c
  MatrixOps.denseTransposedMatvec A c numRows numColumns rowMajor d

end Imate.Blas
