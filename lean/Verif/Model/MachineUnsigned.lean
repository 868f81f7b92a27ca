import Verif.Model.MatrixOps
import Verif.Model.Lanczos

/-!
# Unsigned machine integers in the native code

With `USE_UNSIGNED_LONG_INT=1` (setup.py:181-187, types.h:49-61) the type `LongIndexType` is an unsigned integer of `w`
bits.  Its arithmetic keeps the low `w` bits of a result and never faults.
-/

namespace Imate.Machine.Unsigned

open MatrixOps

/-- An integer in an unsigned type of `w` bits. -/
def wrap (w x : Nat) : Nat := x % 2 ^ w

section

variable {K : Type _} [CommRing K] [DecidableEq K]

/-- `A[i*num_columns + j]`, c_matrix_operations.cpp:109. -/
def rowMajorAt (w : Nat) (A : Array K) (numColumns i j : Nat) : Except Fault K :=
  rd A (wrap w (wrap w (i * numColumns) + j))

/-- `A[i + num_rows*j]`, c_matrix_operations.cpp:132. -/
def columnMajorAt (w : Nat) (A : Array K) (numRows i j : Nat) : Except Fault K :=
  rd A (wrap w (i + wrap w (numRows * j)))

/-- `dense_matvec`, c_matrix_operations.cpp:60-139 (branch 92-138), with unsigned integers. -/
def denseMatvec (w : Nat) (A b : Array K) (numRows numColumns : Nat) (rowMajor : Bool) (c : Array K) :
    Except Fault (Array K) :=
  if rowMajor then
    forRange 0 numRows (fun i c => do
      let sum ← chunkedDot (fun j => rowMajorAt w A numColumns i j) (rd b) numColumns
      wr c i sum) c
  else
    forRange 0 numRows (fun i c => do
      let sum ← plainDot (fun j => columnMajorAt w A numRows i j) (rd b) numColumns
      wr c i sum) c

/-- `dense_transposed_matvec`, c_matrix_operations.cpp:277-328, with unsigned integers. -/
def denseTransposedMatvec (w : Nat) (A b : Array K) (numRows numColumns : Nat) (rowMajor : Bool)
    (c : Array K) : Except Fault (Array K) :=
  if rowMajor then
    forRange 0 numColumns (fun j c => do
      let sum ← plainDot (fun i => rowMajorAt w A numColumns i j) (rd b) numRows
      wr c j sum) c
  else
    forRange 0 numColumns (fun j c => do
      let sum ← chunkedDot (fun i => columnMajorAt w A numRows i j) (rd b) numRows
      wr c j sum) c

/-- `dense_matvec_plus`, c_matrix_operations.cpp:180-237, with unsigned integers. -/
def denseMatvecPlus (w : Nat) (A b : Array K) (alpha : K) (numRows numColumns : Nat) (rowMajor : Bool)
    (c : Array K) : Except Fault (Array K) :=
  if alpha = 0 then .ok c
  else if rowMajor then
    forRange 0 numRows (fun i c => do
      let sum ← chunkedDot (fun j => rowMajorAt w A numColumns i j) (rd b) numColumns
      wr c i ((← rd c i) + alpha * sum)) c
  else
    forRange 0 numRows (fun i c => do
      let sum ← plainDot (fun j => columnMajorAt w A numRows i j) (rd b) numColumns
      wr c i ((← rd c i) + alpha * sum)) c

/-- `dense_transposed_matvec_plus`, c_matrix_operations.cpp:370-427, with unsigned integers. -/
def denseTransposedMatvecPlus (w : Nat) (A b : Array K) (alpha : K) (numRows numColumns : Nat)
    (rowMajor : Bool) (c : Array K) : Except Fault (Array K) :=
  if alpha = 0 then .ok c
  else if rowMajor then
    forRange 0 numColumns (fun j c => do
      let sum ← plainDot (fun i => rowMajorAt w A numColumns i j) (rd b) numRows
      wr c j ((← rd c j) + alpha * sum)) c
  else
    forRange 0 numColumns (fun j c => do
      let sum ← chunkedDot (fun i => columnMajorAt w A numRows i j) (rd b) numRows
      wr c j ((← rd c j) + alpha * sum)) c

/-- The arrays `indices` and `indptr` as the native code gets them, py_c_matrix.pyx:398-402, 445-449 with the type name
`uint32` or `uint64` of py_c_linear_operator.pyx:47-67. -/
def castIndices (w : Nat) (a : Array Nat) : Array Nat := a.map (wrap w)

/-- `csr_matvec`, c_matrix_operations.cpp:468-494, on the converted arrays.  The loops count below a pointer of the
same type, so nothing wraps inside the product; this holds for the seven products below as well. -/
def csrMatvec (w : Nat) (data : Array K) (colIdx ptr : Array Nat) (b : Array K) (numRows : Nat)
    (c : Array K) : Except Fault (Array K) :=
  MatrixOps.csrMatvec data (castIndices w colIdx) (castIndices w ptr) b numRows c

/-- `csr_matvec_plus`, c_matrix_operations.cpp:539-571. -/
def csrMatvecPlus (w : Nat) (data : Array K) (colIdx ptr : Array Nat) (b : Array K) (alpha : K)
    (numRows : Nat) (c : Array K) : Except Fault (Array K) :=
  MatrixOps.csrMatvecPlus data (castIndices w colIdx) (castIndices w ptr) b alpha numRows c

/-- `csr_transposed_matvec`, c_matrix_operations.cpp:605-635. -/
def csrTransposedMatvec (w : Nat) (data : Array K) (colIdx ptr : Array Nat) (b : Array K)
    (numRows numColumns : Nat) (c : Array K) : Except Fault (Array K) :=
  MatrixOps.csrTransposedMatvec data (castIndices w colIdx) (castIndices w ptr) b numRows numColumns c

/-- `csr_transposed_matvec_plus`, c_matrix_operations.cpp:671-700. -/
def csrTransposedMatvecPlus (w : Nat) (data : Array K) (colIdx ptr : Array Nat) (b : Array K) (alpha : K)
    (numRows : Nat) (c : Array K) : Except Fault (Array K) :=
  MatrixOps.csrTransposedMatvecPlus data (castIndices w colIdx) (castIndices w ptr) b alpha numRows c

/-- `csc_matvec`, c_matrix_operations.cpp:734-764. -/
def cscMatvec (w : Nat) (data : Array K) (rowIdx ptr : Array Nat) (b : Array K) (numRows numColumns : Nat)
    (c : Array K) : Except Fault (Array K) :=
  MatrixOps.cscMatvec data (castIndices w rowIdx) (castIndices w ptr) b numRows numColumns c

/-- `csc_matvec_plus`, c_matrix_operations.cpp:800-829. -/
def cscMatvecPlus (w : Nat) (data : Array K) (rowIdx ptr : Array Nat) (b : Array K) (alpha : K)
    (numColumns : Nat) (c : Array K) : Except Fault (Array K) :=
  MatrixOps.cscMatvecPlus data (castIndices w rowIdx) (castIndices w ptr) b alpha numColumns c

/-- `csc_transposed_matvec`, c_matrix_operations.cpp:871-897. -/
def cscTransposedMatvec (w : Nat) (data : Array K) (rowIdx ptr : Array Nat) (b : Array K)
    (numColumns : Nat) (c : Array K) : Except Fault (Array K) :=
  MatrixOps.cscTransposedMatvec data (castIndices w rowIdx) (castIndices w ptr) b numColumns c

/-- `csc_transposed_matvec_plus`, c_matrix_operations.cpp:942-974. -/
def cscTransposedMatvecPlus (w : Nat) (data : Array K) (rowIdx ptr : Array Nat) (b : Array K) (alpha : K)
    (numColumns : Nat) (c : Array K) : Except Fault (Array K) :=
  MatrixOps.cscTransposedMatvecPlus data (castIndices w rowIdx) (castIndices w ptr) b alpha numColumns c

end

/-! ### Work arrays of a run

The array of the random vectors and the work array of the singular values are sized with `int` in every build
(`Machine.randomVectors`, `Machine.svdWork`). -/

/-- The number of elements of the buffer of the Lanczos vectors, `n * buffer_size`,
c_lanczos_tridiagonalization.cpp:128-149; the `int` is converted to the unsigned type. -/
def lanczosBuffer (w n m : Nat) (orthogonalize : Int) : Nat := wrap w (n * Lanczos.lanczosBufferSize m orthogonalize)

/-- `&V[(j % buffer_size)*n]`, c_lanczos_tridiagonalization.cpp:175. -/
def lanczosRow (w n m : Nat) (orthogonalize : Int) (j : Nat) : Nat :=
  wrap w (j % Lanczos.lanczosBufferSize m orthogonalize * n)

/-- The number of elements of each buffer of the Golub-Kahn vectors, c_golub_kahn_bidiagonalization.cpp:122-145. -/
def golubKahnBuffer (w n m : Nat) (orthogonalize : Int) : Nat :=
  wrap w (n * Lanczos.golubKahnBufferSize m orthogonalize)

/-- `&V[(j % buffer_size)*n]` and `&U[(j % buffer_size)*n]`, c_golub_kahn_bidiagonalization.cpp:162. -/
def golubKahnRow (w n m : Nat) (orthogonalize : Int) (j : Nat) : Nat :=
  wrap w (j % Lanczos.golubKahnBufferSize m orthogonalize * n)

end Imate.Machine.Unsigned
