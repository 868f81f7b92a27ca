import Verif.Model.MatrixOps
import Verif.Model.Lanczos

/-!
# Machine integers in the native code

The other models compute indices with natural numbers.  Here the same index expressions are computed with
the types of the code (types.h:49-67): `LongIndexType` is a signed integer of `w` bits (32 by default, 64 when
the package is built with `USE_LONG_INT=1` on a system where `long` has 64 bits), `IndexType` is `int`, of 32
bits, in every build.  A signed overflow is undefined behaviour in C++ and is modelled as a fault; a
conversion to a narrower type keeps the low bits.  The unsigned build is in `Verif.Model.MachineUnsigned`.
-/

namespace Imate.Machine

open MatrixOps

/-- The values of a signed integer type of `w` bits. -/
def fits (w : Nat) (x : Int) : Bool := -(2 : Int) ^ (w - 1) ≤ x && x < 2 ^ (w - 1)

/-- `x * y` in a signed type of `w` bits. -/
def mul (w : Nat) (x y : Int) : Except Fault Int := if fits w (x * y) then .ok (x * y) else .error .invalid

/-- `x + y` in a signed type of `w` bits. -/
def add (w : Nat) (x y : Int) : Except Fault Int := if fits w (x + y) then .ok (x + y) else .error .invalid

/-- Conversion of an integer to a signed type of `w` bits (`astype` of NumPy, implicit conversions of C++). -/
def narrow (w : Nat) (x : Int) : Int := x.bmod (2 ^ w)

/-- `p[k]` with a signed index. -/
def rdI {α : Type _} (a : Array α) (k : Int) : Except Fault α :=
  if k < 0 then .error .outOfBounds else rd a k.toNat

/-- `new T[size]`: a negative size raises `std::bad_array_new_length`, which nothing catches. -/
def alloc (size : Int) : Except Fault Nat := if size < 0 then .error .abort else .ok size.toNat

section Dense

variable {K : Type _} [CommRing K] [DecidableEq K]

/-- `A[i*num_columns + j]`, c_matrix_operations.cpp:109. -/
def rowMajorAt (w : Nat) (A : Array K) (numColumns i j : Nat) : Except Fault K := do
  rdI A (← add w (← mul w i numColumns) j)

/-- `A[i + num_rows*j]`, c_matrix_operations.cpp:132. -/
def columnMajorAt (w : Nat) (A : Array K) (numRows i j : Nat) : Except Fault K := do
  rdI A (← add w i (← mul w numRows j))

/-- `dense_matvec`, c_matrix_operations.cpp:60-139 (branch 92-138), with machine integers. -/
def denseMatvec (w : Nat) (A b : Array K) (numRows numColumns : Nat) (rowMajor : Bool) (c : Array K) :
    Except Fault (Array K) :=
  if rowMajor then
    forRange 0 numRows (fun i c => do
      let sum ← chunkedDot (fun j => rowMajorAt w A numColumns i j) (rd b) numColumns
      wr c i sum) c
  else
    forRange 0 numRows (fun i c => do
      let sum ← plainDot (fun j => columnMajorAt w A numRows i j) (rd b) numColumns
      wr c i sum) c

/-- `dense_transposed_matvec`, c_matrix_operations.cpp:277-328, with machine integers. -/
def denseTransposedMatvec (w : Nat) (A b : Array K) (numRows numColumns : Nat) (rowMajor : Bool)
    (c : Array K) : Except Fault (Array K) :=
  if rowMajor then
    forRange 0 numColumns (fun j c => do
      let sum ← plainDot (fun i => rowMajorAt w A numColumns i j) (rd b) numRows
      wr c j sum) c
  else
    forRange 0 numColumns (fun j c => do
      let sum ← chunkedDot (fun i => columnMajorAt w A numRows i j) (rd b) numRows
      wr c j sum) c

/-- `dense_matvec_plus`, c_matrix_operations.cpp:180-237, with machine integers. -/
def denseMatvecPlus (w : Nat) (A b : Array K) (alpha : K) (numRows numColumns : Nat) (rowMajor : Bool)
    (c : Array K) : Except Fault (Array K) :=
  if alpha = 0 then .ok c
  else if rowMajor then
    forRange 0 numRows (fun i c => do
      let sum ← chunkedDot (fun j => rowMajorAt w A numColumns i j) (rd b) numColumns
      wr c i ((← rd c i) + alpha * sum)) c
  else
    forRange 0 numRows (fun i c => do
      let sum ← plainDot (fun j => columnMajorAt w A numRows i j) (rd b) numColumns
      wr c i ((← rd c i) + alpha * sum)) c

/-- `dense_transposed_matvec_plus`, c_matrix_operations.cpp:370-427, with machine integers. -/
def denseTransposedMatvecPlus (w : Nat) (A b : Array K) (alpha : K) (numRows numColumns : Nat)
    (rowMajor : Bool) (c : Array K) : Except Fault (Array K) :=
  if alpha = 0 then .ok c
  else if rowMajor then
    forRange 0 numColumns (fun j c => do
      let sum ← plainDot (fun i => rowMajorAt w A numColumns i j) (rd b) numRows
      wr c j ((← rd c j) + alpha * sum)) c
  else
    forRange 0 numColumns (fun j c => do
      let sum ← chunkedDot (fun i => columnMajorAt w A numRows i j) (rd b) numRows
      wr c j ((← rd c j) + alpha * sum)) c

/-! ### Sparse matrices -/

/-- The arrays `indices` and `indptr` as the native code gets them, py_c_matrix.pyx:398-402. -/
def castIndices (w : Nat) (a : Array Nat) : Array Int := a.map fun k : Nat => narrow w (k : Int)

/-- One row of `csr_matvec`, c_matrix_operations.cpp:484-491, with signed pointers and column indices. -/
def gather (data : Array K) (indices : Array Int) (b : Array K) (lo hi : Int) : Except Fault K :=
  if hi ≤ lo then .ok 0
  else if lo < 0 then .error .outOfBounds
  else forRange lo.toNat hi.toNat (fun k s => do
    let column ← rd indices k
    .ok (s + (← rd data k) * (← rdI b column))) 0

/-- `csr_matvec`, c_matrix_operations.cpp:468-494, on the converted arrays. -/
def csrMatvec (w : Nat) (data : Array K) (colIdx ptr : Array Nat) (b : Array K) (numRows : Nat)
    (c : Array K) : Except Fault (Array K) :=
  let ci := castIndices w colIdx
  let pi := castIndices w ptr
  forRange 0 numRows (fun row c => do
    let sum ← gather data ci b (← rd pi row) (← rd pi (row + 1))
    wr c row sum) c

/-- `csr_matvec_plus`, c_matrix_operations.cpp:539-571, on the converted arrays. -/
def csrMatvecPlus (w : Nat) (data : Array K) (colIdx ptr : Array Nat) (b : Array K) (alpha : K)
    (numRows : Nat) (c : Array K) : Except Fault (Array K) :=
  let ci := castIndices w colIdx
  let pi := castIndices w ptr
  if alpha = 0 then .ok c
  else forRange 0 numRows (fun row c => do
    let sum ← gather data ci b (← rd pi row) (← rd pi (row + 1))
    wr c row ((← rd c row) + alpha * sum)) c

/-- `p[k] = x` with a signed index. -/
def wrI {α : Type _} (a : Array α) (k : Int) (x : α) : Except Fault (Array α) :=
  if k < 0 then .error .outOfBounds else wr a k.toNat x

/-- One row of `csr_transposed_matvec` or column of `csc_matvec`, c_matrix_operations.cpp:627-633, 692-698, 756-762,
821-827, with signed pointers and indices. -/
def scatter (data : Array K) (indices : Array Int) (b : Array K) (alpha : Option K) (p : Nat) (lo hi : Int)
    (c : Array K) : Except Fault (Array K) :=
  if hi ≤ lo then .ok c
  else if lo < 0 then .error .outOfBounds
  else forRange lo.toNat hi.toNat (fun k c => do
    let column ← rd indices k
    wrI c column ((← rdI c column) + scatterTerm alpha (← rd data k) (← rd b p))) c

/-- `csr_transposed_matvec`, c_matrix_operations.cpp:605-635, on the converted arrays. -/
def csrTransposedMatvec (w : Nat) (data : Array K) (colIdx ptr : Array Nat) (b : Array K)
    (numRows numColumns : Nat) (c : Array K) : Except Fault (Array K) := do
  let ci := castIndices w colIdx
  let pi := castIndices w ptr
  let c ← zeroFill numColumns c
  forRange 0 numRows (fun row c => do
    scatter data ci b none row (← rd pi row) (← rd pi (row + 1)) c) c

/-- `csr_transposed_matvec_plus`, c_matrix_operations.cpp:671-700, on the converted arrays. -/
def csrTransposedMatvecPlus (w : Nat) (data : Array K) (colIdx ptr : Array Nat) (b : Array K) (alpha : K)
    (numRows : Nat) (c : Array K) : Except Fault (Array K) :=
  let ci := castIndices w colIdx
  let pi := castIndices w ptr
  if alpha = 0 then .ok c
  else forRange 0 numRows (fun row c => do
    scatter data ci b (some alpha) row (← rd pi row) (← rd pi (row + 1)) c) c

/-- `csc_matvec`, c_matrix_operations.cpp:734-764, on the converted arrays (py_c_matrix.pyx:445-449). -/
def cscMatvec (w : Nat) (data : Array K) (rowIdx ptr : Array Nat) (b : Array K) (numRows numColumns : Nat)
    (c : Array K) : Except Fault (Array K) := do
  let ri := castIndices w rowIdx
  let pi := castIndices w ptr
  let c ← zeroFill numRows c
  forRange 0 numColumns (fun column c => do
    scatter data ri b none column (← rd pi column) (← rd pi (column + 1)) c) c

/-- `csc_matvec_plus`, c_matrix_operations.cpp:800-829, on the converted arrays. -/
def cscMatvecPlus (w : Nat) (data : Array K) (rowIdx ptr : Array Nat) (b : Array K) (alpha : K)
    (numColumns : Nat) (c : Array K) : Except Fault (Array K) :=
  let ri := castIndices w rowIdx
  let pi := castIndices w ptr
  if alpha = 0 then .ok c
  else forRange 0 numColumns (fun column c => do
    scatter data ri b (some alpha) column (← rd pi column) (← rd pi (column + 1)) c) c

/-- `csc_transposed_matvec`, c_matrix_operations.cpp:871-897, on the converted arrays. -/
def cscTransposedMatvec (w : Nat) (data : Array K) (rowIdx ptr : Array Nat) (b : Array K)
    (numColumns : Nat) (c : Array K) : Except Fault (Array K) :=
  let ri := castIndices w rowIdx
  let pi := castIndices w ptr
  forRange 0 numColumns (fun column c => do
    let sum ← gather data ri b (← rd pi column) (← rd pi (column + 1))
    wr c column sum) c

/-- `csc_transposed_matvec_plus`, c_matrix_operations.cpp:942-974, on the converted arrays. -/
def cscTransposedMatvecPlus (w : Nat) (data : Array K) (rowIdx ptr : Array Nat) (b : Array K) (alpha : K)
    (numColumns : Nat) (c : Array K) : Except Fault (Array K) :=
  let ri := castIndices w rowIdx
  let pi := castIndices w ptr
  if alpha = 0 then .ok c
  else forRange 0 numColumns (fun column c => do
    let sum ← gather data ri b (← rd pi column) (← rd pi (column + 1))
    wr c column ((← rd c column) + alpha * sum)) c

end Dense

/-! ### Work arrays of a run -/

/-- The work array of all threads, c_trace_estimator.cpp:220-231: its size and the places of the threads
(c_trace_estimator.cpp:271) are computed with `int` in every build. -/
def randomVectors (numRows numThreads : Nat) : Except Fault (Nat × Nat) := do
  let matrixSize := narrow 32 numRows
  let size ← alloc (← mul 32 matrixSize numThreads)
  .ok (matrixSize.toNat, size)

/-- `&random_vectors[matrix_size*thread_id]`, c_trace_estimator.cpp:271. -/
def randomVectorOf (numRows thread : Nat) : Except Fault Int := mul 32 (narrow 32 numRows) thread

/-- The buffer of the Lanczos vectors, c_lanczos_tridiagonalization.cpp:128-149. -/
def lanczosBuffer (w n m : Nat) (orthogonalize : Int) : Except Fault Nat := do
  alloc (← mul w n (Lanczos.lanczosBufferSize m orthogonalize))

/-- `&V[(j % buffer_size)*n]`, c_lanczos_tridiagonalization.cpp:175. -/
def lanczosRow (w n m : Nat) (orthogonalize : Int) (j : Nat) : Except Fault Int :=
  mul w ((j % Lanczos.lanczosBufferSize m orthogonalize : Nat) : Int) n

/-- The buffers of the Golub-Kahn vectors, c_golub_kahn_bidiagonalization.cpp:122-145. -/
def golubKahnBuffer (w n m : Nat) (orthogonalize : Int) : Except Fault Nat := do
  alloc (← mul w n (Lanczos.golubKahnBufferSize m orthogonalize))

/-- `&V[(j % buffer_size)*n]`, c_golub_kahn_bidiagonalization.cpp:162. -/
def golubKahnRow (w n m : Nat) (orthogonalize : Int) (j : Nat) : Except Fault Int :=
  mul w ((j % Lanczos.golubKahnBufferSize m orthogonalize : Nat) : Int) n

/-- The work array of the decomposition of a bidiagonal matrix, diagonalization.cpp:215; `matrix_size` is an `int`. -/
def svdWork (size : Nat) : Except Fault Nat := do
  alloc (← add 32 (← mul 32 (← mul 32 3 size) size) (← mul 32 4 size))

end Imate.Machine
