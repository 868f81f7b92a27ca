import Verif.Model.Mem
import Mathlib.Algebra.Ring.Defs

/-!
# Model of `imate/_c_basic_algebra/c_matrix_operations.cpp`

Every kernel works on bounds-checked buffers.  Simplifications: exact arithmetic over a commutative
ring instead of floating point (`long double` accumulation is exact here); the `USE_CBLAS == 1`
branch of `dense_matvec` (lines 69-91) is modelled separately (`denseMatvecBlas`).
-/

namespace Imate.MatrixOps

variable {K : Type _} [CommRing K] [DecidableEq K]

/-- Inner loop with unrolling by five followed by the remainder loop, as it appears in
c_matrix_operations.cpp:107-119 (with `a j` standing for the matrix access of the loop body). -/
def chunkedDot (a b : Nat → Except Fault K) (n : Nat) : Except Fault K := do
  let chunk := 5
  let nChunked := n - n % chunk
  let s ← forStep chunk nChunked (fun j s => do
    .ok (s + ((← a j) * (← b j) + (← a (j+1)) * (← b (j+1)) + (← a (j+2)) * (← b (j+2)) +
      (← a (j+3)) * (← b (j+3)) + (← a (j+4)) * (← b (j+4))))) 0
  forRange nChunked n (fun j s => do .ok (s + (← a j) * (← b j))) s

/-- Plain accumulation loop, as in c_matrix_operations.cpp:129-133. -/
def plainDot (a b : Nat → Except Fault K) (n : Nat) : Except Fault K :=
  forRange 0 n (fun j s => do .ok (s + (← a j) * (← b j))) 0

/-- `dense_matvec`, c_matrix_operations.cpp:60-139 (branch 92-138). -/
def denseMatvec (A b : Array K) (numRows numColumns : Nat) (rowMajor : Bool) (c : Array K) :
    Except Fault (Array K) :=
  if rowMajor then
    forRange 0 numRows (fun i c => do
      let sum ← chunkedDot (fun j => rd A (i * numColumns + j)) (rd b) numColumns
      wr c i sum) c
  else
    forRange 0 numRows (fun i c => do
      let sum ← plainDot (fun j => rd A (i + numRows * j)) (rd b) numColumns
      wr c i sum) c

/-- `dense_matvec`, the `USE_CBLAS == 1` branch, c_matrix_operations.cpp:69-91: a call to `xgemv`
with leading dimension `lda = num_rows` in both layouts.  `gemv` is modelled by its reference
definition: entry `(i,j)` is at `i*lda + j` (row major) or `i + j*lda` (column major). -/
def denseMatvecBlas (A b : Array K) (numRows numColumns : Nat) (rowMajor : Bool) (c : Array K) :
    Except Fault (Array K) :=
  let lda := numRows
  forRange 0 numRows (fun i c => do
    let sum ← plainDot (fun j => rd A (if rowMajor then i * lda + j else i + j * lda)) (rd b)
      numColumns
    wr c i sum) c

/-- `dense_matvec_plus`, c_matrix_operations.cpp:180-237. -/
def denseMatvecPlus (A b : Array K) (alpha : K) (numRows numColumns : Nat) (rowMajor : Bool)
    (c : Array K) : Except Fault (Array K) :=
  if alpha = 0 then .ok c
  else if rowMajor then
    forRange 0 numRows (fun i c => do
      let sum ← chunkedDot (fun j => rd A (i * numColumns + j)) (rd b) numColumns
      wr c i ((← rd c i) + alpha * sum)) c
  else
    forRange 0 numRows (fun i c => do
      let sum ← plainDot (fun j => rd A (i + numRows * j)) (rd b) numColumns
      wr c i ((← rd c i) + alpha * sum)) c

/-- `dense_transposed_matvec`, c_matrix_operations.cpp:277-328. -/
def denseTransposedMatvec (A b : Array K) (numRows numColumns : Nat) (rowMajor : Bool)
    (c : Array K) : Except Fault (Array K) :=
  if rowMajor then
    forRange 0 numColumns (fun j c => do
      let sum ← plainDot (fun i => rd A (i * numColumns + j)) (rd b) numRows
      wr c j sum) c
  else
    forRange 0 numColumns (fun j c => do
      let sum ← chunkedDot (fun i => rd A (i + numRows * j)) (rd b) numRows
      wr c j sum) c

/-- `dense_transposed_matvec_plus`, c_matrix_operations.cpp:370-427. -/
def denseTransposedMatvecPlus (A b : Array K) (alpha : K) (numRows numColumns : Nat)
    (rowMajor : Bool) (c : Array K) : Except Fault (Array K) :=
  if alpha = 0 then .ok c
  else if rowMajor then
    forRange 0 numColumns (fun j c => do
      let sum ← plainDot (fun i => rd A (i * numColumns + j)) (rd b) numRows
      wr c j ((← rd c j) + alpha * sum)) c
  else
    forRange 0 numColumns (fun j c => do
      let sum ← chunkedDot (fun i => rd A (i + numRows * j)) (rd b) numRows
      wr c j ((← rd c j) + alpha * sum)) c

/-- Gather loop over one compressed row/column, c_matrix_operations.cpp:484-491. -/
def gather (data : Array K) (indices : Array Nat) (b : Array K) (lo hi : Nat) : Except Fault K :=
  forRange lo hi (fun k s => do
    let column ← rd indices k
    .ok (s + (← rd data k) * (← rd b column))) 0

/-- The summand of the scatter loops: `A_data[k] * b[row]` (c_matrix_operations.cpp:632, 761) or
`alpha * A_data[k] * b[row]` (c_matrix_operations.cpp:697, 826). -/
def scatterTerm (alpha : Option K) (x y : K) : K :=
  match alpha with
  | none => x * y
  | some a => a * x * y

/-- Scatter loop over one compressed row/column, c_matrix_operations.cpp:627-633, with the factor
`alpha` of c_matrix_operations.cpp:692-698 (`alpha = none` for the variant without factor).  `b[p]`
is read in every iteration. -/
def scatter (data : Array K) (indices : Array Nat) (b : Array K) (alpha : Option K) (p lo hi : Nat)
    (c : Array K) : Except Fault (Array K) :=
  forRange lo hi (fun k c => do
    let column ← rd indices k
    wr c column ((← rd c column) + scatterTerm alpha (← rd data k) (← rd b p))) c

/-- Zeroing loop, c_matrix_operations.cpp:619-623 and 748-752. -/
def zeroFill (n : Nat) (c : Array K) : Except Fault (Array K) :=
  forRange 0 n (fun i c => wr c i 0) c

/-- `csr_matvec`, c_matrix_operations.cpp:468-494. -/
def csrMatvec (data : Array K) (colIdx ptr : Array Nat) (b : Array K) (numRows : Nat)
    (c : Array K) : Except Fault (Array K) :=
  forRange 0 numRows (fun row c => do
    let sum ← gather data colIdx b (← rd ptr row) (← rd ptr (row + 1))
    wr c row sum) c

/-- `csr_matvec_plus`, c_matrix_operations.cpp:539-571. -/
def csrMatvecPlus (data : Array K) (colIdx ptr : Array Nat) (b : Array K) (alpha : K)
    (numRows : Nat) (c : Array K) : Except Fault (Array K) :=
  if alpha = 0 then .ok c
  else forRange 0 numRows (fun row c => do
    let sum ← gather data colIdx b (← rd ptr row) (← rd ptr (row + 1))
    wr c row ((← rd c row) + alpha * sum)) c

/-- `csr_transposed_matvec`, c_matrix_operations.cpp:605-635. -/
def csrTransposedMatvec (data : Array K) (colIdx ptr : Array Nat) (b : Array K)
    (numRows numColumns : Nat) (c : Array K) : Except Fault (Array K) := do
  let c ← zeroFill numColumns c
  forRange 0 numRows (fun row c => do
    scatter data colIdx b none row (← rd ptr row) (← rd ptr (row + 1)) c) c

/-- `csr_transposed_matvec_plus`, c_matrix_operations.cpp:671-700. -/
def csrTransposedMatvecPlus (data : Array K) (colIdx ptr : Array Nat) (b : Array K) (alpha : K)
    (numRows : Nat) (c : Array K) : Except Fault (Array K) :=
  if alpha = 0 then .ok c
  else forRange 0 numRows (fun row c => do
    scatter data colIdx b (some alpha) row (← rd ptr row) (← rd ptr (row + 1)) c) c

/-- `csc_matvec`, c_matrix_operations.cpp:734-764. -/
def cscMatvec (data : Array K) (rowIdx ptr : Array Nat) (b : Array K) (numRows numColumns : Nat)
    (c : Array K) : Except Fault (Array K) := do
  let c ← zeroFill numRows c
  forRange 0 numColumns (fun column c => do
    scatter data rowIdx b none column (← rd ptr column) (← rd ptr (column + 1)) c) c

/-- `csc_matvec_plus`, c_matrix_operations.cpp:800-829. -/
def cscMatvecPlus (data : Array K) (rowIdx ptr : Array Nat) (b : Array K) (alpha : K)
    (numColumns : Nat) (c : Array K) : Except Fault (Array K) :=
  if alpha = 0 then .ok c
  else forRange 0 numColumns (fun column c => do
    scatter data rowIdx b (some alpha) column (← rd ptr column) (← rd ptr (column + 1)) c) c

/-- `csc_transposed_matvec`, c_matrix_operations.cpp:871-897. -/
def cscTransposedMatvec (data : Array K) (rowIdx ptr : Array Nat) (b : Array K)
    (numColumns : Nat) (c : Array K) : Except Fault (Array K) :=
  forRange 0 numColumns (fun column c => do
    let sum ← gather data rowIdx b (← rd ptr column) (← rd ptr (column + 1))
    wr c column sum) c

/-- `csc_transposed_matvec_plus`, c_matrix_operations.cpp:942-974. -/
def cscTransposedMatvecPlus (data : Array K) (rowIdx ptr : Array Nat) (b : Array K) (alpha : K)
    (numColumns : Nat) (c : Array K) : Except Fault (Array K) :=
  if alpha = 0 then .ok c
  else forRange 0 numColumns (fun column c => do
    let sum ← gather data rowIdx b (← rd ptr column) (← rd ptr (column + 1))
    wr c column ((← rd c column) + alpha * sum)) c

end Imate.MatrixOps
