import Mathlib.Analysis.Real.Sqrt
import Verif.Model.Mem

/-!
# The matrix and vector kernels with rounding

`flD` rounds to `DataType` (`float`, `double`, `long double`), `flL` rounds to `long double`, the type of the variable
in which most kernels add up.  A product of two elements, and the sum of the five products of one iteration, have type
`DataType`; only the addition to the running sum is done in `long double`.  Simplifications: no overflow, underflow or
NaN; no contraction of a product and a sum into one operation; the branches without CBLAS.
-/

namespace Imate.Rounded

variable (flD flL : ℝ → ℝ)

/-- `x * y` of two elements. -/
noncomputable def times (x y : ℝ) : ℝ := flD (x * y)

/-- The sum of five products of one iteration, from left to right, c_matrix_operations.cpp:109-113. -/
noncomputable def five (p0 p1 p2 p3 p4 : ℝ) : ℝ := flD (flD (flD (flD (p0 + p1) + p2) + p3) + p4)

/-- The unrolled loop and the remainder loop, c_matrix_operations.cpp:107-119. -/
noncomputable def chunkedDot (a b : Nat → Except Fault ℝ) (n : Nat) : Except Fault ℝ := do
  let chunk := 5
  let nChunked := n - n % chunk
  let s ← forStep chunk nChunked (fun j s => do
    .ok (flL (s + five flD (times flD (← a j) (← b j)) (times flD (← a (j+1)) (← b (j+1)))
      (times flD (← a (j+2)) (← b (j+2))) (times flD (← a (j+3)) (← b (j+3)))
      (times flD (← a (j+4)) (← b (j+4)))))) 0
  forRange nChunked n (fun j s => do .ok (flL (s + times flD (← a j) (← b j)))) s

/-- The plain loop, c_matrix_operations.cpp:129-133. -/
noncomputable def plainDot (a b : Nat → Except Fault ℝ) (n : Nat) : Except Fault ℝ :=
  forRange 0 n (fun j s => do .ok (flL (s + times flD (← a j) (← b j)))) 0

/-- `dense_matvec`, c_matrix_operations.cpp:60-139 (branch 92-138). -/
noncomputable def denseMatvec (A b : Array ℝ) (numRows numColumns : Nat) (rowMajor : Bool) (c : Array ℝ) :
    Except Fault (Array ℝ) :=
  if rowMajor then
    forRange 0 numRows (fun i c => do
      let sum ← chunkedDot flD flL (fun j => rd A (i * numColumns + j)) (rd b) numColumns
      wr c i (flD sum)) c
  else
    forRange 0 numRows (fun i c => do
      let sum ← plainDot flD flL (fun j => rd A (i + numRows * j)) (rd b) numColumns
      wr c i (flD sum)) c

/-- `dense_transposed_matvec`, c_matrix_operations.cpp:277-328. -/
noncomputable def denseTransposedMatvec (A b : Array ℝ) (numRows numColumns : Nat) (rowMajor : Bool)
    (c : Array ℝ) : Except Fault (Array ℝ) :=
  if rowMajor then
    forRange 0 numColumns (fun j c => do
      let sum ← plainDot flD flL (fun i => rd A (i * numColumns + j)) (rd b) numRows
      wr c j (flD sum)) c
  else
    forRange 0 numColumns (fun j c => do
      let sum ← chunkedDot flD flL (fun i => rd A (i + numRows * j)) (rd b) numRows
      wr c j (flD sum)) c

/-- One row of `csr_matvec`, c_matrix_operations.cpp:484-491. -/
noncomputable def gather (data : Array ℝ) (indices : Array Nat) (b : Array ℝ) (lo hi : Nat) : Except Fault ℝ :=
  forRange lo hi (fun k s => do
    let column ← rd indices k
    .ok (flL (s + times flD (← rd data k) (← rd b column)))) 0

/-- `csr_matvec`, c_matrix_operations.cpp:468-494. -/
noncomputable def csrMatvec (data : Array ℝ) (colIdx ptr : Array Nat) (b : Array ℝ) (numRows : Nat)
    (c : Array ℝ) : Except Fault (Array ℝ) :=
  forRange 0 numRows (fun row c => do
    let sum ← gather flD flL data colIdx b (← rd ptr row) (← rd ptr (row + 1))
    wr c row (flD sum)) c

/-- `csc_transposed_matvec`, c_matrix_operations.cpp:871-897. -/
noncomputable def cscTransposedMatvec (data : Array ℝ) (rowIdx ptr : Array Nat) (b : Array ℝ)
    (numColumns : Nat) (c : Array ℝ) : Except Fault (Array ℝ) :=
  forRange 0 numColumns (fun column c => do
    let sum ← gather flD flL data rowIdx b (← rd ptr column) (← rd ptr (column + 1))
    wr c column (flD sum)) c

/-- One row of `csr_transposed_matvec`, c_matrix_operations.cpp:627-633: the sums are elements of the result, of type
`DataType`. -/
noncomputable def scatter (data : Array ℝ) (indices : Array Nat) (b : Array ℝ) (p lo hi : Nat)
    (c : Array ℝ) : Except Fault (Array ℝ) :=
  forRange lo hi (fun k c => do
    let column ← rd indices k
    wr c column (flD ((← rd c column) + times flD (← rd data k) (← rd b p)))) c

/-- `csr_transposed_matvec`, c_matrix_operations.cpp:605-635. -/
noncomputable def csrTransposedMatvec (data : Array ℝ) (colIdx ptr : Array Nat) (b : Array ℝ)
    (numRows numColumns : Nat) (c : Array ℝ) : Except Fault (Array ℝ) := do
  let c ← forRange 0 numColumns (fun i c => wr c i 0) c
  forRange 0 numRows (fun row c => do
    scatter flD data colIdx b row (← rd ptr row) (← rd ptr (row + 1)) c) c

/-- `csc_matvec`, c_matrix_operations.cpp:734-764. -/
noncomputable def cscMatvec (data : Array ℝ) (rowIdx ptr : Array Nat) (b : Array ℝ) (numRows numColumns : Nat)
    (c : Array ℝ) : Except Fault (Array ℝ) := do
  let c ← forRange 0 numRows (fun i c => wr c i 0) c
  forRange 0 numColumns (fun column c => do
    scatter flD data rowIdx b column (← rd ptr column) (← rd ptr (column + 1)) c) c

/-- `inner_product`, c_vector_operations.cpp:203-244 (branch 220-243). -/
noncomputable def innerProduct (v1 v2 : Array ℝ) (n : Nat) : Except Fault ℝ := do
  .ok (flD (← chunkedDot flD flL (rd v1) (rd v2) n))

/-- `euclidean_norm`, c_vector_operations.cpp:280-321 (branch 294-319). -/
noncomputable def euclideanNorm (v : Array ℝ) (n : Nat) : Except Fault ℝ := do
  .ok (flD (Real.sqrt (flD (← chunkedDot flD flL (rd v) (rd v) n))))

/-! ### Kernels that add a multiple of a product to the result -/

/-- `dense_matvec_plus`, c_matrix_operations.cpp:180-237: the sum is cast to `DataType`, then scaled. -/
noncomputable def denseMatvecPlus (A b : Array ℝ) (alpha : ℝ) (numRows numColumns : Nat) (rowMajor : Bool)
    (c : Array ℝ) : Except Fault (Array ℝ) := do
  if alpha = 0 then return c
  if rowMajor then
    forRange 0 numRows (fun i c => do
      let sum ← chunkedDot flD flL (fun j => rd A (i * numColumns + j)) (rd b) numColumns
      wr c i (flD ((← rd c i) + times flD alpha (flD sum)))) c
  else
    forRange 0 numRows (fun i c => do
      let sum ← plainDot flD flL (fun j => rd A (i + numRows * j)) (rd b) numColumns
      wr c i (flD ((← rd c i) + times flD alpha (flD sum)))) c

/-- `dense_transposed_matvec_plus`, c_matrix_operations.cpp:370-427. -/
noncomputable def denseTransposedMatvecPlus (A b : Array ℝ) (alpha : ℝ) (numRows numColumns : Nat)
    (rowMajor : Bool) (c : Array ℝ) : Except Fault (Array ℝ) := do
  if alpha = 0 then return c
  if rowMajor then
    forRange 0 numColumns (fun j c => do
      let sum ← plainDot flD flL (fun i => rd A (i * numColumns + j)) (rd b) numRows
      wr c j (flD ((← rd c j) + times flD alpha (flD sum)))) c
  else
    forRange 0 numColumns (fun j c => do
      let sum ← chunkedDot flD flL (fun i => rd A (i + numRows * j)) (rd b) numRows
      wr c j (flD ((← rd c j) + times flD alpha (flD sum)))) c

/-- `csr_matvec_plus`, c_matrix_operations.cpp:539-571. -/
noncomputable def csrMatvecPlus (data : Array ℝ) (colIdx ptr : Array Nat) (b : Array ℝ) (alpha : ℝ)
    (numRows : Nat) (c : Array ℝ) : Except Fault (Array ℝ) := do
  if alpha = 0 then return c
  forRange 0 numRows (fun row c => do
    let sum ← gather flD flL data colIdx b (← rd ptr row) (← rd ptr (row + 1))
    wr c row (flD ((← rd c row) + times flD alpha (flD sum)))) c

/-- `csc_transposed_matvec_plus`, c_matrix_operations.cpp:942-974: the sum is scaled in `long double`, then cast. -/
noncomputable def cscTransposedMatvecPlus (data : Array ℝ) (rowIdx ptr : Array Nat) (b : Array ℝ) (alpha : ℝ)
    (numColumns : Nat) (c : Array ℝ) : Except Fault (Array ℝ) := do
  if alpha = 0 then return c
  forRange 0 numColumns (fun column c => do
    let sum ← gather flD flL data rowIdx b (← rd ptr column) (← rd ptr (column + 1))
    wr c column (flD ((← rd c column) + flD (times flL alpha sum)))) c

/-- One row of `csr_transposed_matvec_plus`, c_matrix_operations.cpp:692-698. -/
noncomputable def scatterPlus (data : Array ℝ) (indices : Array Nat) (b : Array ℝ) (alpha : ℝ) (p lo hi : Nat)
    (c : Array ℝ) : Except Fault (Array ℝ) :=
  forRange lo hi (fun k c => do
    let column ← rd indices k
    wr c column (flD ((← rd c column) + times flD (times flD alpha (← rd data k)) (← rd b p)))) c

/-- `csr_transposed_matvec_plus`, c_matrix_operations.cpp:671-700. -/
noncomputable def csrTransposedMatvecPlus (data : Array ℝ) (colIdx ptr : Array Nat) (b : Array ℝ) (alpha : ℝ)
    (numRows : Nat) (c : Array ℝ) : Except Fault (Array ℝ) := do
  if alpha = 0 then return c
  forRange 0 numRows (fun row c => do
    scatterPlus flD data colIdx b alpha row (← rd ptr row) (← rd ptr (row + 1)) c) c

/-- `csc_matvec_plus`, c_matrix_operations.cpp:800-829. -/
noncomputable def cscMatvecPlus (data : Array ℝ) (rowIdx ptr : Array Nat) (b : Array ℝ) (alpha : ℝ)
    (numColumns : Nat) (c : Array ℝ) : Except Fault (Array ℝ) := do
  if alpha = 0 then return c
  forRange 0 numColumns (fun column c => do
    scatterPlus flD data rowIdx b alpha column (← rd ptr column) (← rd ptr (column + 1)) c) c

/-- `subtract_scaled_vector`, c_vector_operations.cpp:134-166 (branch 153-164). -/
noncomputable def subtractScaledVector (v : Array ℝ) (n : Nat) (scale : ℝ) (out : Array ℝ) :
    Except Fault (Array ℝ) := do
  if scale = 0 then return out
  forRange 0 n (fun i out => do
    wr out i (flD ((← rd out i) - times flD scale (← rd v i)))) out

/-- `normalize_vector_and_copy`, c_vector_operations.cpp:388-422 (branch 407-421): returns the output and the norm. -/
noncomputable def normalizeAndCopy (v : Array ℝ) (n : Nat) (out : Array ℝ) : Except Fault (Array ℝ × ℝ) := do
  let norm ← euclideanNorm flD flL v n
  let out ← forRange 0 n (fun i out => do wr out i (flD ((← rd v i) / norm))) out
  .ok (out, norm)

/-! ### Products with `A + t * B` -/

/-- `cDenseAffineMatrixFunction::dot`, c_dense_affine_matrix_function.cpp:108-140, with `_add_scaled_vector`,
c_affine_matrix_function.cpp:135-145; `B = none` stands for the identity. -/
noncomputable def denseAffineDot (A : Array ℝ) (rowMajorA : Bool) (B : Option (Array ℝ × Bool)) (t : ℝ)
    (numRows numColumns : Nat) (b : Array ℝ) (c : Array ℝ) : Except Fault (Array ℝ) := do
  let c ← denseMatvec flD flL A b numRows numColumns rowMajorA c
  match B with
  | none => subtractScaledVector flD b (min numRows numColumns) (-t) c
  | some (B, rowMajorB) => denseMatvecPlus flD flL B b t numRows numColumns rowMajorB c

/-- `cCSRAffineMatrixFunction::dot`, c_csr_affine_matrix_function.cpp:111-143. -/
noncomputable def csrAffineDot (A : Array ℝ × Array Nat × Array Nat) (B : Option (Array ℝ × Array Nat × Array Nat))
    (t : ℝ) (numRows numColumns : Nat) (b : Array ℝ) (c : Array ℝ) : Except Fault (Array ℝ) := do
  let c ← csrMatvec flD flL A.1 A.2.1 A.2.2 b numRows c
  match B with
  | none => subtractScaledVector flD b (min numRows numColumns) (-t) c
  | some B => csrMatvecPlus flD flL B.1 B.2.1 B.2.2 b t numRows c

end Imate.Rounded
