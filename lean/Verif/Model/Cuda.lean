import Verif.Model.Operators
import Verif.Model.Slq

/-!
# Model of the GPU code path

* `imate/_cuda_utilities/cuda_interface.cu`
* `imate/_cu_basic_algebra/cu_vector_operations.cu`, `cu_matrix_operations.cu`
* `imate/_cu_linear_operator/cu_dense_matrix.cu`, `cu_csr_matrix.cu`, `cu_csc_matrix.cu`,
  `cu_affine_matrix_function.cu` and its three subclasses
* `imate/_cu_trace_estimator/cu_orthogonalization.cu` (`gram_schmidt_process`),
  `cu_lanczos_tridiagonalization.cu`, `cu_golub_kahn_bidiagonalization.cu`, `cu_trace_estimator.cu`
  (one sample)

The libraries cuBLAS and cuSPARSE are modelled by their documented behaviour: `gemv` works on column
major storage with a leading dimension that must be at least the number of rows; `SpMV` rejects
vectors whose length does not fit the operation.  A status other than "success" makes the code's
`assert` fire (`Fault.abort`).  With `beta = 0` neither library reads the output vector.  Device arrays
are arrays; reading outside of one is `Fault.outOfBounds`.  Arithmetic is exact over a field.  The
devices of a machine hold equal copies of a matrix, so one copy is modelled.
-/

namespace Imate.Cuda

variable {K : Type _} [Field K] [DecidableEq K]

/-! ### Device memory -/

/-- `alloc` and `copy_to_device` of the first `size` elements of a host array,
cuda_interface.cu:75-99 (with the `assert` on the size) and 141-151. -/
def copyToDevice {α : Type _} (host : Array α) (size : Nat) : Except Fault (Array α) :=
  if size = 0 then .error .abort
  else if host.size < size then .error .outOfBounds
  else .ok (host.extract 0 size)

/-! ### cuBLAS -/

/-- `y_i` in `alpha * … + beta * y_i`; not read if `beta` is zero. -/
def scaledOld (beta : K) (y : Array K) (i : Nat) : Except Fault K :=
  if beta = 0 then .ok 0 else do .ok (beta * (← rd y i))

/-- `cublasXgemv` (cublas_interface.cu): `y := alpha * op(A) * x + beta * y` for a column major `m × n`
matrix with leading dimension `lda`; `trans` selects the transpose. -/
def gemv (trans : Bool) (m n : Nat) (alpha : K) (A : Array K) (lda : Nat) (x : Array K) (beta : K)
    (y : Array K) : Except Fault (Array K) :=
  if lda < max 1 m then .error .abort
  else forRange 0 (if trans then n else m) (fun i y => do
    let s ← MatrixOps.plainDot (fun k => rd A (if trans then k + i * lda else i + k * lda)) (rd x)
      (if trans then m else n)
    wr y i (alpha * s + (← scaledOld beta y i))) y

/-- `cublasXscal`: `x := scale * x`. -/
def scal (n : Nat) (scale : K) (x : Array K) : Except Fault (Array K) :=
  forRange 0 n (fun i x => do wr x i (scale * (← rd x i))) x

/-- `cublasXaxpy`: `y := y + scale * x`. -/
def axpy (n : Nat) (scale : K) (x y : Array K) : Except Fault (Array K) :=
  forRange 0 n (fun i y => do wr y i (scale * (← rd x i) + (← rd y i))) y

/-! ### Vector operations -/

/-- `copy_vector`, cu_vector_operations.cu:37-52. -/
def copyVector (input : Array K) (n : Nat) (output : Array K) : Except Fault (Array K) :=
  forRange 0 n (fun i out => do wr out i (← rd input i)) output

/-- `copy_scaled_vector`, cu_vector_operations.cu:72-96. -/
def copyScaledVector (input : Array K) (n : Nat) (scale : K) (output : Array K) :
    Except Fault (Array K) := do
  let output ← copyVector input n output
  scal n scale output

/-- `subtract_scaled_vector`, cu_vector_operations.cu:125-147. -/
def subtractScaledVector (input : Array K) (n : Nat) (scale : K) (output : Array K) :
    Except Fault (Array K) :=
  if scale = 0 then .ok output
  else axpy n (-scale) input output

/-- `inner_product`, cu_vector_operations.cu:165-183. -/
def innerProduct (v1 v2 : Array K) (n : Nat) : Except Fault K :=
  MatrixOps.plainDot (rd v1) (rd v2) n

/-- `euclidean_norm`, cu_vector_operations.cu:200-215. -/
def euclideanNorm (sqrt : K → K) (v : Array K) (n : Nat) : Except Fault K := do
  .ok (sqrt (← MatrixOps.plainDot (rd v) (rd v) n))

/-- `normalize_vector_in_place`, cu_vector_operations.cu:233-252. -/
def normalizeInPlace (sqrt : K → K) (v : Array K) (n : Nat) : Except Fault (Array K × K) := do
  let norm ← euclideanNorm sqrt v n
  .ok (← scal n (1 / norm) v, norm)

/-- `normalize_vector_and_copy`, cu_vector_operations.cu:272-290. -/
def normalizeAndCopy (sqrt : K → K) (v : Array K) (n : Nat) (output : Array K) :
    Except Fault (Array K × K) := do
  let norm ← euclideanNorm sqrt v n
  .ok (← copyScaledVector v n (1 / norm) output, norm)

/-! ### Dense products -/

/-- `dense_matvec`, cu_matrix_operations.cu:52-93. -/
def denseMatvec (A b : Array K) (numRows numColumns : Nat) (rowMajor : Bool) (c : Array K) :
    Except Fault (Array K) :=
  let m := if rowMajor then numColumns else numRows
  let n := if rowMajor then numRows else numColumns
  gemv rowMajor m n 1 A m b 0 c

/-- `dense_matvec_plus`, cu_matrix_operations.cu:127-169. -/
def denseMatvecPlus (A b : Array K) (alpha : K) (numRows numColumns : Nat) (rowMajor : Bool)
    (c : Array K) : Except Fault (Array K) :=
  let m := if rowMajor then numColumns else numRows
  let n := if rowMajor then numRows else numColumns
  gemv rowMajor m n alpha A m b 1 c

/-- `dense_transposed_matvec`, cu_matrix_operations.cu:202-244. -/
def denseTransposedMatvec (A b : Array K) (numRows numColumns : Nat) (rowMajor : Bool)
    (c : Array K) : Except Fault (Array K) :=
  let m := if rowMajor then numColumns else numRows
  let n := if rowMajor then numRows else numColumns
  gemv (!rowMajor) m n 1 A m b 0 c

/-- `dense_transposed_matvec_plus`, cu_matrix_operations.cu:279-326; `beta` is zero (line 299). -/
def denseTransposedMatvecPlus (A b : Array K) (alpha : K) (numRows numColumns : Nat)
    (rowMajor : Bool) (c : Array K) : Except Fault (Array K) :=
  if alpha = 0 then .ok c
  else
    let m := if rowMajor then numColumns else numRows
    let n := if rowMajor then numRows else numColumns
    gemv (!rowMajor) m n alpha A m b 0 c

/-! ### cuSPARSE -/

/-- `cusparseSpMV` (cusparse_interface.cu:231-283) for a matrix with `rows` rows and `cols` columns in
compressed row storage: `y := alpha * op(A) * x + beta * y`, where `xSize` and `ySize` are the lengths
in the vector descriptors (cusparse_interface.cu:97-131). -/
def spmv (trans : Bool) (rows cols : Nat) (data : Array K) (indices ptr : Array Nat) (alpha : K)
    (xSize : Nat) (x : Array K) (beta : K) (ySize : Nat) (y : Array K) : Except Fault (Array K) :=
  if xSize ≠ (if trans then rows else cols) ∨ ySize ≠ (if trans then cols else rows) then
    .error .abort
  else do
    let z ← if trans then
        MatrixOps.csrTransposedMatvec data indices ptr x rows cols (Array.replicate cols 0)
      else MatrixOps.csrMatvec data indices ptr x rows (Array.replicate rows 0)
    forRange 0 ySize (fun i y => do
      wr y i (alpha * (← rd z i) + (← scaledOld beta y i))) y

/-! ### Matrices on the device -/

/-- `copy_host_to_device`: cu_dense_matrix.cu:94-123, cu_csr_matrix.cu:164-224, cu_csc_matrix.cu:168-234.
The CSC class copies `num_rows + 1` index pointers (cu_csc_matrix.cu:179). -/
def upload (S : StoredMatrix K) (numRows numColumns : Nat) : Except Fault (StoredMatrix K) :=
  match S with
  | .dense A rm => do
    .ok (.dense (← copyToDevice A (numRows * numColumns)) rm)
  | .csr data indices ptr => do
    let nnz ← rd ptr numRows
    .ok (.csr (← copyToDevice data nnz) (← copyToDevice indices nnz)
      (← copyToDevice ptr (numRows + 1)))
  | .csc data indices ptr => do
    let nnz ← rd ptr numColumns
    .ok (.csc (← copyToDevice data nnz) (← copyToDevice indices nnz)
      (← copyToDevice ptr (numRows + 1)))

/-- `dot`: cu_dense_matrix.cu:130-148, cu_csr_matrix.cu:277-318, cu_csc_matrix.cu:286-329. -/
def dot (S : StoredMatrix K) (numRows numColumns : Nat) (vector product : Array K) :
    Except Fault (Array K) :=
  match S with
  | .dense A rm => denseMatvec A vector numRows numColumns rm product
  | .csr d ix p => spmv false numRows numColumns d ix p 1 numColumns vector 0 numRows product
  | .csc d ix p => spmv true numColumns numRows d ix p 1 numColumns vector 0 numRows product

/-- `dot_plus`: cu_dense_matrix.cu:155-175, cu_csr_matrix.cu:325-366, cu_csc_matrix.cu:336-379. -/
def dotPlus (S : StoredMatrix K) (numRows numColumns : Nat) (vector : Array K) (alpha : K)
    (product : Array K) : Except Fault (Array K) :=
  match S with
  | .dense A rm => denseMatvecPlus A vector alpha numRows numColumns rm product
  | .csr d ix p => spmv false numRows numColumns d ix p alpha numColumns vector 1 numRows product
  | .csc d ix p => spmv true numColumns numRows d ix p alpha numColumns vector 1 numRows product

/-- `transpose_dot`: cu_dense_matrix.cu:182-200, cu_csr_matrix.cu:373-414, cu_csc_matrix.cu:386-429.
The descriptors of the sparse classes have the lengths of the untransposed product. -/
def transposeDot (S : StoredMatrix K) (numRows numColumns : Nat) (vector product : Array K) :
    Except Fault (Array K) :=
  match S with
  | .dense A rm => denseTransposedMatvec A vector numRows numColumns rm product
  | .csr d ix p => spmv true numRows numColumns d ix p 1 numColumns vector 0 numRows product
  | .csc d ix p => spmv false numColumns numRows d ix p 1 numColumns vector 0 numRows product

/-- `transpose_dot_plus`: cu_dense_matrix.cu:207-227, cu_csr_matrix.cu:421-462,
cu_csc_matrix.cu:436-479. -/
def transposeDotPlus (S : StoredMatrix K) (numRows numColumns : Nat) (vector : Array K) (alpha : K)
    (product : Array K) : Except Fault (Array K) :=
  match S with
  | .dense A rm => denseTransposedMatvecPlus A vector alpha numRows numColumns rm product
  | .csr d ix p => spmv true numRows numColumns d ix p alpha numColumns vector 1 numRows product
  | .csc d ix p => spmv false numColumns numRows d ix p alpha numColumns vector 1 numRows product

/-! ### Affine matrix functions -/

/-- The constructors, cu_dense_affine_matrix_function.cu:29-51 and 58-84, cu_csr_affine_matrix_function.cu
and cu_csc_affine_matrix_function.cu:29-53 and 60-90: the matrices are copied to the device, and
`is_identity_matrix` (inherited from the CPU class) looks at the host arrays of `B`. -/
def construct (A : StoredMatrix K) (B : Option (StoredMatrix K)) (numRows numColumns : Nat) :
    Except Fault (AffineOp K) := do
  let dA ← upload A numRows numColumns
  match B with
  | none => .ok ⟨dA, none, numRows, numColumns, true, true⟩
  | some B => do
    let dB ← upload B numRows numColumns
    if ← B.isIdentity numRows numColumns then
      .ok ⟨dA, some dB, numRows, numColumns, true, true⟩
    else
      .ok ⟨dA, some dB, numRows, numColumns, false, false⟩

/-- `_add_scaled_vector`, cu_affine_matrix_function.cu:130-144. -/
def addScaledVector (input : Array K) (n : Nat) (scale : K) (output : Array K) :
    Except Fault (Array K) :=
  subtractScaledVector input n (-scale) output

/-- `dot`, cu_dense_affine_matrix_function.cu:117-149 (same text in the other two classes). -/
def affineDot (O : AffineOp K) (parameter : Option K) (vector product : Array K) :
    Except Fault (Array K) := do
  let product ← dot O.A O.numRows O.numColumns vector product
  match parameter with
  | none => .error .abort
  | some t =>
    if O.bIsIdentity then
      let minVectorSize := if O.numRows < O.numColumns then O.numRows else O.numColumns
      addScaledVector vector minVectorSize t product
    else match O.B with
      | none => .error .abort
      | some B => dotPlus B O.numRows O.numColumns vector t product

/-- `transpose_dot`, cu_dense_affine_matrix_function.cu:173-205 (same text in the other two
classes). -/
def affineTransposeDot (O : AffineOp K) (parameter : Option K) (vector product : Array K) :
    Except Fault (Array K) := do
  let product ← transposeDot O.A O.numRows O.numColumns vector product
  match parameter with
  | none => .error .abort
  | some t =>
    if O.bIsIdentity then
      let minVectorSize := if O.numRows < O.numColumns then O.numRows else O.numColumns
      addScaledVector vector minVectorSize t product
    else match O.B with
      | none => .error .abort
      | some B => transposeDotPlus B O.numRows O.numColumns vector t product

/-! ### The work buffer of the sparse products -/

/-- The buffer of one matrix on one device: the recorded number of bytes, the block it holds (`none`
for the null pointer), and the blocks allocated and released so far.  Blocks are numbered in the order
of their allocation. -/
structure Buffer where
  numBytes : Nat
  block : Option Nat
  allocated : Nat
  released : List Nat
  deriving DecidableEq

/-- The buffer after construction, cu_csr_matrix.cu:76-83. -/
def Buffer.new : Buffer := ⟨0, none, 0, []⟩

/-- `del`, cuda_interface.cu:165-174: the null pointer is skipped. -/
def Buffer.del (b : Buffer) : Buffer :=
  match b.block with
  | none => b
  | some k => { b with released := b.released ++ [k] }

/-- `allocate_buffer`, cu_csr_matrix.cu:240-270 (same text cu_csc_matrix.cu:249-279), when the product
needs `required` bytes; `alloc_bytes` (cuda_interface.cu:114-125) asserts that the number of bytes is
positive. -/
def Buffer.allocate (b : Buffer) (required : Nat) : Except Fault Buffer :=
  if b.numBytes ≠ required then
    let b := ({ b with numBytes := required } : Buffer).del
    if required = 0 then .error .abort
    else .ok { b with block := some b.allocated, allocated := b.allocated + 1 }
  else .ok b

/-- A history of products, given by the number of bytes each of them needs. -/
def Buffer.run : Buffer → List Nat → Except Fault Buffer
  | b, [] => .ok b
  | b, r :: rs => do
    let b ← b.allocate r
    b.run rs

end Imate.Cuda

namespace Imate.Lanczos

/-! ### Krylov iterations on the GPU

The text of these functions is the text of the CPU functions with device pointers and the vector
operations above; only the test in `gram_schmidt_process` is different. -/

variable {K : Type _} [Field K] [LinearOrder K] {n : Nat}

/-- One step against one vector, cu_orthogonalization.cu:186-227.  Line 207 tests
`abs(scale - 1) <= 2*epsilon` where the CPU code tests `abs(abs(scale) - 1)`. -/
def cuGsStep (sqrt : K → K) (eps : K) (Vi v : Fin n → K) : Fin n → K :=
  let nrm := norm sqrt Vi
  if nrm < eps * sqrt n then v
  else
    let inner := Vi ⬝ᵥ v
    let scale := inner / (nrm * nrm)
    if |scale - 1| ≤ 2 * eps ∧
        norm sqrt v * norm sqrt v - 2 * inner + nrm * nrm < 2 * eps * n then v
    else v - scale • Vi

/-- `gram_schmidt_process`, cu_orthogonalization.cu:127-229, with `v` outside the buffer. -/
def cuGramSchmidt (sqrt : K → K) (eps : K) (V : Rows K n) (numVectors lastVector : Nat)
    (numOrtho : Int) (v : Fin n → K) : Except Fault (Fin n → K) :=
  forRange 0 (gsNumSteps n numVectors numOrtho) (fun step v => do
    let Vi ← load V (gsIndex numVectors lastVector step)
    .ok (cuGsStep sqrt eps Vi v)) v

/-- `gram_schmidt_process`, cu_orthogonalization.cu:127-229, with `v` the row `slot` of the buffer. -/
def cuGramSchmidtIn (sqrt : K → K) (eps : K) (V : Rows K n) (numVectors lastVector : Nat)
    (numOrtho : Int) (slot : Nat) : Except Fault (Rows K n) :=
  forRange 0 (gsNumSteps n numVectors numOrtho) (fun step V => do
    let Vi ← load V (gsIndex numVectors lastVector step)
    let v ← load V slot
    store V slot (some (cuGsStep sqrt eps Vi v))) V

/-- The re-orthogonalisation block, cu_lanczos_tridiagonalization.cu:211-228. -/
def cuLanczosReorthogonalize (sqrt : K → K) (eps : K) (orthogonalize : Int) (bufferSize : Nat)
    (V : Rows K n) (j : Nat) (r : Fin n → K) : Except Fault (Fin n → K) :=
  if orthogonalize ≠ 0 then
    let numOrtho : Nat := if j < bufferSize then j + 1 else bufferSize
    cuGramSchmidt sqrt eps V bufferSize (j % bufferSize) numOrtho r
  else .ok r

/-- The loop body for index `j`, cu_lanczos_tridiagonalization.cu:172-241. -/
def cuLanczosBody (sqrt : K → K) (eps : K) (dot : (Fin n → K) → Except Fault (Fin n → K))
    (tol : K) (orthogonalize : Int) (bufferSize : Nat) (initialBeta : K)
    (j : Nat) (s : LanczosState K n) : Except Fault (LanczosState K n) := do
  let V ← lanczosNormalize bufferSize initialBeta j s
  let vj ← load V (j % bufferSize)
  let r ← dot vj
  let alpha ← wr s.alpha j (vj ⬝ᵥ r)
  let r ← lanczosSubtractPrevious bufferSize V s.beta j (r - (vj ⬝ᵥ r) • vj)
  let r ← cuLanczosReorthogonalize sqrt eps orthogonalize bufferSize V j r
  let beta ← wr s.beta j (norm sqrt r)
  .ok ⟨V, r, alpha, beta, s.size + 1, decide (norm sqrt r < tol * sqrt n)⟩

/-- `cu_lanczos_tridiagonalization`, cu_lanczos_tridiagonalization.cu:118-248. -/
def cuLanczos (sqrt : K → K) (eps : K) (dot : (Fin n → K) → Except Fault (Fin n → K))
    (v : Fin n → K) (m : Nat) (tol : K) (orthogonalize : Int) (alpha beta : Array K) :
    Except Fault (Coefficients K) := do
  let bufferSize := lanczosBufferSize m orthogonalize
  let initialBeta := norm sqrt v
  let s ← forRange 0 m (fun j s =>
      if s.stop then .ok s
      else cuLanczosBody sqrt eps dot tol orthogonalize bufferSize initialBeta j s)
    ⟨Array.replicate bufferSize none, v, alpha, beta, 0, false⟩
  .ok ⟨s.size, s.alpha, s.beta⟩

/-- "orthogonalize u_new against previous vectors", cu_golub_kahn_bidiagonalization.cu:180-201. -/
def cuGkReorthogonalizeU (sqrt : K → K) (eps : K) (orthogonalize : Int) (bufferSize : Nat)
    (U : Rows K n) (j : Nat) : Except Fault (Rows K n) :=
  if orthogonalize ≠ 0 ∧ j > 0 then
    cuGramSchmidtIn sqrt eps U bufferSize ((j - 1) % bufferSize) (gkNumOrtho bufferSize j)
      (j % bufferSize)
  else .ok U

/-- "orthogonalize v_new against previous vectors", cu_golub_kahn_bidiagonalization.cu:216-222. -/
def cuGkReorthogonalizeV (sqrt : K → K) (eps : K) (orthogonalize : Int) (bufferSize : Nat)
    (V : Rows K n) (j : Nat) : Except Fault (Rows K n) :=
  if orthogonalize ≠ 0 then
    cuGramSchmidtIn sqrt eps V bufferSize (j % bufferSize) (gkNumOrtho bufferSize j)
      ((j + 1) % bufferSize)
  else .ok V

/-- The loop body for index `j`, cu_golub_kahn_bidiagonalization.cu:163-235. -/
def cuGolubKahnBody (sqrt : K → K) (eps : K)
    (dot transposeDot : (Fin n → K) → Except Fault (Fin n → K))
    (tol : K) (orthogonalize : Int) (bufferSize : Nat) (j : Nat) (s : GKState K n) :
    Except Fault (GKState K n) := do
  let vj ← load s.V (j % bufferSize)
  let U ← store s.U (j % bufferSize) (some (← dot vj))
  let U ← gkSubtractPrevious bufferSize U s.beta j
  let U ← cuGkReorthogonalizeU sqrt eps orthogonalize bufferSize U j
  let (U, a) ← normalizeIn sqrt U (j % bufferSize)
  let alpha ← wr s.alpha j a
  let uj ← load U (j % bufferSize)
  let V ← store s.V ((j + 1) % bufferSize) (some (← transposeDot uj))
  let V ← subtractIn V (j % bufferSize) a ((j + 1) % bufferSize)
  let V ← cuGkReorthogonalizeV sqrt eps orthogonalize bufferSize V j
  let (V, b) ← normalizeIn sqrt V ((j + 1) % bufferSize)
  let beta ← wr s.beta j b
  .ok ⟨U, V, alpha, beta, s.size + 1, decide (b < tol * sqrt n)⟩

/-- `cu_golub_kahn_bidiagonalization`, cu_golub_kahn_bidiagonalization.cu:112-242: the start vector is
copied to the first row and normalised there (lines 152-155). -/
def cuGolubKahn (sqrt : K → K) (eps : K)
    (dot transposeDot : (Fin n → K) → Except Fault (Fin n → K))
    (v : Fin n → K) (m : Nat) (tol : K) (orthogonalize : Int) (alpha beta : Array K) :
    Except Fault (Coefficients K) := do
  let bufferSize := golubKahnBufferSize m orthogonalize
  let V ← store (Array.replicate bufferSize none) 0 (some v)
  let (V, _) ← normalizeIn sqrt V 0
  let s ← forRange 0 m (fun j s =>
      if s.stop then .ok s
      else cuGolubKahnBody sqrt eps dot transposeDot tol orthogonalize bufferSize j s)
    ⟨Array.replicate bufferSize none, V, alpha, beta, 0, false⟩
  .ok ⟨s.size, s.alpha, s.beta⟩

/-! ### One sample -/

/-- The non-Gram branch, cu_trace_estimator.cu:544-565. -/
def cuLanczosNodes (ext : External K) (opt : Options K)
    (dot : (Fin n → K) → Except Fault (Fin n → K)) (z : Fin n → K) (alpha beta : Array K) :
    Except Fault (Nodes K × Array K × Array K) := do
  let c ← cuLanczos ext.sqrt ext.eps dot z opt.degree opt.tol opt.orthogonalize alpha beta
  let (alpha, eigenvectors) := ext.eigh c.size c.alpha c.beta
  let nodes ← readNodes c.size (fun i => rd alpha i) (fun i => rd eigenvectors (i * c.size))
  .ok (nodes, alpha, c.beta)

/-- The Gram branch, cu_trace_estimator.cu:519-544. -/
def cuGolubKahnNodes (ext : External K) (opt : Options K)
    (dot transposeDot : (Fin n → K) → Except Fault (Fin n → K)) (z : Fin n → K)
    (alpha beta : Array K) : Except Fault (Nodes K × Array K × Array K) := do
  let c ← cuGolubKahn ext.sqrt ext.eps dot transposeDot z opt.degree opt.tol opt.orthogonalize
    alpha beta
  let (alpha, vt) := ext.svd c.size c.alpha c.beta
  let nodes ← readNodes c.size (fun i => do .ok ((← rd alpha i) * (← rd alpha i))) (fun i => rd vt i)
  .ok (nodes, alpha, c.beta)

/-- The two branches, cu_trace_estimator.cu:519-565. -/
def cuInquiryNodes (ext : External K) (opt : Options K) (op : Operator K n) (z : Fin n → K) (t : K)
    (alpha beta : Array K) : Except Fault (Nodes K × Array K × Array K) :=
  if opt.gram then cuGolubKahnNodes ext opt (op.dot t) (op.transposeDot t) z alpha beta
  else cuLanczosNodes ext opt (op.dot t) z alpha beta

/-- The loop body for inquiry `j`, cu_trace_estimator.cu:505-566. -/
def cuInquiryBody (ext : External K) (opt : Options K) (op : Operator K n) (parameters : Array K)
    (z : Fin n → K) (converged : Array Bool) (required numInquiries : Nat) (j : Nat)
    (s : SampleState K) : Except Fault (SampleState K) := do
  if (← rd converged j) && required == numInquiries then .ok s
  else do
    let t ← rd parameters j
    let (nodes, alpha, beta) ← cuInquiryNodes ext opt op z t s.alpha s.beta
    .ok ⟨← wr s.nodes j (some nodes), alpha, beta⟩

/-- `_cu_stochastic_lanczos_quadrature`, cu_trace_estimator.cu:418-662; the parts after the loop are the
text of the CPU function. -/
def cuSlqSample (ext : External K) (opt : Options K) (op : Operator K n) (f : K → K)
    (parameters : Array K) (numInquiries : Nat) (z : Fin n → K) (junkAlpha junkBeta : Array K)
    (converged : Array Bool) (estimate : Array K) : Except Fault (Array Bool × Array K) := do
  let required := requiredInquiries op numInquiries
  let s ← forRange 0 required
    (cuInquiryBody ext opt op parameters z converged required numInquiries)
    ⟨Array.replicate numInquiries none, junkAlpha, junkBeta⟩
  let nodes ← allNodes op parameters numInquiries s.nodes
  let converged := resetConverged op numInquiries converged
  let estimate ← estimateLoop ext opt f n numInquiries converged nodes estimate
  .ok (converged, estimate)

/-- The contents of a device array of length `n`. -/
def vectorOf (n : Nat) (a : Array K) : Except Fault (Fin n → K) :=
  if h : a.size = n then .ok (fun i => a[i.1]'(by omega)) else .error .outOfBounds

/-- A `cuMatrix` as the operator of the iterations (cu_linear_operator.h; a matrix has no parameter). -/
def cuMatrixOperator (D : StoredMatrix K) (n : Nat) : Operator K n where
  relationKnown := false
  dot := fun _ v => do vectorOf n (← Cuda.dot D n n (Array.ofFn v) (Array.replicate n 0))
  transposeDot := fun _ v => do vectorOf n (← Cuda.transposeDot D n n (Array.ofFn v) (Array.replicate n 0))
  getEigenvalue := fun _ x _ => x

/-- A `cuAffineMatrixFunction` as the operator of the iterations, cu_affine_matrix_function.cu:92-109
for the relation between eigenvalues. -/
def cuAffineOperator (O : AffineOp K) (n : Nat) : Operator K n where
  relationKnown := O.eigenvalueRelationKnown
  dot := fun t v => do vectorOf n (← Cuda.affineDot O (some t) (Array.ofFn v) (Array.replicate n 0))
  transposeDot := fun t v => do
    vectorOf n (← Cuda.affineTransposeDot O (some t) (Array.ofFn v) (Array.replicate n 0))
  getEigenvalue := AffineOp.getEigenvalue

end Imate.Lanczos
