import Verif.Model.Operators
import Verif.Model.Slq
import Verif.Model.Random

/-!
# The Krylov layer on flat memory

`c_lanczos_tridiagonalization.cpp`, `c_golub_kahn_bidiagonalization.cpp`, `c_orthogonalization.cpp`
and the sample of `c_trace_estimator.cpp` again, this time with the coalesced buffers as flat arrays of
numbers, every vector operation performed by the loops of `Model/VectorOps.lean` and every operator
product by the kernels of `Model/MatrixOps.lean` through a pointer into the buffer.  All accesses are
checked against the *allocation*, as the hardware would, not against a row.

`Model/Lanczos.lean` is the abstraction of this file in which a buffer is an array of vectors.

Simplifications: exact arithmetic (`x / 0 = 0` where the code produces inf/NaN).  A kernel that reads
and writes one buffer is given a snapshot of the buffer as its source operand; this is what the loops
compute, because they read cell `i` of the source row before writing cell `i` of the destination row,
and the two rows are equal or disjoint.
-/

namespace Imate.Flat

open Imate.Lanczos VectorOps

variable {K : Type _} [Field K] [LinearOrder K]

/-- The pointer `&a[offset]`: everything from there to the end of the allocation. -/
def pointer (a : Array K) (offset : Nat) : Array K := a.extract offset a.size

/-- Call a routine that writes through the pointer `&a[offset]`. -/
def through (a : Array K) (offset : Nat) (f : Array K → Except Fault (Array K)) :
    Except Fault (Array K) := do
  .ok (a.extract 0 offset ++ (← f (pointer a offset)))

/-- `cLinearOperator::dot`/`transpose_dot`: a vector pointer, a product pointer. -/
abbrev Product (K : Type _) := Array K → Array K → Except Fault (Array K)

/-! ### Gram-Schmidt -/

/-- The test for nearly identical vectors, c_orthogonalization.cpp:201-217. -/
def tooClose (sqrt : K → K) (eps : K) (n : Nat) (v : Array K) (scale inner nrm : K) :
    Except Fault Bool :=
  if |(|scale| - 1)| ≤ 2 * eps then do
    let normV ← euclideanNorm sqrt v n
    .ok (decide (normV * normV - 2 * inner + nrm * nrm < 2 * eps * n))
  else .ok false

/-- One step against the vector at the pointer `Vi`, c_orthogonalization.cpp:181-222. -/
def gsStep (sqrt : K → K) (eps : K) (n : Nat) (Vi v : Array K) : Except Fault (Array K) := do
  let nrm ← euclideanNorm sqrt Vi n
  if nrm < eps * sqrt n then .ok v
  else do
    let inner ← innerProduct Vi v n
    if ← tooClose sqrt eps n v (inner / (nrm * nrm)) inner nrm then .ok v
    else subtractScaledVector Vi n (inner / (nrm * nrm)) v

/-- `gram_schmidt_process`, c_orthogonalization.cpp:124-224, with `v` outside the buffer. -/
def gramSchmidt (sqrt : K → K) (eps : K) (V : Array K) (n numVectors lastVector : Nat)
    (numOrtho : Int) (v : Array K) : Except Fault (Array K) :=
  forRange 0 (gsNumSteps n numVectors numOrtho) (fun step v =>
    gsStep sqrt eps n (pointer V (n * gsIndex numVectors lastVector step)) v) v

/-- `gram_schmidt_process`, c_orthogonalization.cpp:124-224, with `v = &V[slot*n]`. -/
def gramSchmidtIn (sqrt : K → K) (eps : K) (V : Array K) (n numVectors lastVector : Nat)
    (numOrtho : Int) (slot : Nat) : Except Fault (Array K) :=
  forRange 0 (gsNumSteps n numVectors numOrtho) (fun step V =>
    through V (slot * n) (gsStep sqrt eps n (pointer V (n * gsIndex numVectors lastVector step)))) V

/-! ### Lanczos -/

/-- Local variables and outputs of `c_lanczos_tridiagonalization`. -/
structure LanczosState (K : Type _) where
  V : Array K
  r : Array K
  alpha : Array K
  beta : Array K
  size : Nat
  stop : Bool

/-- c_lanczos_tridiagonalization.cpp:171-181. -/
def lanczosNormalize (n bufferSize : Nat) (initialBeta : K) (j : Nat) (s : LanczosState K) :
    Except Fault (Array K) :=
  if j = 0 then through s.V (j % bufferSize * n) (copyScaledVector s.r n (1 / initialBeta))
  else do through s.V (j % bufferSize * n) (copyScaledVector s.r n (1 / (← rd s.beta (j - 1))))

/-- c_lanczos_tridiagonalization.cpp:194-199. -/
def lanczosSubtractPrevious (n bufferSize : Nat) (V beta : Array K) (j : Nat) (r : Array K) :
    Except Fault (Array K) :=
  if j > 0 then do
    subtractScaledVector (pointer V ((j - 1) % bufferSize * n)) n (← rd beta (j - 1)) r
  else .ok r

/-- c_lanczos_tridiagonalization.cpp:201-217. -/
def lanczosReorthogonalize (sqrt : K → K) (eps : K) (orthogonalize : Int) (n bufferSize : Nat)
    (V : Array K) (j : Nat) (r : Array K) : Except Fault (Array K) :=
  if orthogonalize ≠ 0 then
    let numOrtho : Nat := if j < bufferSize then j + 1 else bufferSize
    gramSchmidt sqrt eps V n bufferSize (j % bufferSize) numOrtho r
  else .ok r

/-- The loop body, c_lanczos_tridiagonalization.cpp:165-229. -/
def lanczosBody (sqrt : K → K) (eps : K) (dot : Product K) (n : Nat) (tol : K)
    (orthogonalize : Int) (bufferSize : Nat) (initialBeta : K) (j : Nat) (s : LanczosState K) :
    Except Fault (LanczosState K) := do
  let V ← lanczosNormalize n bufferSize initialBeta j s
  let r ← dot (pointer V (j % bufferSize * n)) s.r
  let a ← innerProduct (pointer V (j % bufferSize * n)) r n
  let alpha ← wr s.alpha j a
  let r ← subtractScaledVector (pointer V (j % bufferSize * n)) n a r
  let r ← lanczosSubtractPrevious n bufferSize V s.beta j r
  let r ← lanczosReorthogonalize sqrt eps orthogonalize n bufferSize V j r
  let b ← euclideanNorm sqrt r n
  let beta ← wr s.beta j b
  .ok ⟨V, r, alpha, beta, s.size + 1, decide (b < tol * sqrt n)⟩

/-- `c_lanczos_tridiagonalization`, c_lanczos_tridiagonalization.cpp:116-236.  `junkV`, `junkR` are the
contents of the freshly allocated `V` (`n * buffer_size` cells) and `r` (`n` cells). -/
def lanczos (sqrt : K → K) (eps : K) (dot : Product K) (v : Array K) (n m : Nat) (tol : K)
    (orthogonalize : Int) (junkV junkR : Nat → K) (alpha beta : Array K) :
    Except Fault (Coefficients K) := do
  let bufferSize := lanczosBufferSize m orthogonalize
  let V := Array.ofFn (fun i : Fin (n * bufferSize) => junkV i)
  let r ← copyVector v n (Array.ofFn (fun i : Fin n => junkR i))
  let initialBeta ← euclideanNorm sqrt r n
  let s ← forRange 0 m (fun j s =>
      if s.stop then .ok s
      else lanczosBody sqrt eps dot n tol orthogonalize bufferSize initialBeta j s)
    ⟨V, r, alpha, beta, 0, false⟩
  .ok ⟨s.size, s.alpha, s.beta⟩

/-! ### Golub-Kahn -/

/-- Local variables and outputs of `c_golub_kahn_bidiagonalization`. -/
structure GKState (K : Type _) where
  U : Array K
  V : Array K
  alpha : Array K
  beta : Array K
  size : Nat
  stop : Bool

/-- `normalize_vector_in_place(&V[offset], n)`. -/
def normalizeAt (sqrt : K → K) (V : Array K) (offset n : Nat) : Except Fault (Array K × K) := do
  let (s, norm) ← normalizeInPlace sqrt (pointer V offset) n
  .ok (V.extract 0 offset ++ s, norm)

/-- c_golub_kahn_bidiagonalization.cpp:165-171. -/
def gkSubtractPrevious (n bufferSize : Nat) (U beta : Array K) (j : Nat) : Except Fault (Array K) :=
  if j > 0 then do
    let b ← rd beta (j - 1)
    through U (j % bufferSize * n)
      (subtractScaledVector (pointer U ((j - 1) % bufferSize * n)) n b)
  else .ok U

/-- c_golub_kahn_bidiagonalization.cpp:173-193. -/
def gkReorthogonalizeU (sqrt : K → K) (eps : K) (orthogonalize : Int) (n bufferSize : Nat)
    (U : Array K) (j : Nat) : Except Fault (Array K) :=
  if orthogonalize ≠ 0 ∧ j > 0 then
    gramSchmidtIn sqrt eps U n bufferSize ((j - 1) % bufferSize) (gkNumOrtho bufferSize j)
      (j % bufferSize)
  else .ok U

/-- c_golub_kahn_bidiagonalization.cpp:207-213. -/
def gkReorthogonalizeV (sqrt : K → K) (eps : K) (orthogonalize : Int) (n bufferSize : Nat)
    (V : Array K) (j : Nat) : Except Fault (Array K) :=
  if orthogonalize ≠ 0 then
    gramSchmidtIn sqrt eps V n bufferSize (j % bufferSize) (gkNumOrtho bufferSize j)
      ((j + 1) % bufferSize)
  else .ok V

/-- The loop body, c_golub_kahn_bidiagonalization.cpp:156-225. -/
def golubKahnBody (sqrt : K → K) (eps : K) (dot transposeDot : Product K) (n : Nat) (tol : K)
    (orthogonalize : Int) (bufferSize : Nat) (j : Nat) (s : GKState K) :
    Except Fault (GKState K) := do
  let U ← through s.U (j % bufferSize * n) (dot (pointer s.V (j % bufferSize * n)))
  let U ← gkSubtractPrevious n bufferSize U s.beta j
  let U ← gkReorthogonalizeU sqrt eps orthogonalize n bufferSize U j
  let (U, a) ← normalizeAt sqrt U (j % bufferSize * n) n
  let alpha ← wr s.alpha j a
  let V ← through s.V ((j + 1) % bufferSize * n) (transposeDot (pointer U (j % bufferSize * n)))
  let V ← through V ((j + 1) % bufferSize * n)
    (subtractScaledVector (pointer V (j % bufferSize * n)) n a)
  let V ← gkReorthogonalizeV sqrt eps orthogonalize n bufferSize V j
  let (V, b) ← normalizeAt sqrt V ((j + 1) % bufferSize * n) n
  let beta ← wr s.beta j b
  .ok ⟨U, V, alpha, beta, s.size + 1, decide (b < tol * sqrt n)⟩

/-- `c_golub_kahn_bidiagonalization`, c_golub_kahn_bidiagonalization.cpp:110-232.  `junkU`, `junkV` are
the contents of the freshly allocated buffers. -/
def golubKahn (sqrt : K → K) (eps : K) (dot transposeDot : Product K) (v : Array K) (n m : Nat)
    (tol : K) (orthogonalize : Int) (junkU junkV : Nat → K) (alpha beta : Array K) :
    Except Fault (Coefficients K) := do
  let bufferSize := golubKahnBufferSize m orthogonalize
  let U := Array.ofFn (fun i : Fin (n * bufferSize) => junkU i)
  let (V, _) ← normalizeAndCopy sqrt v n (Array.ofFn (fun i : Fin (n * bufferSize) => junkV i))
  let s ← forRange 0 m (fun j s =>
      if s.stop then .ok s
      else golubKahnBody sqrt eps dot transposeDot n tol orthogonalize bufferSize j s)
    ⟨U, V, alpha, beta, 0, false⟩
  .ok ⟨s.size, s.alpha, s.beta⟩

/-! ### The operators -/

/-- The classes derived from `cLinearOperator`: a stored matrix (`cDenseMatrix`, `cCSRMatrix`,
`cCSCMatrix`) or an affine matrix function (`cDenseAffineMatrixFunction`, …). -/
inductive LinearOperator (K : Type _) where
  | matrix (S : StoredMatrix K) (numRows numColumns : Nat)
  | affine (O : AffineOp K)

namespace LinearOperator

/-- `get_num_rows`, c_linear_operator.cpp:78-82. -/
def numRows : LinearOperator K → Nat
  | matrix _ numRows _ => numRows
  | affine O => O.numRows

/-- `is_eigenvalue_relation_known`, c_linear_operator.cpp:135-139; the constructor sets it to 0
(lines 27-35, 49-61) and only the affine classes change it. -/
def relationKnown : LinearOperator K → Bool
  | matrix .. => false
  | affine O => O.eigenvalueRelationKnown

/-- `set_parameters(&parameters[j*num_parameters])`, c_trace_estimator.cpp:509 with
`num_parameters = 0` for a matrix (c_linear_operator.cpp:59) and `1` for an affine matrix function
(c_affine_matrix_function.cpp:39): what the operator finds when it dereferences its pointer. -/
def parameter (op : LinearOperator K) (parameters : Array K) (j : Nat) : Except Fault (Option K) :=
  match op with
  | matrix .. => .ok none
  | affine _ => do .ok (some (← rd parameters j))

/-- The virtual method `dot`. -/
def dot (op : LinearOperator K) (parameter : Option K) : Product K := fun vector product =>
  match op with
  | matrix S numRows numColumns => S.dot numRows numColumns vector product
  | affine O => O.dot parameter vector product

/-- The virtual method `transpose_dot`. -/
def transposeDot (op : LinearOperator K) (parameter : Option K) : Product K := fun vector product =>
  match op with
  | matrix S numRows numColumns => S.transposeDot numRows numColumns vector product
  | affine O => O.transposeDot parameter vector product

/-- The virtual method `get_eigenvalue`, c_affine_matrix_function.cpp:97-113; for a matrix
(c_matrix.cpp:63-77) it is `assert(false)`, and is not called because `relationKnown` is false. -/
def getEigenvalue (op : LinearOperator K) (t0 lam t : K) : K :=
  match op with
  | matrix .. => 0
  | affine _ => AffineOp.getEigenvalue t0 lam t

/-- The part of the interface used by the loops after the iterations. -/
def facade (op : LinearOperator K) : Operator K 0 where
  relationKnown := op.relationKnown
  dot := fun _ _ => .error .abort
  transposeDot := fun _ _ => .error .abort
  getEigenvalue := op.getEigenvalue

end LinearOperator

/-! ### One sample -/

/-- The two branches of the loop body, c_trace_estimator.cpp:511-556. -/
def inquiryNodes (ext : External K) (opt : Options K) (op : LinearOperator K) (z : Array K)
    (parameter : Option K) (junk1 junk2 : Nat → K) (alpha beta : Array K) :
    Except Fault (Nodes K × Array K × Array K) :=
  if opt.gram then do
    let c ← golubKahn ext.sqrt ext.eps (op.dot parameter) (op.transposeDot parameter) z op.numRows
      opt.degree opt.tol opt.orthogonalize junk1 junk2 alpha beta
    let (alpha, vt) := ext.svd c.size c.alpha c.beta
    let nodes ← readNodes c.size (fun i => do .ok ((← rd alpha i) * (← rd alpha i)))
      (fun i => rd vt i)
    .ok (nodes, alpha, c.beta)
  else do
    let c ← lanczos ext.sqrt ext.eps (op.dot parameter) z op.numRows opt.degree opt.tol
      opt.orthogonalize junk1 junk2 alpha beta
    let (alpha, eigenvectors) := ext.eigh c.size c.alpha c.beta
    let nodes ← readNodes c.size (fun i => rd alpha i) (fun i => rd eigenvectors (i * c.size))
    .ok (nodes, alpha, c.beta)

/-- The loop body for inquiry `j`, c_trace_estimator.cpp:497-557. -/
def inquiryBody (ext : External K) (opt : Options K) (op : LinearOperator K) (parameters : Array K)
    (z : Array K) (junk1 junk2 : Nat → Nat → K) (converged : Array Bool)
    (required numInquiries : Nat) (j : Nat) (s : SampleState K) : Except Fault (SampleState K) := do
  if (← rd converged j) && required == numInquiries then .ok s
  else do
    let t ← op.parameter parameters j
    let (nodes, alpha, beta) ← inquiryNodes ext opt op z t (junk1 j) (junk2 j) s.alpha s.beta
    .ok ⟨← wr s.nodes j (some nodes), alpha, beta⟩

/-- `_c_stochastic_lanczos_quadrature`, c_trace_estimator.cpp:410-654, from the random generator
(`g`, `next`) to the estimates.  `junk*` are the contents of freshly allocated memory. -/
def slqSample {σ : Type} {K : Type} [Field K] [LinearOrder K] (ext : External K) (opt : Options K)
    (op : LinearOperator K) (f : K → K) (parameters : Array K) (numInquiries : Nat)
    (next : σ → Except Fault (BitVec 64 × σ)) (g : σ) (randomVector : Array K)
    (junk1 junk2 : Nat → Nat → K) (junkAlpha junkBeta : Array K) (converged : Array Bool)
    (estimate : Array K) : Except Fault (Array Bool × Array K × Array K × σ) := do
  let (z, g) ← Random.generateArray next g randomVector op.numRows
  let required := requiredInquiries op.facade numInquiries
  let s ← forRange 0 required
    (inquiryBody ext opt op parameters z junk1 junk2 converged required numInquiries)
    ⟨Array.replicate numInquiries none, junkAlpha, junkBeta⟩
  let nodes ← allNodes op.facade parameters numInquiries s.nodes
  let converged := resetConverged op.facade numInquiries converged
  let estimate ← estimateLoop ext opt f op.numRows numInquiries converged nodes estimate
  .ok (converged, estimate, z, g)

end Imate.Flat
