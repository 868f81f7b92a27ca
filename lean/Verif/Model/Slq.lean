import Verif.Model.Lanczos
import Mathlib.Algebra.BigOperators.Group.Finset.Basic

/-!
# Model of one SLQ sample: `_c_stochastic_lanczos_quadrature`

`imate/_c_trace_estimator/c_trace_estimator.cpp`, lines 410-654, and
`imate/_c_trace_estimator/diagonalization.cpp`.

Simplifications.  The random vector is an argument (its generation is modelled in
`Model/Random.lean`).  The LAPACK routines `stev` and `bdsdc` behind `eigh_tridiagonal` and
`svd_bidiagonal` are parameters that return the overwritten `alpha` and the vectors in Fortran order.
`pow` and the matrix function are parameters.  There is one operator parameter per inquiry (a plain
matrix ignores it).  `theta[j]`, `tau[j]` and `lanczos_size[j]` together are a list of nodes, `none` as
long as the inquiry has not been computed.
-/

namespace Imate.Lanczos

variable {K : Type _} [Field K] [LinearOrder K] {n : Nat}

/-- The virtual interface of `cLinearOperator` that a sample uses
(c_linear_operator.h, c_affine_matrix_function.cpp:97-113). -/
structure Operator (K : Type _) (n : Nat) where
  relationKnown : Bool
  dot : K → (Fin n → K) → Except Fault (Fin n → K)
  transposeDot : K → (Fin n → K) → Except Fault (Fin n → K)
  getEigenvalue : (knownParameter knownEigenvalue inquiryParameter : K) → K

/-- Everything external to the library that a sample calls. -/
structure External (K : Type _) where
  sqrt : K → K
  eps : K
  pow : K → K → K
  /-- `eigh_tridiagonal(alpha, beta, eigenvectors, size)`: new `alpha` and `eigenvectors` -/
  eigh : Nat → Array K → Array K → Array K × Array K
  /-- `svd_bidiagonal(alpha, beta, U, Vt, size)`: new `alpha` and `Vt` -/
  svd : Nat → Array K → Array K → Array K × Array K

/-- The options of a sample. -/
structure Options (K : Type _) where
  gram : Bool
  exponent : K
  orthogonalize : Int
  degree : Nat
  tol : K

/-- Nodes and weights `(theta[j][i], tau[j][i])`, `i < lanczos_size[j]`. -/
abbrev Nodes (K : Type _) := List (K × K)

/-- `for (i=0; i < size; ++i)` reading two arrays at computed positions. -/
def readNodes (size : Nat) (theta : Nat → Except Fault K) (tau : Nat → Except Fault K) :
    Except Fault (Nodes K) :=
  forRange 0 size (fun i l => do .ok (l ++ [(← theta i, ← tau i)])) []

/-- One pass of the loop over inquiries for the non-Gram case, c_trace_estimator.cpp:536-556. -/
def lanczosNodes (ext : External K) (opt : Options K)
    (dot : (Fin n → K) → Except Fault (Fin n → K)) (z : Fin n → K) (alpha beta : Array K) :
    Except Fault (Nodes K × Array K × Array K) := do
  let c ← lanczos ext.sqrt ext.eps dot z opt.degree opt.tol opt.orthogonalize alpha beta
  let (alpha, eigenvectors) := ext.eigh c.size c.alpha c.beta
  let nodes ← readNodes c.size (fun i => rd alpha i) (fun i => rd eigenvectors (i * c.size))
  .ok (nodes, alpha, c.beta)

/-- One pass of the loop over inquiries for the Gram case, c_trace_estimator.cpp:511-535. -/
def golubKahnNodes (ext : External K) (opt : Options K)
    (dot transposeDot : (Fin n → K) → Except Fault (Fin n → K)) (z : Fin n → K)
    (alpha beta : Array K) : Except Fault (Nodes K × Array K × Array K) := do
  let c ← golubKahn ext.sqrt ext.eps dot transposeDot z opt.degree opt.tol opt.orthogonalize
    alpha beta
  let (alpha, vt) := ext.svd c.size c.alpha c.beta
  let nodes ← readNodes c.size (fun i => do .ok ((← rd alpha i) * (← rd alpha i))) (fun i => rd vt i)
  .ok (nodes, alpha, c.beta)

/-- Local state of the loop over inquiries. -/
structure SampleState (K : Type _) where
  nodes : Array (Option (Nodes K))
  alpha : Array K
  beta : Array K

/-- The two branches of the loop body, c_trace_estimator.cpp:511-556. -/
def inquiryNodes (ext : External K) (opt : Options K) (op : Operator K n) (z : Fin n → K) (t : K)
    (alpha beta : Array K) : Except Fault (Nodes K × Array K × Array K) :=
  if opt.gram then golubKahnNodes ext opt (op.dot t) (op.transposeDot t) z alpha beta
  else lanczosNodes ext opt (op.dot t) z alpha beta

/-- The loop body for inquiry `j`, c_trace_estimator.cpp:497-557. -/
def inquiryBody (ext : External K) (opt : Options K) (op : Operator K n) (parameters : Array K)
    (z : Fin n → K) (converged : Array Bool) (required numInquiries : Nat) (j : Nat)
    (s : SampleState K) : Except Fault (SampleState K) := do
  if (← rd converged j) && required == numInquiries then .ok s
  else do
    let t ← rd parameters j
    let (nodes, alpha, beta) ← inquiryNodes ext opt op z t s.alpha s.beta
    .ok ⟨← wr s.nodes j (some nodes), alpha, beta⟩

/-- Body of the loop that shifts the nodes of inquiry 0, c_trace_estimator.cpp:577-593. -/
def shiftBody (op : Operator K n) (parameters : Array K) (j : Nat)
    (nodes : Array (Option (Nodes K))) : Except Fault (Array (Option (Nodes K))) := do
  match ← rd nodes 0 with
  | none => .error .invalid
  | some l => do
    let p0 ← rd parameters 0
    let pj ← rd parameters j
    wr nodes j (some (l.map (fun p => (op.getEigenvalue p0 p.1 pj, p.2))))

/-- The shifted nodes for the other inquiries, c_trace_estimator.cpp:577-593. -/
def shiftNodes (op : Operator K n) (parameters : Array K) (numInquiries : Nat)
    (nodes : Array (Option (Nodes K))) : Except Fault (Array (Option (Nodes K))) :=
  forRange 1 numInquiries (shiftBody op parameters) nodes

/-- `quadrature_sum`, c_trace_estimator.cpp:606-618. -/
def quadratureSum (pow : K → K → K) (f : K → K) (exponent : K) (l : Nodes K) : K :=
  l.foldl (fun s (th, ta) => s + ta * ta * f (pow th exponent)) 0

/-- Body of the loop that writes `trace_estimate`, c_trace_estimator.cpp:598-620. -/
def estimateBody (ext : External K) (opt : Options K) (f : K → K) (n : Nat)
    (converged : Array Bool) (nodes : Array (Option (Nodes K))) (j : Nat) (estimate : Array K) :
    Except Fault (Array K) := do
  if ← rd converged j then .ok estimate
  else match ← rd nodes j with
    | none => .error .invalid
    | some l => wr estimate j (n * quadratureSum ext.pow f opt.exponent l)

/-- The loop that writes `trace_estimate`, c_trace_estimator.cpp:596-621.  `n` is `matrix_size`. -/
def estimateLoop (ext : External K) (opt : Options K) (f : K → K) (n numInquiries : Nat)
    (converged : Array Bool) (nodes : Array (Option (Nodes K))) (estimate : Array K) :
    Except Fault (Array K) :=
  forRange 0 numInquiries (estimateBody ext opt f n converged nodes) estimate

/-- Number of inquiries that need an iteration, c_trace_estimator.cpp:447-457. -/
def requiredInquiries (op : Operator K n) (numInquiries : Nat) : Nat :=
  if op.relationKnown then 1 else numInquiries

/-- The convergence flags after the known-relation block, c_trace_estimator.cpp:564-574. -/
def resetConverged (op : Operator K n) (numInquiries : Nat) (converged : Array Bool) : Array Bool :=
  if op.relationKnown && decide (numInquiries > 1) then Array.replicate numInquiries false
  else converged

/-- Nodes of all inquiries after the known-relation block, c_trace_estimator.cpp:564-594. -/
def allNodes (op : Operator K n) (parameters : Array K) (numInquiries : Nat)
    (nodes : Array (Option (Nodes K))) : Except Fault (Array (Option (Nodes K))) :=
  if op.relationKnown && decide (numInquiries > 1) then shiftNodes op parameters numInquiries nodes
  else .ok nodes

/-- `_c_stochastic_lanczos_quadrature`, c_trace_estimator.cpp:410-654: returns the convergence flags
and the estimates.  `junk` is the uninitialised contents of `alpha` and `beta`. -/
def slqSample (ext : External K) (opt : Options K) (op : Operator K n) (f : K → K)
    (parameters : Array K) (numInquiries : Nat) (z : Fin n → K) (junkAlpha junkBeta : Array K)
    (converged : Array Bool) (estimate : Array K) : Except Fault (Array Bool × Array K) := do
  let required := requiredInquiries op numInquiries
  let s ← forRange 0 required
    (inquiryBody ext opt op parameters z converged required numInquiries)
    ⟨Array.replicate numInquiries none, junkAlpha, junkBeta⟩
  let nodes ← allNodes op parameters numInquiries s.nodes
  let converged := resetConverged op numInquiries converged
  let estimate ← estimateLoop ext opt f n numInquiries converged nodes estimate
  .ok (converged, estimate)

/-! ### Heap blocks of a sample (C29) -/

/-- Names of the heap blocks a sample allocates. -/
inductive Block where
  | alpha | beta | thetaTable | tauTable | lanczosSize
  | theta (j : Nat) | tau (j : Nat)
  | eigenvectors (j : Nat) | leftVectors (j : Nat) | rightVectors (j : Nat)
  deriving DecidableEq

/-- Blocks allocated before the loop, c_trace_estimator.cpp:438-439, 462-491. -/
def initialBlocks (numInquiries : Nat) : List Block :=
  [.alpha, .beta, .thetaTable] ++ (List.range numInquiries).map .theta ++
    [.tauTable] ++ (List.range numInquiries).map .tau ++ [.lanczosSize]

/-- Blocks allocated in the loop for the computed inquiry `j`, c_trace_estimator.cpp:519-522,
544. -/
def inquiryBlocks (gram : Bool) (j : Nat) : List Block :=
  if gram then [.leftVectors j, .rightVectors j] else [.eigenvectors j]

/-- The three pointers are overwritten by every computed inquiry, so that at the end they hold the
blocks of the last computed inquiry, if any; `delete[]` of these, c_trace_estimator.cpp:640-653. -/
def pointerBlocks (gram : Bool) (computed : List Nat) : List Block :=
  match computed.getLast? with
  | none => []
  | some j => inquiryBlocks gram j

/-- Inquiries computed by the loop, c_trace_estimator.cpp:497-506. -/
def computedInquiries (required numInquiries : Nat) (converged : Nat → Bool) : List Nat :=
  (List.range required).filter (fun j => !(converged j && required == numInquiries))

/-- Blocks released at the end, c_trace_estimator.cpp:623-653. -/
def releasedBlocks (gram : Bool) (required numInquiries : Nat) (converged : Nat → Bool) :
    List Block :=
  [.alpha, .beta, .lanczosSize] ++ (List.range required).map .theta ++ [.thetaTable] ++
    (List.range required).map .tau ++ [.tauTable] ++
    pointerBlocks gram (computedInquiries required numInquiries converged)

/-- Blocks allocated by a sample. -/
def allocatedBlocks (gram : Bool) (required numInquiries : Nat) (converged : Nat → Bool) :
    List Block :=
  initialBlocks numInquiries ++
    (computedInquiries required numInquiries converged).flatMap (inquiryBlocks gram)

/-- Blocks still allocated when a sample returns. -/
def leakedBlocks (gram relationKnown : Bool) (numInquiries : Nat) (converged : Nat → Bool) :
    List Block :=
  let required := if relationKnown then 1 else numInquiries
  (allocatedBlocks gram required numInquiries converged).diff
    (releasedBlocks gram required numInquiries converged)

end Imate.Lanczos
