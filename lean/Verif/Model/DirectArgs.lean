import Verif.Model.Args

/-!
# Argument checks of the methods other than SLQ

`check_arguments` of the exact, eigenvalue, Cholesky and Hutchinson methods, for arguments of any Python type.
-/

namespace Imate.DirectArgs
open Args

/-- The matrix argument, as far as the checks can tell values apart. -/
inductive MatArg where
  /-- `numpy.ndarray` with any number of dimensions -/
  | ndarray (shape : List ℕ)
  /-- `scipy.sparse.csr_matrix` and the like -/
  | spmatrix (rows cols : ℕ)
  /-- `scipy.sparse.csr_array` and the like -/
  | sparray (rows cols : ℕ)
  /-- anything else: a list, `imate.Matrix`, … -/
  | other
  deriving DecidableEq, Repr

namespace MatArg

/-- `A.shape` -/
def shape : MatArg → List ℕ
  | ndarray s => s
  | spmatrix r c | sparray r c => [r, c]
  | other => []

/-- `isinstance(A, numpy.ndarray)` -/
def isNdarray : MatArg → Bool
  | ndarray _ => true
  | _ => false

/-- `scipy.sparse.issparse(A)` -/
def issparse : MatArg → Bool
  | spmatrix .. | sparray .. => true
  | _ => false

/-- `scipy.sparse.isspmatrix(A)` -/
def isspmatrix : MatArg → Bool
  | spmatrix .. => true
  | _ => false

/-- `A.shape[k]` -/
def dim (A : MatArg) (k : ℕ) : Except PyExc ℕ :=
  match A.shape[k]? with
  | some d => .ok d
  | none => .error .indexError

end MatArg

/-- The test of the type of `A` with `issparse` (trace/_exact_method.py:386-388, trace/_eigenvalue_method.py:413-415,
logdet/_eigenvalue_method.py:430-432, logdet/_cholesky_method.py:381-383, traceinv/_eigenvalue_method.py:417-419,
trexp/_eigenvalue_method.py:397-399). -/
def checkSparse (A : MatArg) : Except PyExc Unit :=
  raiseIf (!A.isNdarray && !A.issparse) .typeError

/-- The test of the type of `A` with `isspmatrix` (traceinv/_cholesky_method.py:473-475,
traceinv/_hutchinson_method_utilities.pyx:47-49). -/
def checkSpmatrix (A : MatArg) : Except PyExc Unit :=
  raiseIf (!A.isNdarray && !A.isspmatrix) .typeError

/-- `square` (trace/_exact_method.py:391-394 and the same lines of the other methods). -/
def square (A : MatArg) : Except PyExc Bool := do
  let r ← A.dim 0
  let c ← A.dim 1
  .ok (decide (r = c))

/-- The check of `gram` and of the shape (trace/_exact_method.py:397-406 and the same lines of the other methods). -/
def checkGram (gram : PyVal) (sq : Bool) : Except PyExc Unit := do
  checkBool gram
  let g ← truth gram
  raiseIf (!g && !sq) .valueError

/-- The check of `return_info` (trace/_exact_method.py:419-420 and the same lines of the other methods). -/
def checkReturnInfo (v : PyVal) : Except PyExc Unit := raiseIf (!v.isBool) .typeError

/-- `check_arguments` of the exact method (trace/_exact_method.py:380-420).  The exceptions for a `p` that is no integer
and for a negative one are created but not raised. -/
def checkExact (A : MatArg) (gram p returnInfo : PyVal) : Except PyExc Unit := do
  checkSparse A
  let sq ← square A
  checkGram gram sq
  checkExponent p
  checkReturnInfo returnInfo

/-- The check of `eigenvalues` (trace/_eigenvalue_method.py:418-423 and the same lines of the other methods). -/
def checkEigenvalues (A : MatArg) (v : PyVal) : Except PyExc Unit :=
  match v with
  | .none => .ok ()
  | .array _ _ entries => do
    let r ← A.dim 0
    raiseIf (decide (entries.length ≠ r)) .valueError
  | _ => .error .typeError

/-- The check of `assume_matrix`: the eigenvalue methods allow two names (trace/_eigenvalue_method.py:456-461), the
Hutchinson method four (traceinv/_hutchinson_method_utilities.pyx:116-123).  Values of the type `bytes` count here as
`PyVal.other`. -/
def checkAssume (noneExc : PyExc) (allowed : List String) (v : PyVal) : Except PyExc Unit :=
  match v with
  | .none => .error noneExc
  | .str s => raiseIf (!allowed.contains s) .valueError
  | _ => .error .typeError

/-- `isinstance(v, float)` -/
def isFloat : PyVal → Bool
  | .float _ => true
  | _ => false

/-- The condition `v <= 0 or v >= 1.0`, which `nan` does not meet. -/
def notInside (x : Num) : Bool :=
  lt x (.fin 0) || decide (x = .fin 0) || lt (.fin 1) x || decide (x = .fin 1)

/-- The check of `non_zero_eig_fraction` (trace/_eigenvalue_method.py:464-473); `ints` for logdet, whose check lets
integers through to the comparison (logdet/_eigenvalue_method.py:481-490). -/
def checkFraction (ints : Bool) (v : PyVal) : Except PyExc Unit :=
  match v with
  | .none => .error .typeError
  | v =>
    if !v.isscalar then .error .typeError
    else if !(isFloat v || ints && v.isIntOrFloat) then .error .typeError
    else
      match v.num with
      | some x => raiseIf (notInside x) .valueError
      | none => .error .typeError

/-- The arguments of the eigenvalue methods. -/
structure EigArgs where
  A : MatArg
  eigenvalues : PyVal
  gram : PyVal
  p : PyVal
  returnInfo : PyVal
  assumeMatrix : PyVal
  fraction : PyVal

/-- `check_arguments` of the eigenvalue methods of trace (trace/_eigenvalue_method.py:400-473), traceinv
(traceinv/_eigenvalue_method.py:404-475), trexp (trexp/_eigenvalue_method.py:384-457) and, with `ints`, logdet
(logdet/_eigenvalue_method.py:417-492).  The checks of trlinfrac, eigencount and density are these and the ones of C56. -/
def checkEigenvalue (ints : Bool) (a : EigArgs) : Except PyExc Unit := do
  checkSparse a.A
  checkEigenvalues a.A a.eigenvalues
  let sq ← square a.A
  checkGram a.gram sq
  checkExponent a.p
  checkReturnInfo a.returnInfo
  checkAssume .typeError ["gen", "sym"] a.assumeMatrix
  checkFraction ints a.fraction

/-- The check of `cholmod` (logdet/_cholesky_method.py:416-424, traceinv/_cholesky_method.py:534-540). -/
def checkCholmod (suitesparse : Bool) (v : PyVal) : Except PyExc Unit :=
  match v with
  | .none => .ok ()
  | .bool b => raiseIf (b && !suitesparse) .runtimeError
  | _ => .error .typeError

/-- `check_arguments` of the Cholesky method of logdet (logdet/_cholesky_method.py:370-426); the exception for a complex
`p` is created but not raised. -/
def checkLogdetCholesky (suitesparse : Bool) (A : MatArg) (gram p returnInfo cholmod : PyVal) : Except PyExc Bool := do
  checkSparse A
  let sq ← square A
  checkGram gram sq
  checkExponent p
  checkReturnInfo returnInfo
  checkCholmod suitesparse cholmod
  .ok sq

/-- The check of `B` (traceinv/_cholesky_method.py:484-499, traceinv/_hutchinson_method_utilities.pyx:58-73) and of `C`
(traceinv/_hutchinson_method_utilities.pyx:76-93). -/
def checkSecond (A : MatArg) (sq : Bool) (B : MatArg) : Except PyExc Unit :=
  if A.isNdarray && !B.isNdarray then .error .typeError
  else if A.isspmatrix && !B.isspmatrix then .error .typeError
  else if sq then raiseIf (decide (A.shape ≠ B.shape)) .valueError
  else do
    let c ← A.dim 1
    let r ← B.dim 0
    raiseIf (decide (c ≠ r)) .valueError

/-- `check_arguments` of the Cholesky method of traceinv (traceinv/_cholesky_method.py:467-541). -/
def checkTraceinvCholesky (suitesparse : Bool) (A : MatArg) (B : Option MatArg)
    (gram p returnInfo invertCholesky cholmod : PyVal) : Except PyExc Bool := do
  checkSpmatrix A
  let sq ← square A
  match B with
  | none => .ok ()
  | some B => checkSecond A sq B
  checkGram gram sq
  checkExponent p
  raiseIf (!p.isInteger) .typeError
  checkReturnInfo returnInfo
  raiseIf (!invertCholesky.isBool) .typeError
  checkCholmod suitesparse cholmod
  .ok sq

/-- The check of `error_atol` and `error_rtol` of the Hutchinson method
(traceinv/_hutchinson_method_utilities.pyx:151-168); unlike that of SLQ it takes NumPy integers. -/
def checkTol (v : PyVal) : Except PyExc PyVal :=
  match v with
  | .none => .ok (.float (.fin 0))
  | v => do
    checkLanczosTol v
    .ok v

/-- The arguments of the Hutchinson method (traceinv/_hutchinson_method.pyx:37-56). -/
structure HutchArgs where
  A : MatArg
  B : Option MatArg
  C : Option MatArg
  gram : PyVal
  p : PyVal
  returnInfo : PyVal
  assumeMatrix : PyVal
  minNumSamples : PyVal
  maxNumSamples : PyVal
  errorAtol : PyVal
  errorRtol : PyVal
  confidenceLevel : PyVal
  outlierSignificanceLevel : PyVal
  solverTol : PyVal
  orthogonalize : PyVal
  seed : PyVal
  numThreads : PyVal
  verbose : PyVal
  plot : PyVal

/-- The checks of the matrices (traceinv/_hutchinson_method_utilities.pyx:46-93). -/
def checkMatrices (A : MatArg) (B C : Option MatArg) : Except PyExc Bool := do
  checkSpmatrix A
  let sq ← square A
  match B with
  | none => .ok ()
  | some B => checkSecond A sq B
  match C with
  | none => .ok ()
  | some C => do
    raiseIf B.isNone .valueError
    checkSecond A sq C
  .ok sq

/-- The checks of the numbers of samples, the tolerances and the levels
(traceinv/_hutchinson_method_utilities.pyx:126-195).  The comparison of `outlier_significance_level` with
`1.0 - confidence_level` is exact here. -/
def checkStatistics (a : HutchArgs) : Except PyExc (PyVal × PyVal) := do
  checkInteger .valueError 1 a.minNumSamples
  checkInteger .valueError 1 a.maxNumSamples
  raiseIf (decide (a.maxNumSamples.intValue < a.minNumSamples.intValue)) .valueError
  let atol ← checkTol a.errorAtol
  let rtol ← checkTol a.errorRtol
  let x ← checkOutlierLevel a.confidenceLevel
  let y ← checkOutlierLevel a.outlierSignificanceLevel
  raiseIf (lt (oneMinus x) y) .valueError
  .ok (atol, rtol)

/-- `check_arguments` of the Hutchinson method (traceinv/_hutchinson_method_utilities.pyx:22-246).  There is no check that
a matrix is square without `gram`; the exception for an exponent that is no integer is created but not raised. -/
def checkHutchinson (a : HutchArgs) : Except PyExc (PyVal × PyVal × Bool) := do
  let sq ← checkMatrices a.A a.B a.C
  checkBool a.gram
  checkExponent a.p
  checkReturnInfo a.returnInfo
  checkAssume .valueError ["gen", "pos", "sym", "sym_pos"] a.assumeMatrix
  let tols ← checkStatistics a
  checkLanczosTol a.solverTol
  checkBool a.orthogonalize
  checkSeed a.seed
  checkInteger .typeError 0 a.numThreads
  checkBool a.verbose
  checkBool a.plot
  .ok (tols.1, tols.2, sq)

end Imate.DirectArgs
