import Verif.Model.Args
import Verif.Model.Arrays
import Verif.Lemmas.Convergence

/-!
# The dictionary `info`

What the functions report next to the trace: `_trace_estimator/trace_estimator.pyx` for the SLQ method, the direct methods
(`trace/_exact_method.py` and the others, which have the same lines) and `linear_operator/`.  Numbers are exact.  Of the
sparse formats only those of `Verif.Model.Arrays` are modelled.
-/

namespace Imate.Info

open Direct Args Convergence FloatLike

variable {K : Type} [Field K]

/-- The part of `info['matrix']` that describes the matrix. -/
structure MatrixInfo where
  dataType : DType
  size : ℕ × ℕ
  sparse : Bool
  nnz : ℕ
  density : ℚ
  deriving DecidableEq

/-! ### `imate.Matrix` and `imate.AffineMatrixFunction` -/

/-- `Matrix(A)` or `AffineMatrixFunction(A, B)` (linear_operator/matrix.py:268-282, affine_matrix_function.py:278-290). -/
structure Operator (K : Type) where
  A : Array2 K
  B : Option (Array2 K)
  numParameters : ℕ
  dtype : DType

/-- `set_data_type_name` (linear_operator.py:151-169). -/
def setDataTypeName (d : DType) : Except PyExc DType := if d = .other then .error .typeError else .ok d

/-- `Matrix.__init__`. -/
def newMatrix (d : DType) (A : Array2 K) : Except PyExc (Operator K) := do
  .ok ⟨A, none, 0, ← setDataTypeName d⟩

/-- `AffineMatrixFunction.__init__`. -/
def newAffine (d : DType) (A : Array2 K) (B : Option (Array2 K)) : Except PyExc (Operator K) := do
  .ok ⟨A, B, 1, ← setDataTypeName d⟩

/-- `get_nnz` (matrix.py:409-423, affine_matrix_function.py:419-433). -/
def Operator.getNnz (op : Operator K) : ℕ :=
  match op.A with
  | .sparse _ _ entries => entries.length
  | .dense M => M.rows * M.cols

/-- `get_density` (matrix.py:429-446, affine_matrix_function.py:439-456). -/
def Operator.getDensity (op : Operator K) : Except PyExc ℚ :=
  if op.A.isSparse then
    if op.A.value.rows * op.A.value.cols = 0 then .error .zeroDivision
    else .ok (op.getNnz / (op.A.value.rows * op.A.value.cols : ℕ))
  else .ok 1

/-- The matrix part of the dictionary of the SLQ method (trace_estimator.pyx:285-308). -/
def slqMatrixInfo (op : Operator K) : Except PyExc MatrixInfo := do
  .ok ⟨op.dtype, (op.A.value.rows, op.A.value.cols), op.A.isSparse, op.getNnz, ← op.getDensity⟩

/-! ### The direct methods -/

/-- `get_data_type_name` (matrix_utilities.py:21-38). -/
def getDataTypeName : DType → Except PyExc DType
  | .float32 => .ok .float32
  | .float64 => .ok .float64
  | .float128 => .ok .float128
  | .other => .error .typeError

/-- `get_nnz` (matrix_utilities.py:45-53). -/
def getNnz : Array2 K → ℕ
  | .sparse _ _ entries => entries.length
  | .dense M => M.rows * M.cols

/-- `get_density` (matrix_utilities.py:60-69). -/
def getDensity (A : Array2 K) : Except PyExc ℚ :=
  match A with
  | .sparse rows cols _ => if rows * cols = 0 then .error .zeroDivision else .ok (getNnz A / (rows * cols : ℕ))
  | .dense _ => .ok 1

/-- The matrix part of the dictionary (trace/_exact_method.py:338-349 and the same lines of
`_eigenvalue_method.py`, `_cholesky_method.py` and `traceinv/_hutchinson_method.pyx`). -/
def directMatrixInfo (d : DType) (A : Array2 K) : Except PyExc MatrixInfo := do
  let dtype ← getDataTypeName d
  let density ← getDensity A
  .ok ⟨dtype, (A.value.rows, A.value.cols), A.isSparse, getNnz A, density⟩

/-- The end of a direct method (trace/_exact_method.py:335-373): the dictionary is made whether it is asked for or not. -/
def directResult {α : Type} (d : DType) (A : Array2 K) (trace : α) (returnInfo : Bool) :
    Except PyExc (α × Option MatrixInfo) := do
  let info ← directMatrixInfo d A
  .ok (trace, if returnInfo then some info else none)

/-! ### Convergence and errors -/

variable {V : Type} [FloatLike V]

/-- The numbers reported for one inquiry. -/
structure RunInfo (V : Type) where
  absoluteError : V
  relativeError : V
  numSamplesUsed : ℕ
  numOutliers : ℕ
  samplesMean : V

/-- trace_estimator.pyx:355-375, traceinv/_hutchinson_method.pyx:688-710: `xs` are the samples that were used, `eps` is
`numpy.finfo(float).eps`. -/
def runInfo (errorZ outlierZ eps : V) (xs : List V) : RunInfo V :=
  let a := averageEstimate errorZ outlierZ xs
  ⟨a.error, div a.error (add (abs a.trace) eps), xs.length, a.numOutliers, a.trace⟩

/-! ### Devices -/

/-- The entry `num_gpu_devices` (trace_estimator.pyx:187-214, 337-344): the argument, replaced by the number of all devices
if it is zero and a GPU is used. -/
def reportedDevices (gpu : Bool) (numGpuDevices available : ℕ) : ℕ :=
  if gpu then (if numGpuDevices = 0 then available else numGpuDevices) else numGpuDevices

/-! ### Times -/

/-- `Timer::get_wall_time` (_utilities/timer.cpp:111-144): the clock of the system, or `NAN` if it cannot be read; the
exceptions are constructed and not thrown. -/
def getWallTime : Option ℝ → XR ℝ
  | some t => .fin t
  | none => .nan

/-- `Timer` around the loop over the samples (c_trace_estimator.cpp:254-255, 294-295, timer.cpp:66-99): readings of the
clock of the system at the start and at the end. -/
noncomputable def algWallTime (start stop : Option ℝ) : XR ℝ := FloatLike.sub (getWallTime stop) (getWallTime start)

/-- `tot_wall_time` (trace_estimator.pyx:176, 281): readings of `time.perf_counter`. -/
noncomputable def totWallTime (start stop : ℝ) : ℝ := stop - start

/-! ### The printed summary -/

/-- The numbers printed with a percent sign (trace_estimator_utilities.py:392-397, 543-547): relative error, relative
tolerance, significance level of outliers, confidence level. -/
structure Percents (K : Type) where
  relativeError : K
  errorRtol : K
  outlierLevel : K
  confidenceLevel : K

/-- `print_summary` (trace_estimator_utilities.py:381-397, 539-548), before the numbers are rounded to two or three
digits. -/
def printedPercents (relativeError errorRtol outlierLevel confidenceLevel : K) : Percents K :=
  ⟨relativeError * 100, errorRtol * 100, outlierLevel, confidenceLevel * 100⟩

end Imate.Info
