import Verif.Model.Args
import Verif.Model.DirectArgs
import Verif.Model.Cholesky

/-!
# The settings that `info` repeats

With `return_info=True` every function returns a dictionary that, beside results, contains the settings of the run.
Modelled are these settings for the SLQ methods (`imate/_trace_estimator/trace_estimator.pyx:291-350`), the Hutchinson
method (`imate/traceinv/_hutchinson_method.pyx:673-729`) and the Cholesky methods, and the call that hands them back.

Simplified: on the CPU, as in `Verif.Model.Args`.
-/

namespace Imate.InfoSettings

open Args

/-! ### SLQ -/

/-- The variables of `trace_estimator` when it calls the C++ code
(`imate/_trace_estimator/trace_estimator.pyx:115-149`). -/
structure Settled where
  op : Operator
  params : Parameters
  numInquiries : ℕ
  /-- the arguments with the replacements for `None` and for small numbers of threads -/
  args : Arguments

/-- `trace_estimator` before the C++ code (`imate/_trace_estimator/trace_estimator.pyx:115-149`): the lines that
`Args.prepare` models, keeping the variables. -/
def settle (maxThreads : ℕ) (A : Operand) (parameters : PyVal) (a : Arguments) : Except PyExc Settled := do
  let threads ← setThreads maxThreads a.numThreads
  let op ← getOperator A a.gram
  let params ← getOperatorParameters parameters op.dtype
  let numInquiries ← findNumInquiries op.numParameters params.size
  let a := { a with numThreads := threads }
  let (atol, rtol) ← checkArguments a
  .ok ⟨op, params, numInquiries, { a with
    errorAtol := atol, errorRtol := rtol, seed := defaultSeed a.seed, lanczosTol := defaultTol op.dtype a.lanczosTol }⟩

/-- The entries of `info` that tell settings (`imate/_trace_estimator/trace_estimator.pyx:293-350`). -/
structure SlqInfo where
  dataType : DType
  gram : PyVal
  exponent : PyVal
  size : ℕ × ℕ
  numInquiries : ℕ
  numOperatorParameters : ℕ
  parameters : Parameters
  errorAtol : PyVal
  errorRtol : PyVal
  confidenceLevel : PyVal
  outlierSignificanceLevel : PyVal
  minNumSamples : PyVal
  maxNumSamples : PyVal
  numCpuThreads : PyVal
  numGpuDevices : PyVal
  lanczosDegree : PyVal
  lanczosTol : PyVal
  orthogonalize : PyVal
  seed : PyVal

/-- The dictionary (`imate/_trace_estimator/trace_estimator.pyx:293-350`). -/
def slqInfo (s : Settled) : SlqInfo where
  dataType := s.op.dtype
  gram := s.args.gram
  exponent := s.args.exponent
  size := (s.op.rows, s.op.cols)
  numInquiries := s.numInquiries
  numOperatorParameters := s.op.numParameters
  parameters := s.params
  errorAtol := s.args.errorAtol
  errorRtol := s.args.errorRtol
  confidenceLevel := s.args.confidenceLevel
  outlierSignificanceLevel := s.args.outlierSignificanceLevel
  minNumSamples := s.args.minNumSamples
  maxNumSamples := s.args.maxNumSamples
  numCpuThreads := s.args.numThreads
  numGpuDevices := s.args.numGpuDevices
  lanczosDegree := s.args.lanczosDegree
  lanczosTol := s.args.lanczosTol
  orthogonalize := s.args.orthogonalize
  seed := s.args.seed

/-- A call of an SLQ function with `return_info=True` and `plot=False` on the CPU: the trace and the settings in `info`
(`imate/_trace_estimator/trace_estimator.pyx:38-390`).  `run` is the C++ code. -/
def slqCall {V : Type} (maxThreads : ℕ) (run : Operator → Native → Except PyExc (List V)) (A : Operand)
    (parameters : PyVal) (a : Arguments) : Except PyExc (Output V × SlqInfo) := do
  let s ← settle maxThreads A parameters a
  let native ← toNative s.op s.params s.numInquiries s.args s.args.errorAtol s.args.errorRtol
  let trace ← run s.op native
  let verbose ← truth a.verbose
  let _ ← report verbose ⟨s.op, s.params, native, outputIsArray s.params⟩
  let out ← wrapOutput (outputIsArray s.params) trace
  .ok (out, slqInfo s)

/-- `info['matrix']['parameters']` as a Python value (`imate/_trace_estimator/trace_estimator.pyx:304`). -/
def Parameters.toPy : Parameters → PyVal
  | .none => .none
  | .scalar v => v
  | .array dt entries => .array dt 1 entries

/-- The call that a user makes to repeat a run: every setting is taken from `info`; `verbose`, `plot` and `gpu`, which
`info` does not tell, as before.  (Not a function of /repo; the arguments are those of
`imate/_trace_estimator/trace_estimator.pyx:38-58`.) -/
def SlqInfo.arguments (i : SlqInfo) (a : Arguments) : Arguments where
  gram := i.gram
  exponent := i.exponent
  minNumSamples := i.minNumSamples
  maxNumSamples := i.maxNumSamples
  errorAtol := i.errorAtol
  errorRtol := i.errorRtol
  confidenceLevel := i.confidenceLevel
  outlierSignificanceLevel := i.outlierSignificanceLevel
  lanczosDegree := i.lanczosDegree
  lanczosTol := i.lanczosTol
  orthogonalize := i.orthogonalize
  seed := i.seed
  numThreads := i.numCpuThreads
  numGpuDevices := i.numGpuDevices
  verbose := a.verbose
  plot := a.plot
  gpu := a.gpu

/-! ### Hutchinson -/

open DirectArgs

/-- The lines that replace arguments (`imate/traceinv/_hutchinson_method.pyx:620-644`); `cpus` is
`multiprocessing.cpu_count()`. -/
def hutchSettle (cpus : ℕ) (a : HutchArgs) : Except PyExc HutchArgs := do
  let (atol, rtol, _) ← checkHutchinson a
  let cols ← a.A.dim 1
  let maxNum := if (cols : ℤ) < a.maxNumSamples.intValue then .int cols else a.maxNumSamples
  let minNum := if (cols : ℤ) < a.minNumSamples.intValue then .int cols else a.minNumSamples
  let threads := if a.numThreads.intValue < 1 then .int cpus else a.numThreads
  .ok { a with
    errorAtol := atol, errorRtol := rtol, maxNumSamples := maxNum, minNumSamples := minNum, seed := defaultSeed a.seed
    numThreads := threads }

/-- The entries of `info` that tell settings (`imate/traceinv/_hutchinson_method.pyx:674-729`). -/
structure HutchInfo where
  gram : PyVal
  exponent : PyVal
  assumeMatrix : PyVal
  errorAtol : PyVal
  errorRtol : PyVal
  confidenceLevel : PyVal
  outlierSignificanceLevel : PyVal
  minNumSamples : PyVal
  maxNumSamples : PyVal
  numCpuThreads : PyVal
  orthogonalize : PyVal
  seed : PyVal
  solverTol : PyVal

/-- The dictionary (`imate/traceinv/_hutchinson_method.pyx:674-729`). -/
def hutchInfo (s : HutchArgs) : HutchInfo where
  gram := s.gram
  exponent := s.p
  assumeMatrix := s.assumeMatrix
  errorAtol := s.errorAtol
  errorRtol := s.errorRtol
  confidenceLevel := s.confidenceLevel
  outlierSignificanceLevel := s.outlierSignificanceLevel
  minNumSamples := s.minNumSamples
  maxNumSamples := s.maxNumSamples
  numCpuThreads := s.numThreads
  orthogonalize := s.orthogonalize
  seed := s.seed
  solverTol := s.solverTol

/-- A call of the Hutchinson method with `return_info=True`; `run` is the method for the data type
(`imate/traceinv/_hutchinson_method.pyx:619-740`). -/
def hutchCall {V : Type} (cpus : ℕ) (run : HutchArgs → Except PyExc V) (a : HutchArgs) :
    Except PyExc (V × HutchInfo) := do
  let s ← hutchSettle cpus a
  let v ← run s
  .ok (v, hutchInfo s)

/-- The call that takes every setting from `info` (the arguments are those of
`imate/traceinv/_hutchinson_method.pyx:37-56`). -/
def HutchInfo.arguments (i : HutchInfo) (a : HutchArgs) : HutchArgs :=
  { a with
    gram := i.gram, p := i.exponent, assumeMatrix := i.assumeMatrix, errorAtol := i.errorAtol, errorRtol := i.errorRtol
    confidenceLevel := i.confidenceLevel, outlierSignificanceLevel := i.outlierSignificanceLevel
    minNumSamples := i.minNumSamples, maxNumSamples := i.maxNumSamples, numThreads := i.numCpuThreads
    orthogonalize := i.orthogonalize, seed := i.seed, solverTol := i.solverTol }

/-! ### Cholesky -/

/-- `info['solver']['cholmod_used']` (`imate/traceinv/_cholesky_method.py:312-315,453`,
`imate/logdet/_cholesky_method.py:270-273,356`). -/
def cholmodUsed (st : Direct.CholeskySettings) (sparse : Bool) : Bool := Direct.useCholmod st sparse

end Imate.InfoSettings
