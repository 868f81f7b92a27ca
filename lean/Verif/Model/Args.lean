import Verif.Model.FloatLike
import Verif.Model.Py
import Mathlib.Algebra.Order.Ring.Rat
import Mathlib.Algebra.Order.Field.Rat

/-!
# Arguments of the stochastic Lanczos quadrature functions

`logdet`, `trace`, `traceinv`, `trexp`, `eigencount`, `trlinfrac` and `density` with `method='slq'` hand
their arguments to `trace_estimator` (`imate/_trace_estimator/trace_estimator.pyx:38-58`), which validates
them in Python and then converts them to C types.  This file models everything from the call of
`trace_estimator` to the call of the C++ code, for arguments of any Python type.
-/

namespace Imate.Args

/-- A real number of Python: a double is a rational number or a special value. -/
abbrev Num := XR ℚ

/-- The element types of `numpy` arrays; `other` is every type but the three accepted ones. -/
inductive DType where
  | float32 | float64 | float128 | other
  deriving DecidableEq, Repr

/-- A Python value, as far as the argument checks can tell values apart.  `float` includes `numpy.float64`
and `complex` includes `numpy.complex128`, which are subclasses of the Python types; `npFloat` is every
other floating type of `numpy`; `str` includes `bytes`.  A list is known by the array `numpy.array` makes of
it (its number of dimensions and entries), or the exception this raises. -/
inductive PyVal where
  | none
  | bool (b : Bool)
  | int (z : ℤ)
  | npBool (b : Bool)
  | npInt (z : ℤ)
  | float (x : Num)
  | npFloat (x : Num)
  | complex
  | str (s : String)
  | array (dtype : DType) (ndim : ℕ) (entries : List Num)
  | list (converted : Except PyExc (ℕ × List Num))
  | tuple (length : ℕ)
  /-- anything else; `scalar` when it is registered as a `numbers.Number` -/
  | other (scalar : Bool)

namespace PyVal

/-- `numpy.isscalar` -/
def isscalar : PyVal → Bool
  | bool _ | int _ | npBool _ | npInt _ | float _ | npFloat _ | complex | str _ => true
  | other s => s
  | _ => false

/-- `isinstance(v, bool)` -/
def isBool : PyVal → Bool
  | bool _ => true
  | _ => false

/-- `isinstance(v, (int, numpy.integer))`: `bool` is a subclass of `int`. -/
def isInteger : PyVal → Bool
  | bool _ | int _ | npInt _ => true
  | _ => false

/-- `isinstance(v, (int, float))` -/
def isIntOrFloat : PyVal → Bool
  | bool _ | int _ | float _ => true
  | _ => false

/-- `isinstance(v, (int, numpy.integer, float))` -/
def isIntegerOrFloat : PyVal → Bool
  | bool _ | int _ | npInt _ | float _ => true
  | _ => false

/-- The number a real Python number is. -/
def num : PyVal → Option Num
  | bool b | npBool b => some (.fin (if b then 1 else 0))
  | int z | npInt z => some (.fin z)
  | float x | npFloat x => some x
  | _ => Option.none

/-- The integer a Python integer is. -/
def intValue : PyVal → ℤ
  | bool b => if b then 1 else 0
  | int z | npInt z => z
  | _ => 0

end PyVal

/-- `a < b` on numbers; false when one is `nan`. -/
def lt (a b : Num) : Bool := XR.lt a b

/-- The condition `v < c` of an `if` (`c` a number).  A comparison with an array is one array; the truth of
an array is that of its only entry, an array with any other number of entries has none (`numpy` 2.2 and
later for no entries). -/
def pyLt (v : PyVal) (c : Num) : Except PyExc Bool :=
  match v with
  | .array _ _ entries =>
    match entries with
    | [x] => .ok (lt x c)
    | _ => .error .valueError
  | v =>
    match v.num with
    | some x => .ok (lt x c)
    | none => .error .typeError

/-- The truth of a Python value in an `if`. -/
def truth : PyVal → Except PyExc Bool
  | .none => .ok false
  | .array _ _ entries =>
    match entries with
    | [x] => .ok (!(decide (x = .fin 0)))
    | _ => .error .valueError
  | .str s => .ok (s ≠ "")
  | .list c =>
    match c with
    | .ok (_, entries) => .ok (!entries.isEmpty)
    | .error _ => .ok true
  | .tuple n => .ok (n ≠ 0)
  | .bool b | .npBool b => .ok b
  | .int z | .npInt z => .ok (z ≠ 0)
  | .float x | .npFloat x => .ok (!(decide (x = .fin 0)))
  | .complex => .ok true
  | .other _ => .ok true

/-- `raise`, if the condition holds. -/
def raiseIf (c : Bool) (e : PyExc) : Except PyExc Unit := if c then .error e else .ok ()

/-- The check of `gram`, and with the same text those of `verbose`, `plot` and `gpu`
(`imate/_trace_estimator/trace_estimator_utilities.py:136-141,282-303`). -/
def checkBool (v : PyVal) : Except PyExc Unit :=
  match v with
  | .none => .error .typeError
  | v =>
    if !v.isscalar then .error .typeError
    else if !v.isBool then .error .typeError
    else .ok ()

/-- The check of `exponent` (`imate/_trace_estimator/trace_estimator_utilities.py:144-149`).  For a complex
number the exception is created but not raised. -/
def checkExponent (v : PyVal) : Except PyExc Unit :=
  match v with
  | .none => .error .typeError
  | v => if !v.isscalar then .error .typeError else .ok ()

/-- The check of an integer with a lower bound: `min_num_samples`, `max_num_samples` (bound one, `None` is a
`ValueError`), `lanczos_degree` (bound one), `num_threads`, `num_gpu_devices` (bound zero)
(`imate/_trace_estimator/trace_estimator_utilities.py:152-169,224-233,262-279`). -/
def checkInteger (noneExc : PyExc) (bound : ℤ) (v : PyVal) : Except PyExc Unit :=
  match v with
  | .none => .error noneExc
  | v =>
    if !v.isscalar then .error .typeError
    else if !v.isInteger then .error .typeError
    else if v.intValue < bound then .error .valueError
    else .ok ()

/-- The check of `error_atol` and `error_rtol`, which returns the tolerance to use
(`imate/_trace_estimator/trace_estimator_utilities.py:177-194`). -/
def checkTolerance (v : PyVal) : Except PyExc PyVal :=
  match v with
  | .none => .ok (.float (.fin 0))
  | v =>
    if !v.isscalar then .error .typeError
    else if !v.isIntOrFloat then .error .typeError
    else do
      let negative ← pyLt v (.fin 0)
      if negative then .error .valueError else .ok v

/-- The condition `v < 0.0 or v > 1.0`. -/
def outsideUnit (x : Num) : Bool := lt x (.fin 0) || lt (.fin 1) x

/-- The check of `confidence_level` (`imate/_trace_estimator/trace_estimator_utilities.py:197-204`); returns
the number. -/
def checkConfidence (v : PyVal) : Except PyExc Num :=
  match v with
  | .none => .error .typeError
  | v =>
    if !v.isscalar then .error .typeError
    else if !v.isIntOrFloat then .error .typeError
    else
      match v.num with
      | some x => if outsideUnit x then .error .valueError else .ok x
      | none => .error .typeError

/-- The check of `outlier_significance_level`
(`imate/_trace_estimator/trace_estimator_utilities.py:207-216`); returns the number. -/
def checkOutlierLevel (v : PyVal) : Except PyExc Num :=
  match v with
  | .none => .error .typeError
  | v =>
    if !v.isscalar then .error .typeError
    else if !v.isIntegerOrFloat then .error .typeError
    else
      match v.num with
      | some x => if outsideUnit x then .error .valueError else .ok x
      | none => .error .typeError

/-- `1.0 - x`, without rounding. -/
def oneMinus (x : Num) : Num := XR.add (.fin 1) (XR.neg x)

/-- The check of `lanczos_tol` (`imate/_trace_estimator/trace_estimator_utilities.py:236-242`). -/
def checkLanczosTol (v : PyVal) : Except PyExc Unit :=
  match v with
  | .none => .ok ()
  | v =>
    if !v.isscalar then .error .typeError
    else if !v.isIntegerOrFloat then .error .typeError
    else do
      let negative ← pyLt v (.fin 0)
      if negative then .error .valueError else .ok ()

/-- The check of `orthogonalize` (`imate/_trace_estimator/trace_estimator_utilities.py:245-253`). -/
def checkOrthogonalize (v degree : PyVal) : Except PyExc Unit :=
  match v with
  | .none => .error .typeError
  | v =>
    if !v.isscalar then .error .typeError
    else if !v.isInteger then .error .typeError
    else if degree.intValue < v.intValue then .error .valueError
    else .ok ()

/-- The check of `seed` (`imate/_trace_estimator/trace_estimator_utilities.py:256-259`). -/
def checkSeed (v : PyVal) : Except PyExc Unit :=
  match v with
  | .none => .ok ()
  | v =>
    if !v.isscalar then .error .typeError
    else if !v.isInteger then .error .typeError
    else .ok ()

/-- The matrix argument: an array or a `scipy.sparse` matrix, an object of a class derived from
`LinearOperator` holding a matrix with two dimensions (`Matrix` has no parameter, `AffineMatrixFunction`
one), or anything else. -/
inductive Operand where
  | matrix (dtype : DType) (shape : List ℕ)
  | operator (dtype : DType) (rows cols : ℕ) (numParameters : ℕ)
  | other

/-- What the rest of the code knows about the operator. -/
structure Operator where
  dtype : DType
  rows : ℕ
  cols : ℕ
  numParameters : ℕ
  deriving DecidableEq, Repr

/-- `Matrix.__init__` and `LinearOperator.set_data_type_name`
(`imate/linear_operator/matrix.py:269-280`, `imate/linear_operator/linear_operator.py:153-169`); also run by
the constructors of the operators passed by the user. -/
def makeOperator (dtype : DType) (rows cols numParameters : ℕ) : Except PyExc Operator :=
  if dtype = .other then .error .typeError else .ok ⟨dtype, rows, cols, numParameters⟩

/-- `get_operator` (`imate/_trace_estimator/trace_estimator_utilities.py:24-55`). -/
def getOperator (A : Operand) (gram : PyVal) : Except PyExc Operator :=
  match A with
  | .matrix dtype shape =>
    match shape with
    | [rows, cols] => do
      let g ← truth gram
      if !g && rows ≠ cols then .error .valueError else makeOperator dtype rows cols 0
    | _ => .error .valueError
  | .operator dtype rows cols k => do
    let g ← truth gram
    if !g && rows ≠ cols then .error .valueError else makeOperator dtype rows cols k
  | .other => .error .typeError

/-- `parameters` after `get_operator_parameters`: what the C code will be given. -/
inductive Parameters where
  | none
  | scalar (v : PyVal)
  | array (dtype : DType) (entries : List Num)

/-- The second component of the result of `get_operator_parameters`. -/
def Parameters.size : Parameters → ℕ
  | none => 0
  | scalar _ => 1
  | array _ entries => entries.length

/-- `get_operator_parameters` (`imate/_trace_estimator/trace_estimator_utilities.py:62-101`). -/
def getOperatorParameters (v : PyVal) (dtype : DType) : Except PyExc Parameters :=
  match v with
  | .none => .ok .none
  | v =>
    if v.isscalar then .ok (.scalar v)
    else
      match v with
      | .list c => do
        let (ndim, entries) ← c
        if ndim ≠ 1 then .error .valueError else .ok (.array dtype entries)
      | .array dt ndim entries => if ndim ≠ 1 then .error .valueError else .ok (.array dt entries)
      | _ => .error .typeError

/-- `find_num_inquiries` (`imate/_trace_estimator/trace_estimator_utilities.py:338-373`).  The quotient
`int(a / b)` goes through a double in the code; here it is exact. -/
def findNumInquiries (numParameters size : ℕ) : Except PyExc ℕ :=
  if numParameters = 0 then .ok 1
  else if size < numParameters then .error .valueError
  else if size % numParameters ≠ 0 then .error .valueError
  else .ok (size / numParameters)

/-- The arguments of `trace_estimator` after the matrix and the parameters
(`imate/_trace_estimator/trace_estimator.pyx:38-58`). -/
structure Arguments where
  gram : PyVal
  exponent : PyVal
  minNumSamples : PyVal
  maxNumSamples : PyVal
  errorAtol : PyVal
  errorRtol : PyVal
  confidenceLevel : PyVal
  outlierSignificanceLevel : PyVal
  lanczosDegree : PyVal
  lanczosTol : PyVal
  orthogonalize : PyVal
  seed : PyVal
  numThreads : PyVal
  numGpuDevices : PyVal
  verbose : PyVal
  plot : PyVal
  gpu : PyVal

/-- `check_arguments` (`imate/_trace_estimator/trace_estimator_utilities.py:108-305`); returns the two
tolerances. -/
def checkArguments (a : Arguments) : Except PyExc (PyVal × PyVal) := do
  checkBool a.gram
  checkExponent a.exponent
  checkInteger .valueError 1 a.minNumSamples
  checkInteger .valueError 1 a.maxNumSamples
  raiseIf (decide (a.maxNumSamples.intValue < a.minNumSamples.intValue)) .valueError
  let atol ← checkTolerance a.errorAtol
  let rtol ← checkTolerance a.errorRtol
  let confidence ← checkConfidence a.confidenceLevel
  let outlier ← checkOutlierLevel a.outlierSignificanceLevel
  raiseIf (lt (oneMinus confidence) outlier) .valueError
  checkInteger .typeError 1 a.lanczosDegree
  checkLanczosTol a.lanczosTol
  checkOrthogonalize a.orthogonalize a.lanczosDegree
  checkSeed a.seed
  checkInteger .typeError 0 a.numThreads
  checkInteger .typeError 0 a.numGpuDevices
  checkBool a.verbose
  checkBool a.plot
  checkBool a.gpu
  .ok (atol, rtol)

/-- `numpy.finfo(data_type_name).eps`
(`imate/_trace_estimator/trace_estimator_utilities.py:312-331`). -/
def machinePrecision : DType → ℚ
  | .float32 => 1 / 2 ^ 23
  | .float64 => 1 / 2 ^ 52
  | .float128 => 1 / 2 ^ 63
  | .other => 0

/-- Conversion of a Python integer to a C integer of the given number of bits. -/
def toCInt (bits : ℕ) (v : PyVal) : Except PyExc ℤ :=
  if v.isInteger then
    if -2 ^ (bits - 1) ≤ v.intValue ∧ v.intValue < 2 ^ (bits - 1) then .ok v.intValue
    else .error .overflowError
  else .error .typeError

/-- Conversion of a Python number to a C floating point number, without rounding and overflow. -/
def toCFloat (v : PyVal) : Except PyExc Num :=
  match v.num with
  | some x => .ok x
  | none => .error .typeError

/-- What the C++ code receives as `parameters`: nothing, or an array.  Arrays are writable and contiguous here; other views
are in `Verif.Model.ParameterView`. -/
def toCParameters (dtype : DType) : Parameters → Except PyExc (List Num)
  | .none => .ok []
  | .scalar v => do
    let x ← toCFloat v
    .ok [x]
  | .array dt entries => if dt = dtype then .ok entries else .error .valueError

/-- The arguments the C++ code receives (the declarations of `_pyc_trace_estimator_float`, `_double` and
`_long_double`, `imate/_c_trace_estimator/py_c_trace_estimator.pyx:173-198,290-315,407-432`). -/
structure Native where
  gram : Bool
  exponent : Num
  orthogonalize : ℤ
  seed : ℤ
  lanczosDegree : ℤ
  lanczosTol : Num
  minNumSamples : ℤ
  maxNumSamples : ℤ
  atol : Num
  rtol : Num
  confidenceLevel : Num
  outlierSignificanceLevel : Num
  numThreads : ℤ
  parameters : List Num
  numInquiries : ℕ

/-- The conversions made by the calls of `pyc_trace_estimator` and of the function for the data type
(`imate/_trace_estimator/trace_estimator.pyx:249-279`,
`imate/_c_trace_estimator/py_c_trace_estimator.pyx:72-161,319-333`). -/
def toNative (op : Operator) (params : Parameters) (numInquiries : ℕ) (a : Arguments)
    (atol rtol : PyVal) : Except PyExc Native := do
  let exponent ← toCFloat a.exponent
  let orthogonalize ← toCInt 32 a.orthogonalize
  let seed ← toCInt 64 a.seed
  let degree ← toCInt 32 a.lanczosDegree
  let tol ← toCFloat a.lanczosTol
  let minNum ← toCInt 32 a.minNumSamples
  let maxNum ← toCInt 32 a.maxNumSamples
  let atol ← toCFloat atol
  let rtol ← toCFloat rtol
  let confidence ← toCFloat a.confidenceLevel
  let outlier ← toCFloat a.outlierSignificanceLevel
  let threads ← toCInt 32 a.numThreads
  let parameters ← toCParameters op.dtype params
  .ok ⟨decide (a.gram.intValue ≠ 0), exponent, orthogonalize, seed, degree, tol, minNum, maxNum, atol,
    rtol, confidence, outlier, threads, parameters, numInquiries⟩

/-- The number of threads
(`imate/_trace_estimator/trace_estimator.pyx:115-116`). -/
def setThreads (maxThreads : ℕ) (v : PyVal) : Except PyExc PyVal := do
  let small ← pyLt v (.fin 1)
  .ok (if small then .int maxThreads else v)

/-- `None` as `seed` becomes `-1` (`imate/_trace_estimator/trace_estimator.pyx:144-145`). -/
def defaultSeed : PyVal → PyVal
  | .none => .int (-1)
  | v => v

/-- `numpy.finfo(data_type_name).eps` has the type of the data; `numpy.float64` is a subclass of `float`, the other two
are not (`imate/_trace_estimator/trace_estimator_utilities.py:312-331`). -/
def precisionScalar (dtype : DType) : PyVal :=
  if dtype = .float64 then .float (.fin (machinePrecision dtype)) else .npFloat (.fin (machinePrecision dtype))

/-- `None` as `lanczos_tol` becomes the machine precision
(`imate/_trace_estimator/trace_estimator.pyx:148-149`). -/
def defaultTol (dtype : DType) : PyVal → PyVal
  | .none => precisionScalar dtype
  | v => v

/-- The result is an array unless the parameters are `None` or a scalar
(`imate/_trace_estimator/trace_estimator.pyx:353-356`). -/
def outputIsArray : Parameters → Bool
  | .none => false
  | .scalar _ => false
  | .array _ _ => true

/-- What the C++ code is called with, and how its result is wrapped. -/
structure Prepared where
  op : Operator
  params : Parameters
  native : Native
  isArray : Bool

/-- `trace_estimator` up to the call of the C++ code, on the CPU
(`imate/_trace_estimator/trace_estimator.pyx:115-149,249-279`).  `maxThreads` is
`omp_get_max_threads()`.  Not modelled: the allocation of the output arrays, the branch for GPUs. -/
def prepare (maxThreads : ℕ) (A : Operand) (parameters : PyVal) (a : Arguments) :
    Except PyExc Prepared := do
  let threads ← setThreads maxThreads a.numThreads
  let op ← getOperator A a.gram
  let params ← getOperatorParameters parameters op.dtype
  let numInquiries ← findNumInquiries op.numParameters params.size
  let a := { a with numThreads := threads }
  let (atol, rtol) ← checkArguments a
  let a := { a with seed := defaultSeed a.seed, lanczosTol := defaultTol op.dtype a.lanczosTol }
  let native ← toNative op params numInquiries a atol rtol
  .ok ⟨op, params, native, outputIsArray params⟩

/-- The value returned to the user: an array, or one number. -/
inductive Output (V : Type) where
  | scalar (x : V)
  | array (xs : List V)
  deriving DecidableEq, Repr

/-- The last lines of `trace_estimator` (`imate/_trace_estimator/trace_estimator.pyx:387-390`); `trace` has
one entry per inquiry. -/
def wrapOutput {V : Type} (isArray : Bool) (trace : List V) : Except PyExc (Output V) :=
  if isArray then .ok (.array trace)
  else
    match trace with
    | x :: _ => .ok (.scalar x)
    | [] => .error .indexError

/-- The loop of `print_summary` that prints the parameters of every inquiry
(`imate/_trace_estimator/trace_estimator_utilities.py:459-471`): an operator with parameters indexes
`parameters`, which a number does not allow. -/
def printParameters (numParameters : ℕ) (params : Parameters) : Except PyExc Unit :=
  if numParameters = 0 then .ok ()
  else
    match params with
    | .array _ _ => .ok ()
    | _ => .error .typeError

/-- `if verbose: print_summary(…)`, reduced to the statements that can raise
(`imate/_trace_estimator/trace_estimator.pyx:377-379`). -/
def report (verbose : Bool) (r : Prepared) : Except PyExc Unit :=
  if verbose then printParameters r.op.numParameters r.params else .ok ()

/-- A whole call of `trace_estimator` with `plot=False`, on the CPU; `run` is the C++ code, which fills an
array with one entry per inquiry (`imate/_trace_estimator/trace_estimator.pyx:38-390`). -/
def traceEstimator {V : Type} (maxThreads : ℕ) (run : Operator → Native → Except PyExc (List V))
    (A : Operand) (parameters : PyVal) (a : Arguments) : Except PyExc (Output V) := do
  let r ← prepare maxThreads A parameters a
  let trace ← run r.op r.native
  let verbose ← truth a.verbose
  let _ ← report verbose r
  wrapOutput r.isArray trace

end Imate.Args
