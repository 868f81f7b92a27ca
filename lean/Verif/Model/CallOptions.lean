import Verif.Model.Args

/-!
# From the call the user writes to the parameters of the method

`trace`, `traceinv`, `logdet`, `trexp`, `trlinfrac`, `eigencount`, `density` and `schatten` take some arguments by
position or by name and everything else in `**options`, which they hand to the method that the argument `method` names.
The SLQ methods hand theirs on to `trace_estimator`, by position.  Modelled are the signatures, the default values, the
expressions of the calls, and how Python binds arguments to parameters.

Simplified: `method` is a string (anything else is taken as an unknown name).
-/

namespace Imate.CallOptions

open Imate.Args

/-- A value of a call: a Python value as in `Verif.Model.Args`, a matrix or operator, or the object of a function class
(the class, and what its constructor was given). -/
inductive Val (M : Type) where
  | py (v : PyVal)
  | mat (A : M)
  | function (cls : String)

/-- A parameter of a function and its default value. -/
structure Param where
  name : String
  default : Option PyVal

/-- A parameter without default value. -/
def req (name : String) : Param := ⟨name, none⟩

/-- A parameter with default value. -/
def opt (name : String) (d : PyVal) : Param := ⟨name, some d⟩

/-- Names with values: keyword arguments, or the local variables of a function. -/
abbrev Names (M : Type) := List (String × Val M)

variable {M : Type}

/-- The names. -/
def keys (kw : Names M) : List String := kw.map Prod.fst

/-! ### Python's binding of arguments -/

/-- The value of a parameter that no positional argument reaches (Python language reference, 6.3.4 Calls). -/
def fill (kw : Names M) (p : Param) : Except PyExc (Val M) :=
  match kw.lookup p.name with
  | some v => .ok v
  | none =>
    match p.default with
    | some d => .ok (.py d)
    | none => .error .typeError

/-- Positional arguments fill the parameters from the left, keyword arguments the rest; too many positional arguments,
a parameter with two values and one with none are a `TypeError` (Python language reference, 6.3.4 Calls). -/
def bindParams : List Param → List (Val M) → Names M → Except PyExc (Names M)
  | [], [], _ => .ok []
  | [], _ :: _, _ => .error .typeError
  | p :: ps, v :: vs, kw =>
    if p.name ∈ keys kw then .error .typeError
    else do
      let rest ← bindParams ps vs kw
      .ok ((p.name, v) :: rest)
  | p :: ps, [], kw => do
    let v ← fill kw p
    let rest ← bindParams ps [] kw
    .ok ((p.name, v) :: rest)

/-- The names of the parameters. -/
def names (params : List Param) : List String := params.map Param.name

/-- Keyword arguments that are no parameters: the dictionary `options` of a function with `**options`. -/
def extra (params : List Param) (kw : Names M) : Names M := kw.filter fun k => k.1 ∉ names params

/-- A call of a function without `**options`: other keywords, and repeated ones, are a `TypeError`. -/
def bindCall (params : List Param) (pos : List (Val M)) (kw : Names M) : Except PyExc (Names M) :=
  if !(extra params kw).isEmpty || !decide (keys kw).Nodup then .error .typeError else bindParams params pos kw

/-- The value of a local variable. -/
def localVar (env : Names M) (name : String) : Except PyExc (Val M) :=
  match env.lookup name with
  | some v => .ok v
  | none => .error .unboundLocal

/-- The values of several expressions that are names of local variables. -/
def localVars (env : Names M) : List String → Except PyExc (List (Val M))
  | [] => .ok []
  | n :: ns => do
    let v ← localVar env n
    let vs ← localVars env ns
    .ok (v :: vs)

/-- The keyword arguments `a=b` of a call, `b` the name of a local variable. -/
def keywords (env : Names M) : List (String × String) → Except PyExc (Names M)
  | [] => .ok []
  | (k, n) :: r => do
    let v ← localVar env n
    let vs ← keywords env r
    .ok ((k, v) :: vs)

/-! ### The functions of the package -/

/-- A method: its name, its signature, and the keyword arguments that the function passes to it by name. -/
structure Method where
  name : String
  params : List Param
  forward : List (String × String)

/-- A function of the package: its signature (without `**options`), its methods in the order in which they are tried,
and the exception for all other names. -/
structure Public where
  params : List Param
  methods : List Method
  unknown : PyExc

/-- `1.0` and other floats -/
def flt (x : ℚ) : PyVal := .float (.fin x)

/-- A list of floats. -/
def fltList (l : List ℚ) : PyVal := .list (.ok (1, l.map XR.fin))

/-- The call of a function: the method that runs and the values of its parameters (trace/trace.py:23-29, 391-404 and the
other functions, cited below). -/
def callPublic (f : Public) (pos : List (Val M)) (kw : Names M) : Except PyExc (String × Names M) := do
  let env ← bindParams f.params pos kw
  match env.lookup "method" with
  | some (.py (.str s)) =>
    match f.methods.find? (fun m => m.name == s) with
    | some m => do
      let A ← localVar env "A"
      let fwd ← keywords env m.forward
      let values ← bindCall m.params [A] (fwd ++ extra f.params kw)
      .ok (m.name, values)
    | none => .error f.unknown
  | _ => .error f.unknown

/-- The parameters that all functions start with (e.g. trace/trace.py:23-26). -/
def firstParams (p : PyVal) : List Param := [req "A", opt "gram" (.bool false), opt "p" p]

/-- The parameters that all functions end with (e.g. trace/trace.py:27-28). -/
def lastParams (method : String) : List Param := [opt "return_info" (.bool false), opt "method" (.str method)]

/-- The options of the SLQ methods before the last three (e.g. trace/_slq_method.pyx:30-42). -/
def slqOptions : List Param :=
  [opt "parameters" .none, opt "min_num_samples" (.int 10), opt "max_num_samples" (.int 50), opt "error_atol" .none,
    opt "error_rtol" (flt (1 / 100)), opt "confidence_level" (flt (95 / 100)),
    opt "outlier_significance_level" (flt (1 / 1000)), opt "lanczos_degree" (.int 20), opt "lanczos_tol" .none,
    opt "orthogonalize" (.int 0), opt "seed" .none, opt "num_threads" (.int 0), opt "num_gpu_devices" (.int 0)]

/-- The last three options of the SLQ methods of `trace` and `traceinv` (trace/_slq_method.pyx:43-45,
traceinv/_slq_method.pyx:42-44). -/
def slqLast : List Param := [opt "verbose" (.bool false), opt "plot" (.bool false), opt "gpu" (.bool false)]

/-- … and those of the other SLQ methods (logdet/_slq_method.pyx:42-44, trexp/_slq_method.pyx:43-45,
trlinfrac/_slq_method.pyx:44-46, eigencount/_slq_method.pyx:44-46, density/_slq_method.pyx:45-47). -/
def slqLast' : List Param := [opt "gpu" (.bool false), opt "verbose" (.bool false), opt "plot" (.bool false)]

/-- The options of the eigenvalue methods (e.g. trace/_eigenvalue_method.py:37-39). -/
def eigenvalueOptions : List Param :=
  [opt "eigenvalues" .none, opt "assume_matrix" (.str "gen"), opt "non_zero_eig_fraction" (flt (9 / 10))]

/-- `gram=gram, p=p, return_info=return_info` (e.g. trace/trace.py:392). -/
def forward3 : List (String × String) := [("gram", "gram"), ("p", "p"), ("return_info", "return_info")]

/-- `return_info` -/
def info : Param := opt "return_info" (.bool false)

/-- `trace` (trace/trace.py:23-29, 391-404, trace/_exact_method.py:30-34, trace/_eigenvalue_method.py:32-39,
trace/_slq_method.pyx:25-45). -/
def traceFn : Public where
  params := firstParams (flt 1) ++ lastParams "exact"
  methods := [
    ⟨"exact", firstParams (flt 1) ++ [info], forward3⟩,
    ⟨"eigenvalue", firstParams (flt 1) ++ [info] ++ eigenvalueOptions, forward3⟩,
    ⟨"slq", firstParams (flt 1) ++ [info] ++ slqOptions ++ slqLast, forward3⟩]
  unknown := .runtimeError

/-- `traceinv` (traceinv/traceinv.py:24-30, 424-441, traceinv/_eigenvalue_method.py:32-39,
traceinv/_cholesky_method.py:41-48, traceinv/_hutchinson_method.pyx:37-56, traceinv/_slq_method.pyx:24-44). -/
def traceinvFn : Public where
  params := firstParams (.int 1) ++ lastParams "cholesky"
  methods := [
    ⟨"eigenvalue", firstParams (flt 1) ++ [info] ++ eigenvalueOptions, forward3⟩,
    ⟨"cholesky", firstParams (.int 1) ++ [info] ++
      [opt "B" .none, opt "invert_cholesky" (.bool true), opt "cholmod" .none], forward3⟩,
    ⟨"hutchinson", firstParams (.int 1) ++ [info] ++
      [opt "B" .none, opt "C" .none, opt "assume_matrix" (.str "gen"), opt "min_num_samples" (.int 10),
        opt "max_num_samples" (.int 50), opt "error_atol" .none, opt "error_rtol" (flt (1 / 100)),
        opt "confidence_level" (flt (95 / 100)), opt "outlier_significance_level" (flt (1 / 1000)),
        opt "solver_tol" (flt (1 / 1000000)), opt "orthogonalize" (.bool true), opt "seed" .none,
        opt "num_threads" (.int 0), opt "verbose" (.bool false), opt "plot" (.bool false)], forward3⟩,
    ⟨"slq", firstParams (flt 1) ++ [info] ++ slqOptions ++ slqLast, forward3⟩]
  unknown := .runtimeError

/-- `logdet` (logdet/logdet.py:23-29, 385-398, logdet/_eigenvalue_method.py:32-39, logdet/_cholesky_method.py:37-42,
logdet/_slq_method.pyx:24-44). -/
def logdetFn : Public where
  params := firstParams (flt 1) ++ lastParams "cholesky"
  methods := [
    ⟨"eigenvalue", firstParams (flt 1) ++ [info] ++ eigenvalueOptions, forward3⟩,
    ⟨"cholesky", firstParams (flt 1) ++ [info] ++ [opt "cholmod" .none], forward3⟩,
    ⟨"slq", firstParams (flt 1) ++ [info] ++ slqOptions ++ slqLast', forward3⟩]
  unknown := .valueError

/-- `trexp` (trexp/trexp.py:22-29, 367-376, trexp/_eigenvalue_method.py:32-40, trexp/_slq_method.pyx:24-45). -/
def trexpFn : Public where
  params := firstParams (flt 1) ++ [opt "coeff" (flt 1)] ++ lastParams "eigenvalue"
  methods := [
    ⟨"eigenvalue", firstParams (flt 1) ++ [opt "coeff" (flt 1), info] ++ eigenvalueOptions,
      [("gram", "gram"), ("p", "p"), ("coeff", "coeff"), ("return_info", "return_info")]⟩,
    ⟨"slq", firstParams (flt 1) ++ [opt "coeff" (flt 1), info] ++ slqOptions ++ slqLast',
      [("gram", "gram"), ("p", "p"), ("coeff", "coeff"), ("return_info", "return_info")]⟩]
  unknown := .valueError

/-- `trlinfrac` (trlinfrac/trlinfrac.py:22-29, 377-386, trlinfrac/_eigenvalue_method.py:32-40,
trlinfrac/_slq_method.pyx:25-46). -/
def trlinfracFn : Public where
  params := firstParams (flt 1) ++ [opt "coeff" (fltList [1, 0, 1, 1])] ++ lastParams "eigenvalue"
  methods := [
    ⟨"eigenvalue", firstParams (flt 1) ++ [opt "coeff" (fltList [1, 0, 1, 1]), info] ++ eigenvalueOptions,
      [("gram", "gram"), ("p", "p"), ("coeff", "coeff"), ("return_info", "return_info")]⟩,
    ⟨"slq", firstParams (flt 1) ++ [opt "coeff" (fltList [1, 0, 1, 1]), info] ++ slqOptions ++ slqLast',
      [("gram", "gram"), ("p", "p"), ("coeff", "coeff"), ("return_info", "return_info")]⟩]
  unknown := .valueError

/-- `eigencount` (eigencount/eigencount.py:22-29, 385-394, eigencount/_eigenvalue_method.py:32-40,
eigencount/_slq_method.pyx:25-46). -/
def eigencountFn : Public where
  params := firstParams (flt 1) ++ [opt "interval" (fltList [0, 1])] ++ lastParams "eigenvalue"
  methods := [
    ⟨"eigenvalue", firstParams (flt 1) ++ [opt "interval" (fltList [0, 1]), info] ++ eigenvalueOptions,
      [("gram", "gram"), ("p", "p"), ("interval", "interval"), ("return_info", "return_info")]⟩,
    ⟨"slq", firstParams (flt 1) ++ [opt "interval" (fltList [0, 1]), info] ++ slqOptions ++ slqLast',
      [("gram", "gram"), ("p", "p"), ("interval", "interval"), ("return_info", "return_info")]⟩]
  unknown := .valueError

/-- `density` (density/density.py:22-30, 389-398, density/_eigenvalue_method.py:32-41, density/_slq_method.pyx:25-47). -/
def densityFn : Public where
  params := firstParams (flt 1) ++ [opt "mu" (flt 1), opt "sigma" (flt 1)] ++ lastParams "eigenvalue"
  methods := [
    ⟨"eigenvalue", firstParams (flt 1) ++ [opt "mu" (flt 1), opt "sigma" (flt 1), info] ++ eigenvalueOptions,
      [("gram", "gram"), ("p", "p"), ("mu", "mu"), ("sigma", "sigma"), ("return_info", "return_info")]⟩,
    ⟨"slq", firstParams (flt 1) ++ [opt "mu" (flt 1), opt "sigma" (flt 1), info] ++ slqOptions ++ slqLast',
      [("gram", "gram"), ("p", "p"), ("mu", "mu"), ("sigma", "sigma"), ("return_info", "return_info")]⟩]
  unknown := .valueError

/-! ### From the SLQ methods to `trace_estimator` -/

/-- The function class of an SLQ method and the expressions given to its constructor: a variable, or an entry of one
(trace/_slq_method.pyx:825, traceinv/_slq_method.pyx:827, logdet/_slq_method.pyx:824, trexp/_slq_method.pyx:814,
trlinfrac/_slq_method.pyx:823-824, eigencount/_slq_method.pyx:824, density/_slq_method.pyx:831). -/
structure SlqFunction where
  fn : Public
  cls : String
  arguments : List (String × Option ℕ)

/-- The seven SLQ methods. -/
def slqTrace : SlqFunction := ⟨traceFn, "Identity", []⟩
@[inherit_doc slqTrace] def slqTraceinv : SlqFunction := ⟨traceinvFn, "Inverse", []⟩
@[inherit_doc slqTrace] def slqLogdet : SlqFunction := ⟨logdetFn, "Logarithm", []⟩
@[inherit_doc slqTrace] def slqTrexp : SlqFunction := ⟨trexpFn, "Exponential", [("coeff", none)]⟩
@[inherit_doc slqTrace] def slqTrlinfrac : SlqFunction :=
  ⟨trlinfracFn, "Homographic", [("coeff", some 0), ("coeff", some 1), ("coeff", some 2), ("coeff", some 3)]⟩
@[inherit_doc slqTrace] def slqEigencount : SlqFunction :=
  ⟨eigencountFn, "Indicator", [("interval", some 0), ("interval", some 1)]⟩
@[inherit_doc slqTrace] def slqDensity : SlqFunction := ⟨densityFn, "Gaussian", [("mu", none), ("sigma", none)]⟩

/-- The arguments of the call of `trace_estimator`, all by position (trace/_slq_method.pyx:831-851,
traceinv/_slq_method.pyx:833-853, logdet/_slq_method.pyx:830-850, trexp/_slq_method.pyx:820-840,
trlinfrac/_slq_method.pyx:830-850, eigencount/_slq_method.pyx:830-850, density/_slq_method.pyx:847-867). -/
def passed : List String :=
  ["A", "parameters", "py_matrix_function", "gram", "p", "min_num_samples", "max_num_samples", "error_atol",
    "error_rtol", "confidence_level", "outlier_significance_level", "lanczos_degree", "lanczos_tol", "orthogonalize",
    "seed", "num_threads", "num_gpu_devices", "verbose", "plot", "gpu"]

/-- The parameters of `trace_estimator` (_trace_estimator/trace_estimator.pyx:38-58). -/
def estimatorParams : List Param :=
  ["A", "parameters", "py_matrix_function", "gram", "exponent", "min_num_samples", "max_num_samples", "error_atol",
    "error_rtol", "confidence_level", "outlier_significance_level", "lanczos_degree", "lanczos_tol", "orthogonalize",
    "seed", "num_threads", "num_gpu_devices", "verbose", "plot", "gpu"].map req

/-- The arguments of the constructor of the function class. -/
def constructorArguments (env : Names M) : List (String × Option ℕ) → Except PyExc (List (Val M × Option ℕ))
  | [] => .ok []
  | (n, i) :: r => do
    let v ← localVar env n
    let vs ← constructorArguments env r
    .ok ((v, i) :: vs)

/-- An SLQ method up to the call of `trace_estimator`: what the constructor of the function class is given, and the
values of the parameters of `trace_estimator`.  `check` are the checks of the arguments of the function itself (`coeff`,
`interval`, `mu`, `sigma`, `return_info`), which are in `Verif.Model.Top`. -/
def slqMethod (f : SlqFunction) (check : Names M → Except PyExc Unit) (env : Names M) :
    Except PyExc (List (Val M × Option ℕ) × Names M) := do
  check env
  let args ← constructorArguments env f.arguments
  let pos ← localVars (("py_matrix_function", .function f.cls) :: env) passed
  let est ← bindCall estimatorParams pos []
  .ok (args, est)

/-- The call of the function, when it comes to its SLQ method (otherwise nothing to say here: `none`). -/
def callSlq (f : SlqFunction) (check : Names M → Except PyExc Unit) (pos : List (Val M)) (kw : Names M) :
    Option (Except PyExc (List (Val M × Option ℕ) × Names M)) :=
  match callPublic f.fn pos kw with
  | .ok (m, env) => if m = "slq" then some (slqMethod f check env) else none
  | .error _ => none

/-- What a value is for the checks of `trace_estimator`. -/
def Val.toPy : Val M → PyVal
  | .py v => v
  | .mat _ => .other false
  | .function _ => .other false

/-- The arguments that the checks of `trace_estimator` see (`Verif.Model.Args`), by name. -/
def estimatorArguments (est : Names M) : Arguments :=
  let get n := ((est.lookup n).map Val.toPy).getD .none
  { gram := get "gram", exponent := get "exponent", minNumSamples := get "min_num_samples"
    maxNumSamples := get "max_num_samples", errorAtol := get "error_atol", errorRtol := get "error_rtol"
    confidenceLevel := get "confidence_level", outlierSignificanceLevel := get "outlier_significance_level"
    lanczosDegree := get "lanczos_degree", lanczosTol := get "lanczos_tol", orthogonalize := get "orthogonalize"
    seed := get "seed", numThreads := get "num_threads", numGpuDevices := get "num_gpu_devices"
    verbose := get "verbose", plot := get "plot", gpu := get "gpu" }

/-! ### `schatten` -/

/-- `schatten` (schatten/schatten.py:24-30). -/
def schattenParams : List Param := firstParams (flt 2) ++ lastParams "eigenvalue"

/-- `numpy.abs(p)` of a negative number: an `int` becomes a `numpy.int64`. -/
def absOf : PyVal → PyVal
  | .int z => .npInt |z|
  | .npInt z => .npInt |z|
  | .float x => .float (XR.abs x)
  | v => v

/-- What `schatten` calls. -/
inductive Callee where
  | logdet | trace | traceinv
  deriving DecidableEq

/-- The branches of `schatten` up to the method, for an array `A` (schatten/schatten.py:422-461).  A `nan` passes all
comparisons, so that no result is set. -/
def schattenBranch (A gram p return_info method : Val M) (options : Names M) :
    Except PyExc (Callee × String × Names M) :=
  let call (p : PyVal) : Names M :=
    [("gram", gram), ("p", .py p), ("return_info", return_info), ("method", method)] ++ options
  match p with
  | .py p =>
    if !p.isIntegerOrFloat then .error .valueError
    else
      match p.num with
      | some (.fin x) =>
        if x = 0 then do
          let r ← callPublic logdetFn [A] (call (flt 1))
          .ok (.logdet, r)
        else if 0 < x then do
          let r ← callPublic traceFn [A] (call p)
          .ok (.trace, r)
        else do
          let r ← callPublic traceinvFn [A] (call (absOf p))
          .ok (.traceinv, r)
      | some .pinf => do
        let r ← callPublic traceFn [A] (call p)
        .ok (.trace, r)
      | some .ninf => do
        let r ← callPublic traceinvFn [A] (call (absOf p))
        .ok (.traceinv, r)
      | _ => .error .unboundLocal
  | _ => .error .valueError

/-- The call of `schatten` (schatten/schatten.py:24-30). -/
def callSchatten (pos : List (Val M)) (kw : Names M) : Except PyExc (Callee × String × Names M) := do
  let env ← bindParams schattenParams pos kw
  let A ← localVar env "A"
  let gram ← localVar env "gram"
  let p ← localVar env "p"
  let return_info ← localVar env "return_info"
  let method ← localVar env "method"
  schattenBranch A gram p return_info method (extra schattenParams kw)

end Imate.CallOptions
