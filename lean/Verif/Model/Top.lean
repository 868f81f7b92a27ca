import Verif.Model.Eigenvalue
import Verif.Model.ExactTrace
import Verif.Model.Cholesky

/-!
# The functions of the package: choice of the method, `schatten`, and the checks of their own arguments
-/

namespace Imate.Top

open Imate.Hutchinson Imate.Direct Imate.Eigen

/-! ### Choice of the method -/

/-- `trace` (trace/trace.py:391-404). -/
def traceDispatch {α : Type} (exact eigenvalue slq : Except PyExc α) (method : String) : Except PyExc α :=
  if method = "exact" then exact
  else if method = "eigenvalue" then eigenvalue
  else if method = "slq" then slq
  else .error .runtimeError

/-- `traceinv` (traceinv/traceinv.py:424-441). -/
def traceinvDispatch {α : Type} (eigenvalue cholesky hutchinson slq : Except PyExc α) (method : String) :
    Except PyExc α :=
  if method = "eigenvalue" then eigenvalue
  else if method = "cholesky" then cholesky
  else if method = "hutchinson" then hutchinson
  else if method = "slq" then slq
  else .error .runtimeError

/-- `logdet` (logdet/logdet.py:385-398). -/
def logdetDispatch {α : Type} (eigenvalue cholesky slq : Except PyExc α) (method : String) : Except PyExc α :=
  if method = "eigenvalue" then eigenvalue
  else if method = "cholesky" then cholesky
  else if method = "slq" then slq
  else .error .valueError

/-- `trexp` (trexp/trexp.py:367-376), `trlinfrac` (trlinfrac/trlinfrac.py:377-386), `eigencount`
(eigencount/eigencount.py:385-394) and `density` (density/density.py:389-398). -/
def otherDispatch {α : Type} (eigenvalue slq : Except PyExc α) (method : String) : Except PyExc α :=
  if method = "eigenvalue" then eigenvalue
  else if method = "slq" then slq
  else .error .valueError

/-! ### `schatten` -/

/-- What a call depends on besides the arguments of `schatten`: the external routines, the options, and the results
of the methods that draw random numbers. -/
structure Env where
  eig : Eigen.Lib
  chol : Direct.Lib
  sym : Bool
  fraction : ℚ
  cholesky : CholeskySettings
  slqTrace : Array2 ℝ → Bool → Exponent → Except PyExc (Option ℝ)
  slqTraceinv : Array2 ℝ → Bool → Exponent → Except PyExc (Option ℝ)
  slqLogdet : Array2 ℝ → Bool → Exponent → Except PyExc (Option Num)
  hutchinson : Array2 ℝ → Bool → Exponent → Except PyExc (Option ℝ)

/-- The options of the eigenvalue methods. -/
def Env.settings (env : Env) (gram : Bool) : Eigen.Settings := ⟨gram, env.sym, env.fraction⟩

/-- `trace(A, gram, p, method=method)` -/
noncomputable def trace (env : Env) (A : Array2 ℝ) (gram : Bool) (p : Exponent) (method : String) :
    Except PyExc (Option ℝ) :=
  traceDispatch ((traceExact A gram p).map fun r => some r.1)
    (traceEigenvalue env.eig A (p.val : ℝ) none (env.settings gram)) (env.slqTrace A gram p) method

/-- `traceinv(A, gram, p, method=method)` -/
noncomputable def traceinv (env : Env) (A : Array2 ℝ) (gram : Bool) (p : Exponent) (method : String) :
    Except PyExc (Option ℝ) :=
  traceinvDispatch (traceinvEigenvalue env.eig A (p.val : ℝ) none (env.settings gram))
    ((traceinvCholesky env.chol A none gram p env.cholesky).map some) (env.hutchinson A gram p)
    (env.slqTraceinv A gram p) method

/-- `logdet(A, gram, p, method=method)` -/
noncomputable def logdet (env : Env) (A : Array2 ℝ) (gram : Bool) (p : Exponent) (method : String) :
    Except PyExc (Option Num) :=
  logdetDispatch (logdetEigenvalue env.eig A (p.val : ℝ) none (env.settings gram))
    ((logdetCholesky env.chol A gram p env.cholesky).map (Option.map Num.real)) (env.slqLogdet A gram p) method

/-- The argument `p` of `schatten`: a number of a type that is accepted (`int`, `numpy.integer`, `float`), or
another object. -/
inductive Order where
  | num (p : Exponent)
  | other

/-- The argument `A`: an array, or an object of `Matrix` or `AffineMatrixFunction`, which has no attribute
`shape` (linear_operator/linear_operator.py:14-213). -/
inductive Input where
  | array (A : Array2 ℝ)
  | operator

/-- `numpy.exp(logdet_ / n)` (schatten/schatten.py:438). -/
noncomputable def expDiv (n : ℕ) : Num → Num
  | .real x => .real (Real.exp (x / n))
  | .cplx z => .cplx (Complex.exp (z / n))

/-- `(trace_ / n)**(1.0/p)` (schatten/schatten.py:450, 462). -/
noncomputable def rootDiv (n : ℕ) (p : ℚ) (t : ℝ) : Option Num :=
  match powR (t / n) (1 / (p : ℝ)) with
  | .fin y => some (.real y)
  | _ => none

/-- `schatten` (schatten/schatten.py:422-467) for an array, without `info`; not modelled: the value for a
log-determinant that is infinite, which is `none` here. -/
noncomputable def schattenArray (env : Env) (A : Array2 ℝ) (gram : Bool) (p : Exponent) (method : String) :
    Except PyExc (Option Num) :=
  if p.val = 0 then do
    let x ← logdet env A gram (.float 1) method
    .ok (x.map (expDiv A.value.rows))
  else if 0 < p.val then do
    let x ← trace env A gram p method
    .ok (x.bind (rootDiv A.value.rows p.val))
  else do
    let x ← traceinv env A gram (expAbs p) method
    .ok (x.bind (rootDiv A.value.rows p.val))

/-- `schatten` (schatten/schatten.py:422-467). -/
noncomputable def schatten (env : Env) (A : Input) (gram : Bool) (p : Order) (method : String) :
    Except PyExc (Option Num) :=
  match p, A with
  | .other, _ => .error .valueError
  | .num _, .operator => .error .attributeError
  | .num p, .array A => schattenArray env A gram p method

/-! ### The arguments `coeff`, `interval`, `mu` and `sigma` -/

/-- An array-like argument. -/
inductive Seq where
  | list (l : List ℚ)
  | tuple (l : List ℚ)
  /-- a one-dimensional `numpy.ndarray` -/
  | ndarray (l : List ℚ)
  /-- anything else -/
  | other

/-- `isinstance(x, (tuple, list, numpy.array))`: `numpy.array` is a function, not a class, so an object that is
neither a tuple nor a list makes `isinstance` raise (trlinfrac/_eigenvalue_method.py:456,
trlinfrac/_slq_method.pyx:870, eigencount/_eigenvalue_method.py:434, eigencount/_slq_method.pyx:870). -/
def isSequence : Seq → Except PyExc (List ℚ)
  | .list l => .ok l
  | .tuple l => .ok l
  | .ndarray _ => .error .typeError
  | .other => .error .typeError

/-- The check of `coeff` (trlinfrac/_eigenvalue_method.py:456-462). -/
def checkCoeff (x : Seq) : Except PyExc (ℚ × ℚ × ℚ × ℚ) := do
  let l ← isSequence x
  match l with
  | [a, b, c, d] => if a * d = b * c then .error .valueError else .ok (a, b, c, d)
  | _ => .error .valueError

/-- The check of `interval` (eigencount/_eigenvalue_method.py:434-437). -/
def checkInterval (x : Seq) : Except PyExc (ℚ × ℚ) := do
  let l ← isSequence x
  match l with
  | [a, b] => .ok (a, b)
  | _ => .error .valueError

/-- The argument `mu`. -/
inductive Centre where
  /-- an `int` or a `float` -/
  | scalar (x : ℚ)
  | list (l : List ℚ)
  | tuple (l : List ℚ)
  | ndarray (l : List ℚ)
  | other

/-- The check of `mu` (density/_eigenvalue_method.py:456-460). -/
def checkMu : Centre → Except PyExc Unit
  | .other => .error .typeError
  | _ => .ok ()

/-- The check of `sigma`; `none` is an object that is no number (density/_eigenvalue_method.py:463-466). -/
def checkSigma : Option ℚ → Except PyExc ℚ
  | none => .error .typeError
  | some s => if s ≤ 0 then .error .valueError else .ok s

/-- The conversion of a Python object to the C type `double`. -/
def toDouble : Centre → Except PyExc ℚ
  | .scalar x => .ok x
  | .ndarray [x] => .ok x
  | _ => .error .typeError

/-- The part of `slq_method` of `density` before the estimator, which needs a C double
(density/_slq_method.pyx:828-831). -/
def densitySlqFunction (mu : Centre) (sigma : Option ℚ) : Except PyExc (ℚ × ℚ) := do
  let _ ← checkMu mu
  let s ← checkSigma sigma
  let x ← toDouble mu
  .ok (x, s)

/-- The centres of the eigenvalue method (density/_eigenvalue_method.py:325-331). -/
def densityCentres (mu : Centre) (sigma : Option ℚ) : Except PyExc (List ℚ × ℚ) := do
  let _ ← checkMu mu
  let s ← checkSigma sigma
  match mu with
  | .scalar x => .ok ([x], s)
  | .list l => .ok (l, s)
  | .tuple l => .ok (l, s)
  | .ndarray l => .ok (l, s)
  | .other => .error .typeError

end Imate.Top
