import Verif.Model.Args

/-!
# Arguments of `correlation_matrix`

`imate/sample_matrices/correlation_matrix.py`, `_generate_points.pyx`, `_dense_correlation_matrix.pyx` and
`_sparse_correlation_matrix.pyx`: the checks of the arguments, for values of any Python type, and the conversions to the
C types of the native loops.  The matrix itself is in `Verif.Model.Correlation`.  Numbers are not rounded.  A scalar
that is not a number of Python or `numpy` (`Decimal`, `Fraction`) is taken to be refused where its value is needed.
-/

namespace Imate.CorrelationArgs

open Args

/-- The arguments (correlation_matrix.py:33-45). -/
structure Call where
  size : PyVal
  dimension : PyVal
  scale : PyVal
  kernel : PyVal
  kernelParam : PyVal
  grid : PyVal
  sparse : PyVal
  density : PyVal
  format : PyVal
  dtype : PyVal
  plot : PyVal
  verbose : PyVal

/-- The checks of `size` and of `dimension` (correlation_matrix.py:444-451, 454-461).  For a value that is not an integer
the exception is created but not raised, and the comparison with one is passed over. -/
def checkCount (v : PyVal) : Except PyExc Unit :=
  match v with
  | .none => .error .typeError
  | v =>
    if !v.isscalar then .error .typeError
    else if !v.isInteger then .ok ()
    else if v.intValue < 1 then .error .valueError
    else .ok ()

/-- The condition `v <= c` of an `if`, for a scalar `v` and a number `c`. -/
def pyLe (v : PyVal) (c : ℚ) : Except PyExc Bool :=
  match v.num with
  | some (.fin x) => .ok (decide (x ≤ c))
  | some .ninf => .ok true
  | some _ => .ok false
  | none => .error .typeError

/-- The condition `v >= c` of an `if`, for a scalar `v` and a number `c`. -/
def pyGe (v : PyVal) (c : ℚ) : Except PyExc Bool :=
  match v.num with
  | some (.fin x) => .ok (decide (c ≤ x))
  | some .pinf => .ok true
  | some _ => .ok false
  | none => .error .typeError

/-- The check of `scale` (correlation_matrix.py:464-471).  For a complex number the exception is not raised. -/
def checkScale (v : PyVal) : Except PyExc Unit :=
  match v with
  | .none => .error .typeError
  | .complex => .ok ()
  | v =>
    if !v.isscalar then .error .typeError
    else do
      let c ← pyLe v 0
      if c then .error .valueError else .ok ()

/-- The check of `kernel` (correlation_matrix.py:474-480). -/
def checkKernel : PyVal → Except PyExc String
  | .str s =>
    if s ∈ ["matern", "exponential", "square_exponential", "rational_quadratic"] then .ok s else .error .valueError
  | _ => .error .typeError

/-- The check of `kernel_param` (correlation_matrix.py:483-493).  The names the code compares with are misspelt. -/
def checkKernelParam (kernel : String) (v : PyVal) : Except PyExc Unit :=
  match v with
  | .none => .ok ()
  | .complex => .ok ()
  | v =>
    if !v.isscalar then .error .typeError
    else if kernel = "exponental" then .error .valueError
    else if kernel = "square-exponental" then .error .valueError
    else .ok ()

/-- The checks of `grid`, `sparse`, `plot` and `verbose` (correlation_matrix.py:496-501, 504-509, 543-548, 551-556).  For
a value that is no `bool` the exception is not raised. -/
def checkFlag (v : PyVal) : Except PyExc Unit :=
  match v with
  | .none => .error .typeError
  | v => if !v.isscalar then .error .typeError else .ok ()

/-- The check of `density` (correlation_matrix.py:512-519); `or` does not evaluate its second operand when the first
holds. -/
def checkDensity (v : PyVal) : Except PyExc Unit :=
  match v with
  | .none => .error .typeError
  | .complex => .ok ()
  | v =>
    if !v.isscalar then .error .typeError
    else do
      let low ← pyLe v 0
      if low then .error .valueError
      else do
        let high ← pyGe v 1
        if high then .error .valueError else .ok ()

/-- The check of `format` (correlation_matrix.py:522-529). -/
def checkFormat : PyVal → Except PyExc Unit
  | .str s => if s = "csr" ∨ s = "csc" then .ok () else .error .typeError
  | _ => .error .typeError

/-- The check of `dtype` (correlation_matrix.py:532-540). -/
def checkDtype : PyVal → Except PyExc Unit
  | .str s => if s = "float32" ∨ s = "float64" ∨ s = "float128" then .ok () else .error .typeError
  | _ => .error .typeError

/-- `_check_arguments` (correlation_matrix.py:425-556); the name of the kernel is kept. -/
def check (a : Call) : Except PyExc String := do
  checkCount a.size
  checkCount a.dimension
  checkScale a.scale
  let kernel ← checkKernel a.kernel
  checkKernelParam kernel a.kernelParam
  checkFlag a.grid
  checkFlag a.sparse
  checkDensity a.density
  checkFormat a.format
  checkDtype a.dtype
  checkFlag a.plot
  checkFlag a.verbose
  .ok kernel

/-- The default of `kernel_param` (correlation_matrix.py:378-382); `None` afterwards is `nan`
(_dense_correlation_matrix.pyx:195-196, _sparse_correlation_matrix.pyx:510-511). -/
def defaultParam (kernel : String) : PyVal → PyVal
  | .none =>
    if kernel = "matern" then .float (.fin (1 / 2))
    else if kernel = "rational-quadratic" then .float (.fin 1)
    else .float .nan
  | v => v

/-- The number of points along an axis and the dimension, after `numpy.zeros((num_points, dimension))`
(_generate_points.pyx:49-59).  A shape that is no integer is a `TypeError`, and a power is an integer only if its operands
are.  A `bool` of `numpy` is no shape, but its power with an integer is one.  Integers of `numpy` are taken to be wide
enough here; narrow ones are in `gridCall`. -/
def counts (grid : Bool) (size dimension : PyVal) : Except PyExc (ℤ × ℤ) :=
  if !dimension.isInteger then .error .typeError
  else
    match size with
    | .npBool b => if grid then .ok (if b then 1 else 0, dimension.intValue) else .error .typeError
    | v => if v.isInteger then .ok (v.intValue, dimension.intValue) else .error .typeError

/-- `int(verbose)` (_dense_correlation_matrix.pyx:232, _sparse_correlation_matrix.pyx:567).  Blanks around the digits of a
string are not modelled. -/
def intOf : PyVal → Except PyExc ℤ
  | .str s =>
    match s.toInt? with
    | some z => .ok z
    | none => .error .valueError
  | v =>
    match v.num with
    | some (.fin x) => .ok (if 0 ≤ x then x.floor else x.ceil)
    | some .nan => .error .valueError
    | some _ => .error .overflowError
    | none => .error .typeError

/-- The density is used, as a number, only for a sparse matrix (correlation_matrix.py:391-413,
_sparse_correlation_matrix.pyx:372, 439), where `nan` is a `ValueError` of `int`. -/
def usedDensity (sparse : Bool) (v : PyVal) : Except PyExc (Option Num) :=
  if sparse then
    match toCFloat v with
    | .ok .nan => .error .valueError
    | .ok d => .ok (some d)
    | .error e => .error e
  else .ok none

/-- What the native loops receive. -/
structure Loops where
  /-- points along an axis of the grid, or random points -/
  size : ℤ
  dimension : ℤ
  scale : Num
  kernel : String
  param : Num
  grid : Bool
  /-- the density, if the matrix is sparse -/
  density : Option Num
  deriving DecidableEq

/-- `correlation_matrix` up to the native loops (correlation_matrix.py:373-413, _generate_points.pyx:49-59,
_dense_correlation_matrix.pyx:193-266, _sparse_correlation_matrix.pyx:508-610).  The threshold of the sparse matrix, which
may raise, is in `Verif.Model.Correlation`; memory is not limited. -/
def convert (a : Call) : Except PyExc Loops := do
  let kernel ← check a
  let param := defaultParam kernel a.kernelParam
  let grid ← truth a.grid
  let (size, dimension) ← counts grid a.size a.dimension
  let sparse ← truth a.sparse
  let density ← usedDensity sparse a.density
  let scale ← toCFloat a.scale
  let param ← toCFloat param
  let _ ← intOf a.verbose
  .ok ⟨size, dimension, scale, kernel, param, grid, density⟩

/-! ### Integers of `numpy` -/

/-- The type of an integer: that of Python, which is unbounded, or one of `numpy`. -/
inductive IntType where
  | python
  | signed (bits : ℕ)
  | unsigned (bits : ℕ)
  deriving DecidableEq

/-- The value stored for an integer: `numpy` takes it modulo a power of two. -/
def IntType.store : IntType → ℤ → ℤ
  | .python, z => z
  | .signed bits, z => Int.bmod z (2 ^ bits)
  | .unsigned bits, z => z % 2 ^ bits

/-- The smallest and the largest integer of a type. -/
def IntType.holds : IntType → ℤ → Prop
  | .python, _ => True
  | .signed bits, z => -2 ^ (bits - 1) ≤ z ∧ z < 2 ^ (bits - 1)
  | .unsigned bits, z => 0 ≤ z ∧ z < 2 ^ bits

/-- The loop over the points (_generate_points.pyx:95-126): the row of every point is written, without a check of bounds
(`boundscheck`, setup.py:1414). -/
def writeRows (rows : ℕ) : List ℕ → Except Fault Unit
  | [] => .ok ()
  | p :: ps => if p < rows then writeRows rows ps else .error .outOfBounds

/-- `generate_points` on a grid, for a `size` of any integer type and a `dimension` of Python, with `numpy` 2, where the
power has the type of `size` (_generate_points.pyx:49-52, 91-126): the number of rows of the array.  The number of points in
the native loop is computed anew from `size` and `dimension`, as C integers; it is below `2 ^ 31` in the theorems. -/
def gridCall (type : IntType) (size dimension : ℕ) : Except PyExc ℕ :=
  let numPoints := type.store ((size : ℤ) ^ dimension)
  if numPoints < 0 then .error .valueError
  else do
    ofNative (writeRows numPoints.toNat (List.range (size ^ dimension)))
    .ok numPoints.toNat

end Imate.CorrelationArgs
