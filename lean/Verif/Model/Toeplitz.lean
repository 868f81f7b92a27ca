import Verif.Model.Args
import Verif.Model.Arrays
import Mathlib.Analysis.SpecialFunctions.Log.Basic

/-!
# Model of `imate/sample_matrices/toeplitz.py`

Real arithmetic is exact.
-/

namespace Imate.Sample

open Matrix Imate.Args

/-! ### Arguments -/

/-- The checks of `a` and of `b` (sample_matrices/toeplitz.py:221-224, 227-230). -/
def checkReal : PyVal → Except PyExc Unit
  | .none => .error .valueError
  | v => if v.isIntegerOrFloat then .ok () else .error .typeError

/-- The check of `size` (sample_matrices/toeplitz.py:233-240); the `raise` is missing in line 238. -/
def checkSize (v : PyVal) : Except PyExc Unit :=
  match v with
  | .none => .error .typeError
  | v =>
    if !v.isscalar then .error .typeError
    else if !v.isInteger then .ok ()
    else if v.intValue < 1 then .error .valueError
    else .ok ()

/-- The check of `gram` (sample_matrices/toeplitz.py:243-248). -/
def checkGram (v : PyVal) : Except PyExc Unit :=
  match v with
  | .none => .error .typeError
  | v =>
    if !v.isscalar then .error .typeError
    else if !v.isBool then .error .typeError
    else .ok ()

/-- The check of `format` (sample_matrices/toeplitz.py:251-255). -/
def checkFormat : PyVal → Except PyExc Unit
  | .none => .ok ()
  | .str s => if s = "csr" ∨ s = "csc" then .ok () else .error .valueError
  | _ => .error .typeError

/-- The check of `dtype` (sample_matrices/toeplitz.py:258-266). -/
def checkDtype : PyVal → Except PyExc Unit
  | .str s => if s = "float32" ∨ s = "float64" ∨ s = "float128" then .ok () else .error .typeError
  | _ => .error .typeError

/-- `_check_arguments` (sample_matrices/toeplitz.py:209-266). -/
def toeplitzCheck (a b size gram format dtype : PyVal) : Except PyExc Unit := do
  checkReal a
  checkReal b
  checkSize size
  checkGram gram
  checkFormat format
  checkDtype dtype

/-- The allocation `numpy.empty((2*size-1, ))` (sample_matrices/toeplitz.py:178): a length that is not an integer
is a `TypeError`. -/
def toeplitzSize (size : PyVal) : Except PyExc ℕ :=
  if size.isInteger then .ok size.intValue.toNat else .error .typeError

/-! ### The matrix -/

variable {K : Type} [Field K]

/-- The array `row` (sample_matrices/toeplitz.py:183, 188). -/
def toeplitzRow (size : ℕ) : List ℕ := List.range size ++ List.range (size - 1)

/-- The array `col` (sample_matrices/toeplitz.py:184, 189). -/
def toeplitzCol (size : ℕ) : List ℕ := List.range size ++ List.range' 1 (size - 1)

/-- The array `data` (sample_matrices/toeplitz.py:185, 190). -/
def toeplitzData (a b : K) (size : ℕ) : List K := List.replicate size a ++ List.replicate (size - 1) b

/-- `coo_matrix((data, (row, col)), shape=(size, size))`: the value at a position is the sum of the data stored
there. -/
def coo (row col : List ℕ) (data : List K) (size : ℕ) : Matrix (Fin size) (Fin size) K := fun i j =>
  ((row.zip (col.zip data)).map fun e => if e.1 = i.1 ∧ e.2.1 = j.1 then e.2.2 else 0).sum

/-- `toeplitz` after the checks (sample_matrices/toeplitz.py:178-202).  The conversion to the requested format does
not change the matrix. -/
def toeplitz (a b : K) (size : ℕ) (gram : Bool) : Matrix (Fin size) (Fin size) K :=
  let A := coo (toeplitzRow size) (toeplitzCol size) (toeplitzData a b size) size
  if gram then Aᵀ * A else A

/-- `toeplitz` of any arguments (sample_matrices/toeplitz.py:176-202): the size of the result, once the arguments
are accepted. -/
def toeplitzCall (a b size gram format dtype : PyVal) : Except PyExc ℕ := do
  toeplitzCheck a b size gram format dtype
  toeplitzSize size

/-! ### The functions of the matrix -/

/-- `toeplitz_trace` (sample_matrices/toeplitz.py:342-348). -/
def toeplitzTrace (a b : K) (size : ℕ) (gram : Bool) : K :=
  if gram then a ^ 2 + ((size : K) - 1) * (a ^ 2 + b ^ 2) else size * a

/-- `toeplitz_traceinv` (sample_matrices/toeplitz.py:445-460); Python raises when it divides by zero. -/
def toeplitzTraceinv [DecidableEq K] (a b : K) (size : ℕ) (gram : Bool) : Except PyExc K :=
  if gram then
    if a = b then
      if 2 * a ^ 2 = 0 then .error .zeroDivision else .ok ((size : K) * (size + 1) / (2 * a ^ 2))
    else if a = 0 then .error .zeroDivision
    else
      let q := b / a
      if a ^ 2 - b ^ 2 = 0 then .error .zeroDivision
      else if size < 200 then
        .ok (1 / (a ^ 2 - b ^ 2) * (size - q ^ 2 * ((q ^ (2 * size) - 1) / (q ^ 2 - 1))))
      else .ok (1 / (a ^ 2 - b ^ 2) * (size - q ^ 2 / (1 - q ^ 2)))
  else if a = 0 then .error .zeroDivision
  else .ok (size / a)

/-- `numpy.log` -/
noncomputable def numpyLog (a : ℝ) : XR ℝ :=
  if 0 < a then .fin (Real.log a) else if a = 0 then .ninf else .nan

/-- A positive number times a floating number. -/
def scaleBy (c : ℝ) : XR ℝ → XR ℝ
  | .fin x => .fin (c * x)
  | v => v

/-- `toeplitz_logdet` (sample_matrices/toeplitz.py:536-540), for a positive size. -/
noncomputable def toeplitzLogdet (a _b : ℝ) (size : ℕ) (gram : Bool) : XR ℝ :=
  let logdet := scaleBy size (numpyLog a)
  if gram then scaleBy 2 logdet else logdet

/-- `toeplitz_schatten` (sample_matrices/toeplitz.py:635). -/
def toeplitzSchatten (a _b : K) (_size : ℕ) (_p : ℤ) : K := a

end Imate.Sample
