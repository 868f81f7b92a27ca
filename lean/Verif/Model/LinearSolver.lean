import Verif.Model.Hutchinson

/-!
# Model of `imate/_linear_algebra/linear_solver.py`

SciPy's routines are parameters.  An iterative solver returns its last iterate and a flag that is zero
if the tolerance was met.
-/

namespace Imate.LinearSolver
open Imate.Hutchinson

variable {K : Type}

/-- `solver(A, b, tol=tol, …)` of `scipy.sparse.linalg`: the iterate and the flag. -/
abbrev Iterative (K : Type) := Mat K → Vec K → K → Except PyExc (Vec K × Int)

/-- The routines of SciPy that are called. -/
structure Scipy (K : Type) where
  /-- `scipy.linalg.solve` -/
  dense : Assume → Mat K → Vec K → Except PyExc (Vec K)
  minres : Iterative K
  cg : Iterative K
  gmres : Iterative K

/-- `"sym_pos"` becomes `"pos"`, linear_solver.py:46-47. -/
def rename : Assume → Assume
  | .symPos => .pos
  | a => a

/-- The choice of the iterative solver, linear_solver.py:53-63. -/
def choose (S : Scipy K) : Assume → Iterative K
  | .sym => S.minres
  | .pos => S.cg
  | .symPos => S.cg
  | .gen => S.gmres

/-- `linear_solver` for a vector `b`, linear_solver.py:24-76; the flag is dropped (line 67).
`sparse` is `scipy.sparse.isspmatrix(A)`. -/
def linearSolver (S : Scipy K) (sparse : Bool) (tol : K) : Solver K := fun a A b =>
  let a := rename a
  if sparse then do
    let r ← choose S a A b tol
    .ok r.1
  else S.dense a A b

/-- The columns of a two-dimensional `b`, linear_solver.py:69-71. -/
def linearSolverColumns (S : Scipy K) (tol : K) (a : Assume) (A : Mat K) :
    List (Vec K) → Except PyExc (List (Vec K))
  | [] => .ok []
  | b :: bs => do
    let x ← linearSolver S true tol a A b
    let xs ← linearSolverColumns S tol a A bs
    .ok (x :: xs)

end Imate.LinearSolver
