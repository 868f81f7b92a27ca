import Verif.Model.Arrays
import Mathlib.Analysis.SpecialFunctions.Log.Basic
import Mathlib.Data.Real.Sqrt

/-!
# Model of the Cholesky methods

`imate/_linear_algebra/sparse_cholesky.py`, `imate/traceinv/_cholesky_method.py` and
`imate/logdet/_cholesky_method.py`.  Real arithmetic is exact.  The routines of SciPy and scikit-sparse are
the fields of `Lib`; they take a square matrix (SciPy raises `ValueError` for any other, see `withSquare`).
-/

namespace Imate.Direct

open Imate.Hutchinson Matrix

/-- What `scipy.sparse.linalg.splu` returns: `A i j = (L U) (perm_r i) (perm_c j)`. -/
structure LU (n : ℕ) where
  L : Matrix (Fin n) (Fin n) ℝ
  U : Matrix (Fin n) (Fin n) ℝ
  permR : Fin n → Fin n
  permC : Fin n → Fin n

/-- What `sksparse.cholmod.cholesky` returns: the factor and the fill-reducing permutation. -/
structure Factor (n : ℕ) where
  L : Matrix (Fin n) (Fin n) ℝ
  P : Fin n → Fin n

/-- The external routines. -/
structure Lib where
  /-- `scipy.linalg.cholesky(A, lower=True)` -/
  chol : (n : ℕ) → Matrix (Fin n) (Fin n) ℝ → Except PyExc (Matrix (Fin n) (Fin n) ℝ)
  /-- `scipy.sparse.linalg.splu(A, diag_pivot_thresh=0, permc_spec='NATURAL')` -/
  splu : (n : ℕ) → Matrix (Fin n) (Fin n) ℝ → Except PyExc (LU n)
  /-- `sksparse.cholmod.cholesky`, with the default or the natural ordering -/
  cholmod : (natural : Bool) → (n : ℕ) → Matrix (Fin n) (Fin n) ℝ → Except PyExc (Factor n)
  /-- `scipy.linalg.inv`, `scipy.sparse.linalg.inv` -/
  inv : (n : ℕ) → Matrix (Fin n) (Fin n) ℝ → Except PyExc (Matrix (Fin n) (Fin n) ℝ)
  /-- `solve_triangular`, `spsolve_triangular`, `Factor.solve_L` with a lower triangular matrix -/
  triSolve : (n : ℕ) → Matrix (Fin n) (Fin n) ℝ → (Fin n → ℝ) → Except PyExc (Fin n → ℝ)

/-- A routine that needs a square matrix. -/
def withSquare {α : Type} (M : Mat ℝ) (f : (n : ℕ) → Matrix (Fin n) (Fin n) ℝ → Except PyExc α) :
    Except PyExc α :=
  if h : M.rows = M.cols then f M.rows (M.val.submatrix id (Fin.cast h)) else .error .valueError

/-! ### `sparse_cholesky` -/

/-- The test of `sparse_cholesky` (`imate/_linear_algebra/sparse_cholesky.py:62-63`). -/
noncomputable def luIsPositive {n : ℕ} (lu : LU n) : Bool :=
  open Classical in decide ((∀ i, lu.permR i = i) ∧ ∀ i, 0 < lu.U i i)

/-- `sparse_cholesky(A)` (`imate/_linear_algebra/sparse_cholesky.py:46-66`). -/
noncomputable def sparseCholesky (lib : Lib) (n : ℕ) (A : Matrix (Fin n) (Fin n) ℝ) :
    Except PyExc (Matrix (Fin n) (Fin n) ℝ) := do
  let lu ← lib.splu n A
  if luIsPositive lu then .ok (lu.L * diagonal fun i => Real.sqrt (lu.U i i)) else .error .runtimeError

/-- `numpy.sqrt` of a float: `none` is `nan`. -/
noncomputable def sqrtNan (x : ℝ) : Option ℝ :=
  open Classical in if x < 0 then none else some (Real.sqrt x)

/-- `sparse_cholesky(A, diagonal_only=True)` (`imate/_linear_algebra/sparse_cholesky.py:46-55`): nothing is
checked. -/
noncomputable def sparseCholeskyDiagonal (lib : Lib) (n : ℕ) (A : Matrix (Fin n) (Fin n) ℝ) :
    Except PyExc (Fin n → Option ℝ) := do
  let lu ← lib.splu n A
  .ok fun i => sqrtNan (lu.U i i)

/-! ### `traceinv` -/

/-- How `L_A` was computed: its rows are permuted if CHOLMOD was used. -/
inductive Factored (n : ℕ) where
  | plain (L : Matrix (Fin n) (Fin n) ℝ)
  | permuted (F : Factor n)

/-- The factor `L`. -/
def Factored.lower {n : ℕ} : Factored n → Matrix (Fin n) (Fin n) ℝ
  | .plain L => L
  | .permuted F => F.L

/-- `L_B` or `L_B[P, :]` (traceinv/_cholesky_method.py:604-611, 715-719). -/
def Factored.permute {n : ℕ} (F : Factored n) (LB : Matrix (Fin n) (Fin n) ℝ) :
    Matrix (Fin n) (Fin n) ℝ :=
  match F with
  | .plain _ => LB
  | .permuted F => LB.submatrix F.P id

/-- `L_A` (traceinv/_cholesky_method.py:371-398). -/
noncomputable def factorA (lib : Lib) (sparse useCholmod : Bool) (n : ℕ) (A : Matrix (Fin n) (Fin n) ℝ) :
    Except PyExc (Factored n) :=
  if sparse then
    if useCholmod then do
      let F ← lib.cholmod false n A
      .ok (.permuted F)
    else do
      let L ← sparseCholesky lib n A
      .ok (.plain L)
  else do
    let L ← lib.chol n A
    .ok (.plain L)

/-- `L_B` of a given `B` (traceinv/_cholesky_method.py:380-404). -/
noncomputable def factorB (lib : Lib) (sparse useCholmod : Bool) (n : ℕ) (B : Matrix (Fin n) (Fin n) ℝ) :
    Except PyExc (Matrix (Fin n) (Fin n) ℝ) :=
  if sparse then
    if useCholmod then do
      let F ← lib.cholmod true n B
      .ok F.L
    else sparseCholesky lib n B
  else lib.chol n B

/-- `compute_traceinv_invert_cholesky_directly` (traceinv/_cholesky_method.py:547-628). -/
noncomputable def invertDirectly (lib : Lib) (n : ℕ) (LA : Factored n)
    (LB : Option (Matrix (Fin n) (Fin n) ℝ)) : Except PyExc ℝ := do
  let Linv ← lib.inv n LA.lower
  match LB with
  | none => .ok (frobeniusSq ⟨n, n, Linv⟩)
  | some LB => .ok (frobeniusSq ⟨n, n, Linv * LA.permute LB⟩)

/-- The right hand side `e` (traceinv/_cholesky_method.py:714-724, 751-757). -/
def rightHandSide {n : ℕ} (LA : Factored n) (LB : Option (Matrix (Fin n) (Fin n) ℝ)) (i : Fin n) :
    Fin n → ℝ :=
  match LB with
  | none => Pi.single i 1
  | some LB => fun k => LA.permute LB k i

/-- The loop of `compute_traceinv_invert_cholesky_indirectly` over the columns
(traceinv/_cholesky_method.py:709-763). -/
noncomputable def solveColumns (lib : Lib) (n : ℕ) (LA : Factored n)
    (LB : Option (Matrix (Fin n) (Fin n) ℝ)) : List (Fin n) → ℝ → Except PyExc ℝ
  | [], norm2 => .ok norm2
  | i :: is, norm2 => do
    let x ← lib.triSolve n LA.lower (rightHandSide LA LB i)
    solveColumns lib n LA LB is (norm2 + ∑ k, x k ^ 2)

/-- `compute_traceinv_invert_cholesky_indirectly` (traceinv/_cholesky_method.py:635-767). -/
noncomputable def invertIndirectly (lib : Lib) (n : ℕ) (LA : Factored n)
    (LB : Option (Matrix (Fin n) (Fin n) ℝ)) : Except PyExc ℝ :=
  solveColumns lib n LA LB (List.finRange n) 0

/-- `B` as a matrix that fits the other factor; `@` raises otherwise. -/
noncomputable def fitB (n : ℕ) : Option (Array2 ℝ) → Except PyExc (Option (Matrix (Fin n) (Fin n) ℝ))
  | none => .ok none
  | some B =>
    if h : n = B.value.rows ∧ n = B.value.cols then
      .ok (some (B.value.val.submatrix (Fin.cast h.1) (Fin.cast h.2)))
    else .error .valueError

/-- `L_B`, or `None` (traceinv/_cholesky_method.py:380-404). -/
noncomputable def factorBIfGiven (lib : Lib) (sparse useCholmod : Bool) (n : ℕ) :
    Option (Matrix (Fin n) (Fin n) ℝ) → Except PyExc (Option (Matrix (Fin n) (Fin n) ℝ))
  | none => .ok none
  | some B => do
    let L ← factorB lib sparse useCholmod n B
    .ok (some L)

/-- The branch for a positive exponent (traceinv/_cholesky_method.py:371-417). -/
noncomputable def traceinvPositive (lib : Lib) (sparse useCholmod invertCholesky : Bool)
    (B : Option (Array2 ℝ)) (n : ℕ) (Ap : Matrix (Fin n) (Fin n) ℝ) : Except PyExc ℝ := do
  let LA ← factorA lib sparse useCholmod n Ap
  let B ← fitB n B
  let LB ← factorBIfGiven lib sparse useCholmod n B
  if invertCholesky then invertDirectly lib n LA LB else invertIndirectly lib n LA LB

/-- The branch for a negative exponent (traceinv/_cholesky_method.py:352-365). -/
noncomputable def traceinvNegative (Ap : Mat ℝ) (B : Option (Array2 ℝ)) : Except PyExc ℝ :=
  match B with
  | none => .ok (diagSum Ap)
  | some B => do
    let C ← mul Ap B.value
    .ok (diagSum C)

/-- The branch for the exponent zero (traceinv/_cholesky_method.py:342-351). -/
noncomputable def traceinvZero (A : Array2 ℝ) (B : Option (Array2 ℝ)) : ℝ :=
  match B with
  | none => A.value.rows
  | some B => diagSum B.value

/-- The check of `B` in `check_arguments` (traceinv/_cholesky_method.py:484-499). -/
noncomputable def checkB (A : Array2 ℝ) : Option (Array2 ℝ) → Except PyExc Unit
  | none => .ok ()
  | some B =>
    if A.isSparse ≠ B.isSparse then .error .typeError
    else if A.value.rows = A.value.cols ∧
        ¬ (A.value.rows = B.value.rows ∧ A.value.cols = B.value.cols) then .error .valueError
    else if A.value.rows ≠ A.value.cols ∧ A.value.cols ≠ B.value.rows then .error .valueError
    else .ok ()

/-- The checks of `p` (traceinv/_cholesky_method.py:514-519). -/
def checkInt : Exponent → Except PyExc ℤ
  | .int p => .ok p
  | .float _ => .error .typeError

/-- The check of `cholmod`; `suitesparse` says whether scikit-sparse is installed
(traceinv/_cholesky_method.py:534-540, logdet/_cholesky_method.py:416-424). -/
def checkCholmod (suitesparse : Bool) (cholmod : Option Bool) : Except PyExc Unit :=
  if cholmod = some true ∧ suitesparse = false then .error .runtimeError else .ok ()

/-- The settings of a Cholesky method. -/
structure CholeskySettings where
  suitesparse : Bool
  cholmod : Option Bool
  invertCholesky : Bool

/-- `use_cholmod` (traceinv/_cholesky_method.py:312-315, logdet/_cholesky_method.py:270-273). -/
def useCholmod (st : CholeskySettings) (sparse : Bool) : Bool :=
  st.suitesparse && decide (st.cholmod ≠ some false) && sparse

/-- The branch of the exponent (traceinv/_cholesky_method.py:320-417). -/
noncomputable def traceinvBranch (lib : Lib) (A : Array2 ℝ) (B : Option (Array2 ℝ)) (gram : Bool) (p : ℤ)
    (st : CholeskySettings) : Except PyExc ℝ :=
  if p = 0 then .ok (traceinvZero A B)
  else do
    let Ap ← powerLoop (base A.value gram) (base A.value gram) (.int |p|)
    (if p < 0 then traceinvNegative Ap B
    else withSquare Ap
      (traceinvPositive lib A.isSparse (useCholmod st A.isSparse) st.invertCholesky B))

/-- `cholesky_method` (traceinv/_cholesky_method.py:302-460). -/
noncomputable def traceinvCholesky (lib : Lib) (A : Array2 ℝ) (B : Option (Array2 ℝ)) (gram : Bool)
    (p : Exponent) (st : CholeskySettings) : Except PyExc ℝ := do
  let _ ← checkB A B
  let _ ← checkSquare A gram
  let p ← checkInt p
  let _ ← checkCholmod st.suitesparse st.cholmod
  traceinvBranch lib A B gram p st

/-! ### `logdet` -/

/-- `2.0 * numpy.real(numpy.sum(numpy.log(diag_L)))` of a diagonal; `none` is `nan`
(logdet/_cholesky_method.py:302-305, 311-313).  The logarithm of the complex number `d` has the real part
`log |d|`. -/
noncomputable def twiceLogSum {n : ℕ} (d : Fin n → Option ℝ) : Option ℝ :=
  ((List.finRange n).map d).foldl
    (fun acc x => acc.bind fun a => x.map fun x => a + 2 * Real.log |x|) (some 0)

/-- The logarithm of the determinant of the matrix that is factored
(logdet/_cholesky_method.py:293-313).  `Factor.logdet` is the sum of the logarithms of the squared diagonal of
the factor. -/
noncomputable def logdetFactor (lib : Lib) (sparse useCholmod : Bool) (n : ℕ)
    (A : Matrix (Fin n) (Fin n) ℝ) : Except PyExc (Option ℝ) :=
  if sparse then
    if useCholmod then do
      let F ← lib.cholmod false n A
      .ok (twiceLogSum fun i => some (F.L i i))
    else do
      let d ← sparseCholeskyDiagonal lib n A
      .ok (twiceLogSum d)
  else do
    let L ← lib.chol n A
    .ok (twiceLogSum fun i => some (L i i))

/-- The doubling for a square matrix with `gram=True` (logdet/_cholesky_method.py:320-321). -/
noncomputable def doubleIf (c : Bool) (t : Option ℝ) : Option ℝ := if c then t.map (2 * ·) else t

/-- `Ag` (logdet/_cholesky_method.py:287-290). -/
noncomputable def logdetBase (A : Array2 ℝ) (gram : Bool) : Mat ℝ :=
  if gram = true ∧ A.value.rows ≠ A.value.cols then A.value.gramian else A.value

/-- `cholesky_method` (logdet/_cholesky_method.py:262-363). -/
noncomputable def logdetCholesky (lib : Lib) (A : Array2 ℝ) (gram : Bool) (p : Exponent)
    (st : CholeskySettings) : Except PyExc (Option ℝ) := do
  let _ ← checkSquare A gram
  let _ ← checkCholmod st.suitesparse st.cholmod
  if p.val = 0 then .ok (doubleIf (gram && decide (A.value.rows = A.value.cols)) (some 0))
  else do
    let t ← withSquare (logdetBase A gram) (logdetFactor lib A.isSparse (useCholmod st A.isSparse))
    .ok (doubleIf (gram && decide (A.value.rows = A.value.cols)) (t.map (· * (p.val : ℝ))))

end Imate.Direct
