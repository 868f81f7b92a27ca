import Verif.Model.Py
import Verif.Model.Convergence
import Verif.Model.ColumnVectors
import Mathlib.Data.Matrix.Mul
import Mathlib.Data.Rat.Defs
import Mathlib.Algebra.Order.Ring.Rat

/-!
# Model of `imate/traceinv/_hutchinson_method.pyx`

Matrices and vectors carry their shape, so that a product of operands that do not fit raises, as in
NumPy.  Arithmetic is exact.  `linear_solver` (`_linear_algebra/linear_solver.py:24-76`) calls SciPy; it
is a parameter.  The methods for `float` and `double` (lines 749-840 and 847-938; 945-1017 and
1024-1096) are the same text up to the name of the type; citations are to the `double` version.
-/

namespace Imate.Hutchinson

open Matrix Imate.Convergence

variable {K : Type} [Field K]

/-- A two-dimensional array. -/
structure Mat (K : Type) where
  rows : Nat
  cols : Nat
  val : Matrix (Fin rows) (Fin cols) K

/-- A one-dimensional array. -/
structure Vec (K : Type) where
  size : Nat
  val : Fin size → K

/-- `A @ v` -/
def Mat.mulVec (A : Mat K) (v : Vec K) : Except PyExc (Vec K) :=
  if h : v.size = A.cols then .ok ⟨A.rows, A.val *ᵥ (fun j => v.val (Fin.cast h.symm j))⟩
  else .error .valueError

/-- `A.T` -/
def Mat.transpose (A : Mat K) : Mat K := ⟨A.cols, A.rows, A.valᵀ⟩

/-- `A.T @ A` -/
def Mat.gramian (A : Mat K) : Mat K := ⟨A.cols, A.cols, A.valᵀ * A.val⟩

/-- The values of `assume_matrix`. -/
inductive Assume where
  | gen
  | sym
  | pos
  | symPos
  deriving DecidableEq

/-- An exponent: a Python integer or a float. -/
inductive Exponent where
  | int (p : ℤ)
  | float (x : ℚ)

/-- the number an exponent stands for -/
def Exponent.val : Exponent → ℚ
  | .int p => p
  | .float x => x

/-- Type of `linear_solver(A, b, assume_matrix, tol)`. -/
abbrev Solver (K : Type) := Assume → Mat K → Vec K → Except PyExc (Vec K)

/-- `for i in range(k): OpE = linear_solver(M, OpE, …)`, _hutchinson_method.pyx:1140-1147. -/
def solveTimes (solve : Solver K) (a : Assume) (M : Mat K) : Nat → Vec K → Except PyExc (Vec K)
  | 0, v => .ok v
  | k + 1, v => do solveTimes solve a M k (← solve a M v)

/-- `BE`, _hutchinson_method.pyx:1113-1118. -/
def applyB (B : Option (Mat K)) (E : Vec K) : Except PyExc (Vec K) :=
  match B with
  | some B => B.mulVec E
  | none => .ok E

/-- A use of `AtA` at _hutchinson_method.pyx:1133 or 1144.  Simplification: solving with `None` is an
error of SciPy, represented by `valueError`; the check of lines 1063-1065 keeps it from happening. -/
def withGramian (AtA : Option (Mat K)) (f : Mat K → Except PyExc (Vec K)) : Except PyExc (Vec K) :=
  match AtA with
  | some M => f M
  | none => .error .valueError

/-- The case `p == 1`, _hutchinson_method.pyx:1127-1135. -/
def operatorOne (solve : Solver K) (A : Mat K) (AtA : Option (Mat K)) (gram : Bool) (a : Assume)
    (B : Option (Mat K)) (BE : Vec K) : Except PyExc (Vec K) :=
  if gram then
    match B with
    | none => solve a A.transpose BE
    | some _ => withGramian AtA (fun M => solve a M BE)
  else solve a A BE

/-- The case `p > 1`, _hutchinson_method.pyx:1137-1147: `range(p)` raises for a float. -/
def operatorMany (solve : Solver K) (A : Mat K) (AtA : Option (Mat K)) (gram : Bool) (a : Assume)
    (p : Exponent) (BE : Vec K) : Except PyExc (Vec K) :=
  match p with
  | .float _ => .error .typeError
  | .int q =>
    if gram then withGramian AtA (fun M => solveTimes solve a M q.toNat BE)
    else solveTimes solve a A q.toNat BE

/-- The case `p < -1`, _hutchinson_method.pyx:1153-1161: the loop reads `OpE` before it is assigned
(line 1155 assigns `AinvpE` instead); `range` of a float raises before that. -/
def operatorNegative (p : Exponent) : Except PyExc (Vec K) :=
  match p with
  | .float _ => .error .typeError
  | .int _ => .error .unboundLocal

/-- `_operator_dot`, _hutchinson_method.pyx:1103-1163.  When no branch applies (a float strictly between
`-1` and `0` or `0` and `1`) `OpE` is returned unassigned. -/
def operatorDot (solve : Solver K) (A : Mat K) (AtA : Option (Mat K)) (p : Exponent) (gram : Bool)
    (a : Assume) (B : Option (Mat K)) (E : Vec K) : Except PyExc (Vec K) := do
  let BE ← applyB B E
  if p.val = 0 then .ok BE
  else if p.val = 1 then operatorOne solve A AtA gram a B BE
  else if p.val > 1 then operatorMany solve A AtA gram a p BE
  else if p.val = -1 then A.mulVec BE
  else if p.val < -1 then operatorNegative p
  else .error .unboundLocal

/-- `inner_product` of the memory of two arrays over `n` entries, reading through raw pointers,
_hutchinson_method.pyx:1074-1080 and 1087-1091. -/
def innerProduct (v w : Vec K) (n : Nat) : Except PyExc K :=
  if h : n ≤ v.size ∧ n ≤ w.size then
    .ok (∑ i : Fin n, v.val (Fin.castLE h.1 i) * w.val (Fin.castLE h.2 i))
  else .error (.native .outOfBounds)

/-- `AtA`, _hutchinson_method.pyx:896-904. -/
def gramianIfNeeded (A : Mat K) (B C : Option (Mat K)) (p : Exponent) (gram : Bool) : Option (Mat K) :=
  if gram then
    if p.val = 1 ∧ B.isNone ∧ C.isNone then none else some A.gramian
  else none

/-- Multiplication by the second factor, _hutchinson_method.pyx:1070-1072. -/
def applyC (solve : Solver K) (A : Mat K) (AtA : Option (Mat K)) (p : Exponent) (gram : Bool)
    (a : Assume) (C : Option (Mat K)) (v : Vec K) : Except PyExc (Vec K) :=
  match C with
  | none => .ok v
  | some C => operatorDot solve A AtA p gram a (some C) v

/-- The inner product of the estimate, _hutchinson_method.pyx:1082-1091. -/
def finalProduct (A : Mat K) (B C : Option (Mat K)) (p : Exponent) (gram : Bool) (E OpE : Vec K) :
    Except PyExc K :=
  if gram = true ∧ |p.val| = 1 ∧ B.isNone ∧ C.isNone then innerProduct OpE OpE A.rows
  else innerProduct E OpE A.rows

/-- `_stochastic_trace_estimator_double`, _hutchinson_method.pyx:1024-1096. -/
def traceEstimate (solve : Solver K) (A : Mat K) (AtA B C : Option (Mat K)) (E : Vec K) (gram : Bool)
    (p : Exponent) (a : Assume) : Except PyExc K :=
  if gram = true ∧ AtA.isNone ∧ ¬ (p.val = 1 ∧ B.isNone ∧ C.isNone) then .error .runtimeError
  else do
    let OpE ← operatorDot solve A AtA p gram a B E
    let OpE ← applyC solve A AtA p gram a C OpE
    let inner ← finalProduct A B C p gram E OpE
    .ok ((A.rows : K) * inner)

/-- One sample of the loop, with the Gramian the caller passes, _hutchinson_method.pyx:912-913. -/
def sampleOf (solve : Solver K) (A : Mat K) (B C : Option (Mat K)) (gram : Bool) (p : Exponent)
    (a : Assume) (E : Vec K) : Except PyExc K :=
  traceEstimate solve A (gramianIfNeeded A B C p gram) B C E gram p a

/-- The test of the shape of `B` or of `C`,
_hutchinson_method_utilities.pyx:68-73 and 88-93. -/
def shapeFits (A M : Mat K) : Bool :=
  if A.rows = A.cols then decide (A.rows = M.rows ∧ A.cols = M.cols) else decide (A.cols = M.rows)

/-- The part of `check_arguments` about shapes, _hutchinson_method_utilities.pyx:51-93; the array
types are taken to agree.  A non-square `A` is not rejected. -/
def checkShapes (A : Mat K) (B C : Option (Mat K)) : Except PyExc Unit :=
  if B.any (fun M => !shapeFits A M) then .error .valueError
  else if C.isSome ∧ B.isNone then .error .valueError
  else if C.any (fun M => !shapeFits A M) then .error .valueError
  else .ok ()

/-! ### The sampling loop -/

section loop
variable [LinearOrder K] [HasSqrt K]

/-- Settings of the call. -/
structure Settings (K : Type) where
  minNumSamples : Nat
  maxNumSamples : Nat
  atol : XR K
  rtol : XR K
  /-- `sqrt(2) * erfinv(confidence_level)` -/
  errorZ : XR K
  /-- `sqrt(2) * erfinv(1 - outlier_significance_level)` -/
  outlierZ : XR K

/-- The loop over the samples, _hutchinson_method.pyx:906-925, over the remaining vectors; `done` are
the samples computed so far, in order; `num_samples_used` is their number
(_convergence_tools.py:22-79).  Returns the samples and the flag `converged`. -/
def sampling (sample : Vec K → Except PyExc K) (st : Settings K) :
    List (Vec K) → List (XR K) → Except PyExc (List (XR K) × Bool)
  | [], done => .ok (done, false)
  | E :: Es, done => do
    let x ← sample E
    let done := done ++ [XR.fin x]
    if (pyCheckConvergence st.minNumSamples st.errorZ st.atol st.rtol done).1 then .ok (done, true)
    else sampling sample st Es done

/-- The number of samples after the adjustment of _hutchinson_method.pyx:628-634. -/
def clampSamples (A : Mat K) (k : Nat) : Nat := if A.cols < k then A.cols else k

/-- Result of the method. -/
structure Outcome (K : Type) where
  trace : XR K
  error : XR K
  numOutliers : Nat
  numSamplesUsed : Nat
  converged : Bool

/-- `_hutchinson_method_double` for given random vectors, _hutchinson_method.pyx:887-931: sampling and
averaging. -/
def average (solve : Solver K) (A : Mat K) (B C : Option (Mat K)) (gram : Bool) (p : Exponent)
    (a : Assume) (st : Settings K) (Es : List (Vec K)) : Except PyExc (Outcome K) := do
  let (samples, converged) ← sampling (sampleOf solve A B C gram p a) st Es []
  match pyAverageEstimate st.errorZ st.outlierZ samples with
  | none => .error .zeroDivision
  | some r => .ok ⟨r.trace, r.error, r.numOutliers, samples.length, converged⟩

end loop

section method
variable [LinearOrder K] [HasSqrt K]

/-- `hutchinson_method` with one thread after the argument checks, _hutchinson_method.pyx:628-634 and
868-931: `vector_size` is the number of rows of `A` (line 868). -/
def hutchinson (solve : Solver K) (eps : K) (clock : Nat → Nat → BitVec 64) (seed : BitVec 64)
    (orthogonalize : Bool) (A : Mat K) (B C : Option (Mat K)) (gram : Bool) (p : Exponent) (a : Assume)
    (st : Settings K) : Except PyExc (Outcome K) := do
  let st := { st with minNumSamples := clampSamples A st.minNumSamples,
                      maxNumSamples := clampSamples A st.maxNumSamples }
  let V ← ofNative (Columns.generateColumnVectors HasSqrt.sqrt eps clock seed A.rows
    st.maxNumSamples orthogonalize)
  average solve A B C gram p a st (V.toList.map (fun v => ⟨A.rows, v⟩))

end method

end Imate.Hutchinson
