import Verif.Model.Hutchinson
import Mathlib.Data.Rat.Floor

/-!
# The matrices the direct methods work on

A dense array is its shape and its entries.  A sparse array (CSR, CSC or COO; the other formats of SciPy are
not modelled) is its shape and the list of the entries it stores: its value is the sum of all of them, so a
position can be stored twice, as SciPy allows.
-/

namespace Imate.Direct

open Imate.Hutchinson Matrix

variable {K : Type} [Field K]

/-- An input matrix. -/
inductive Array2 (K : Type) where
  | dense (A : Mat K)
  | sparse (rows cols : ℕ) (entries : List (Fin rows × Fin cols × K))

/-- The entry at a position of a sparse array: SciPy adds up what is stored there. -/
def entry {rows cols : ℕ} (entries : List (Fin rows × Fin cols × K)) (i : Fin rows) (j : Fin cols) : K :=
  (entries.map fun e => if e.1 = i ∧ e.2.1 = j then e.2.2 else 0).sum

/-- The matrix an array stands for. -/
def Array2.value : Array2 K → Mat K
  | .dense A => A
  | .sparse rows cols entries => ⟨rows, cols, entry entries⟩

/-- `scipy.sparse.issparse(A)` -/
def Array2.isSparse : Array2 K → Bool
  | .dense _ => false
  | .sparse _ _ _ => true

/-- `A @ B` -/
def mul (A B : Mat K) : Except PyExc (Mat K) :=
  if h : A.cols = B.rows then .ok ⟨A.rows, B.cols, A.val * B.val.submatrix (Fin.cast h) id⟩
  else .error .valueError

/-- `for i in range(k): Ap = Ap @ A1` -/
def mulTimes (A1 : Mat K) : ℕ → Mat K → Except PyExc (Mat K)
  | 0, Ap => .ok Ap
  | k + 1, Ap => do mulTimes A1 k (← mul Ap A1)

/-- `numpy.trace(A)` and, for a sparse array, `numpy.sum(A.diagonal())`: the diagonal of a matrix of any
shape. -/
def diagSum (A : Mat K) : K :=
  ∑ i : Fin (min A.rows A.cols), A.val (Fin.castLE (Nat.min_le_left _ _) i) (Fin.castLE (Nat.min_le_right _ _) i)

/-- `numpy.linalg.norm(A, ord='fro')**2`; the square root and the square cancel in exact arithmetic. -/
def frobeniusSq (A : Mat K) : K := ∑ i, ∑ j, A.val i j ^ 2

/-- `numpy.sum(numpy.multiply(A, A.T))` and its sparse counterpart. -/
def sumMulTranspose (A : Mat K) : Except PyExc K :=
  if h : A.rows = A.cols then
    .ok (∑ i, ∑ j, A.val i j * A.val (Fin.cast h.symm j) (Fin.cast h i))
  else .error .valueError

/-- `numpy.abs(p)` -/
def expAbs : Exponent → Exponent
  | .int q => .int |q|
  | .float x => .float |x|

/-- `p // 2` -/
def expHalf : Exponent → Exponent
  | .int q => .int (q / 2)
  | .float x => .float ⌊x / 2⌋

/-- `p % 2 == 0` -/
def expEven : Exponent → Bool
  | .int q => q % 2 == 0
  | .float x => x - 2 * ⌊x / 2⌋ == 0

/-- `for i in range(1, p): Ap = Ap @ A1`; `range` raises for a float. -/
def powerLoop (A1 Ap : Mat K) (p : Exponent) : Except PyExc (Mat K) :=
  match p with
  | .float _ => .error .typeError
  | .int q => mulTimes A1 (q - 1).toNat Ap

/-- `A.T @ A` or `A` -/
def base (A : Mat K) (gram : Bool) : Mat K := if gram then A.gramian else A

/-- The check all direct methods make of the shape. -/
def checkSquare (A : Array2 K) (gram : Bool) : Except PyExc Unit :=
  if gram = false ∧ A.value.rows ≠ A.value.cols then .error .valueError else .ok ()

end Imate.Direct
