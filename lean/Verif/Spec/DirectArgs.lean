import Verif.Model.DirectArgs
import Verif.Spec.Args

/-!
# What the arguments of the direct methods should be

Read with the values of `Verif/Model/Args.lean` (`PyVal`) and `Verif/Model/DirectArgs.lean` (`MatArg`, `EigArgs`,
`HutchArgs`).
-/

namespace Imate.DirectArgs
open Args

/-- A matrix with two dimensions, dense or sparse. -/
def IsMatrix (A : MatArg) (rows cols : ℕ) : Prop :=
  A = .ndarray [rows, cols] ∨ A = .spmatrix rows cols ∨ A = .sparray rows cols

/-- A Python boolean. -/
def IsBool (v : PyVal) : Prop := ∃ b, v = .bool b

/-- An integer or a finite float of Python. -/
def IsNumber (v : PyVal) : Prop := (∃ z, v = .int z) ∨ ∃ x : ℚ, v = .float (.fin x)

/-- `gram` is a boolean, and without it the matrix is square. -/
def GramFits (gram : PyVal) (rows cols : ℕ) : Prop := ∃ g, gram = .bool g ∧ (g = false → rows = cols)

/-- A call of an eigenvalue method written after its documentation. -/
structure DocumentedEig (a : EigArgs) : Prop where
  matrix : ∃ r c, IsMatrix a.A r c ∧ GramFits a.gram r c ∧
    (a.eigenvalues = .none ∨ ∃ dt l, a.eigenvalues = .array dt 1 l ∧ l.length = r)
  p : IsNumber a.p
  returnInfo : IsBool a.returnInfo
  assumeMatrix : a.assumeMatrix = .str "gen" ∨ a.assumeMatrix = .str "sym"
  fraction : ∃ x : ℚ, a.fraction = .float (.fin x) ∧ 0 < x ∧ x < 1

/-- Any array with two dimensions or more, and the sparse matrices. -/
def HasRows (A : MatArg) (rows cols : ℕ) : Prop :=
  (∃ rest, A = .ndarray (rows :: cols :: rest)) ∨ A = .spmatrix rows cols ∨ A = .sparray rows cols

/-- What passes the checks of an eigenvalue method. -/
structure AcceptedEig (a : EigArgs) : Prop where
  matrix : ∃ r c, HasRows a.A r c ∧ GramFits a.gram r c ∧
    (a.eigenvalues = .none ∨ ∃ dt nd l, a.eigenvalues = .array dt nd l ∧ l.length = r)
  /-- any scalar, be it a string or a complex number -/
  p : a.p.isscalar = true
  returnInfo : IsBool a.returnInfo
  assumeMatrix : a.assumeMatrix = .str "gen" ∨ a.assumeMatrix = .str "sym"
  fraction : a.fraction = .float .nan ∨ ∃ x : ℚ, a.fraction = .float (.fin x) ∧ 0 < x ∧ x < 1

/-- `cholmod` is `None`, `False`, or `True` with scikit-sparse installed. -/
def CholmodFits (suitesparse : Bool) (v : PyVal) : Prop :=
  v = .none ∨ v = .bool false ∨ v = .bool true ∧ suitesparse = true

/-- The second matrix is of the type of the first; it has its shape if that is square, otherwise as many rows as the first
has columns. -/
def SecondFits (A : MatArg) (rows cols : ℕ) (B : MatArg) : Prop :=
  (A.isNdarray = B.isNdarray ∧ A.isspmatrix = B.isspmatrix) ∧
    if rows = cols then A.shape = B.shape else B.shape.head? = some cols

/-- Two levels that `nan` passes: neither is below zero or above one, and their sum is not above one. -/
def LevelsPass (x y : Num) : Prop :=
  (x = .nan ∨ InUnit x) ∧ (y = .nan ∨ InUnit y) ∧
    ∀ a b : ℚ, x = .fin a → y = .fin b → a + b ≤ 1

/-- A Python number that passes `isinstance(v, (int, numpy.integer, float))`. -/
def IsPlainReal (v : PyVal) (x : Num) : Prop := (∃ z : ℤ, IsInt v z ∧ x = .fin z) ∨ v = .float x

/-- A tolerance that passes: `None`, `nan` or a number that is not negative. -/
def TolPasses (v : PyVal) : Prop := v = .none ∨ ∃ x, IsPlainReal v x ∧ (x = .nan ∨ NonNegative x)

/-- What passes the checks of the Hutchinson method. -/
structure AcceptedHutch (a : HutchArgs) : Prop where
  matrices : ∃ r c, HasRows a.A r c ∧ (∀ r c, a.A ≠ .sparray r c) ∧ (∀ B, a.B = some B → SecondFits a.A r c B) ∧
    (∀ C, a.C = some C → a.B ≠ none ∧ SecondFits a.A r c C)
  gram : IsBool a.gram
  p : a.p.isscalar = true
  returnInfo : IsBool a.returnInfo
  assumeMatrix : ∃ s ∈ ["gen", "pos", "sym", "sym_pos"], a.assumeMatrix = .str s
  samples : ∃ m M : ℤ, IsInt a.minNumSamples m ∧ IsInt a.maxNumSamples M ∧ 1 ≤ m ∧ m ≤ M
  atol : TolPasses a.errorAtol
  rtol : TolPasses a.errorRtol
  levels : ∃ x y, IsPlainReal a.confidenceLevel x ∧ IsPlainReal a.outlierSignificanceLevel y ∧ LevelsPass x y
  solverTol : TolPasses a.solverTol
  orthogonalize : IsBool a.orthogonalize
  seed : a.seed = .none ∨ ∃ z, IsInt a.seed z
  numThreads : ∃ z, IsInt a.numThreads z ∧ 0 ≤ z
  verbose : IsBool a.verbose
  plot : IsBool a.plot

end Imate.DirectArgs
