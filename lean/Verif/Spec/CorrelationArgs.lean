import Verif.Model.CorrelationArgs

/-!
# The documented arguments of `correlation_matrix`

From the documentation of the function (correlation_matrix.py:54-117).
-/

namespace Imate.Spec.Correlation

open Args CorrelationArgs

/-- `v` is the positive integer `n`. -/
def PositiveInteger (v : PyVal) (n : ℤ) : Prop := v.isInteger = true ∧ v.intValue = n ∧ 1 ≤ n

/-- `v` is the real number `x`. -/
def Real (v : PyVal) (x : ℚ) : Prop := v.num = some (.fin x)

/-- `v` is one of the names. -/
def Name (names : List String) (v : PyVal) : Prop := ∃ s ∈ names, v = .str s

/-- The documented arguments, with their values: size `n`, dimension `d`, scale `ρ`, density `δ`, kernel `k`. -/
structure Documented (a : Call) (n d : ℤ) (ρ δ : ℚ) (k : String) (grid sparse : Bool) : Prop where
  size : PositiveInteger a.size n
  dimension : PositiveInteger a.dimension d
  scale : Real a.scale ρ
  scale_pos : 0 < ρ
  kernel : a.kernel = .str k
  kernel_mem : k ∈ ["matern", "exponential", "square_exponential", "rational_quadratic"]
  /-- a parameter is given only to the kernels that have one -/
  param : a.kernelParam = .none ∨
    (k = "matern" ∨ k = "rational_quadratic") ∧ ∃ x, 0 < x ∧ Real a.kernelParam x
  isGrid : a.grid = .bool grid
  isSparse : a.sparse = .bool sparse
  density : Real a.density δ
  density_pos : 0 < δ
  density_lt : δ < 1
  format : Name ["csr", "csc"] a.format
  dtype : Name ["float32", "float64", "float128"] a.dtype
  plot : ∃ b, a.plot = .bool b
  verbose : ∃ b, a.verbose = .bool b

/-- An example of documented arguments: `correlation_matrix(20, dimension=2, kernel='matern', kernel_param=2.5, scale=0.2)`
with `sparse=True`. -/
def sample : Call where
  size := .int 20
  dimension := .int 2
  scale := .float (.fin (1 / 5))
  kernel := .str "matern"
  kernelParam := .float (.fin (5 / 2))
  grid := .bool true
  sparse := .bool true
  density := .float (.fin (1 / 20))
  format := .str "csr"
  dtype := .str "float32"
  plot := .bool false
  verbose := .bool false

end Imate.Spec.Correlation
