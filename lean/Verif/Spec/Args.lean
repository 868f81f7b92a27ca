import Verif.Model.Args

/-!
# What the arguments should be

Read with the values of `Verif/Model/Args.lean` (`PyVal`, `Arguments`, `Native`).
-/

namespace Imate.Args

/-- `v` is the integer `z`. -/
def IsInt (v : PyVal) (z : ℤ) : Prop :=
  v = .int z ∨ v = .npInt z ∨ (v = .bool true ∧ z = 1) ∨ (v = .bool false ∧ z = 0)

/-- `v` is the real number (or special value) `x`. -/
def IsReal (v : PyVal) (x : Num) : Prop :=
  (∃ z : ℤ, IsInt v z ∧ x = .fin z) ∨ v = .float x ∨ v = .npFloat x ∨
    ∃ b, v = .npBool b ∧ x = .fin (if b then 1 else 0)

/-- `v` is `None` and `x` the default, or `v` is the real number `x`. -/
def DefaultOr (v : PyVal) (default x : Num) : Prop := (v = .none ∧ x = default) ∨ IsReal v x

/-- `x` is a number and not negative (infinity allowed). -/
def NonNegative : Num → Prop
  | .fin x => 0 ≤ x
  | .pinf => True
  | _ => False

/-- `x` is a number between `0` and `1`. -/
def InUnit : Num → Prop
  | .fin x => 0 ≤ x ∧ x ≤ 1
  | _ => False

/-- The numbers the C++ code gets are the ones the caller wrote, with the defaults for `None`, and satisfy
the documented constraints on types and integers. -/
structure Accepted (maxThreads : ℕ) (a : Arguments) (dtype : DType) (r : Native) : Prop where
  gram : a.gram = .bool r.gram
  exponent : IsReal a.exponent r.exponent
  minNumSamples : IsInt a.minNumSamples r.minNumSamples
  maxNumSamples : IsInt a.maxNumSamples r.maxNumSamples
  min_pos : 1 ≤ r.minNumSamples
  min_le_max : r.minNumSamples ≤ r.maxNumSamples
  max_lt : r.maxNumSamples < 2 ^ 31
  atol : DefaultOr a.errorAtol (.fin 0) r.atol
  rtol : DefaultOr a.errorRtol (.fin 0) r.rtol
  confidenceLevel : IsReal a.confidenceLevel r.confidenceLevel
  outlierLevel : IsReal a.outlierSignificanceLevel r.outlierSignificanceLevel
  lanczosDegree : IsInt a.lanczosDegree r.lanczosDegree
  degree_pos : 1 ≤ r.lanczosDegree
  lanczosTol : DefaultOr a.lanczosTol (.fin (machinePrecision dtype)) r.lanczosTol
  orthogonalize : IsInt a.orthogonalize r.orthogonalize
  orthogonalize_le : r.orthogonalize ≤ r.lanczosDegree
  seed : (a.seed = .none ∧ r.seed = -1) ∨ IsInt a.seed r.seed
  threads_pos : 1 ≤ maxThreads → 1 ≤ r.numThreads
  threads : ∀ z : ℤ, IsInt a.numThreads z → r.numThreads = if z < 1 then (maxThreads : ℤ) else z
  gpuDevices : ∃ z : ℤ, IsInt a.numGpuDevices z ∧ 0 ≤ z
  verbose : ∃ b, a.verbose = .bool b
  plot : ∃ b, a.plot = .bool b
  gpu : ∃ b, a.gpu = .bool b

/-- The documented constraints on the real numbers. -/
structure InRange (r : Native) : Prop where
  atol : NonNegative r.atol
  rtol : NonNegative r.rtol
  lanczosTol : NonNegative r.lanczosTol
  confidenceLevel : InUnit r.confidenceLevel
  outlierLevel : InUnit r.outlierSignificanceLevel
  sum_le : ∀ x y, r.confidenceLevel = .fin x → r.outlierSignificanceLevel = .fin y → x + y ≤ 1

/-- A call written after the documentation, for a matrix of `rows × cols`: every argument of the documented
type and in the documented range, integers within the C types. -/
structure Valid (a : Arguments) : Prop where
  gram : ∃ b, a.gram = .bool b
  exponent : ∃ x : ℚ, a.exponent = .float (.fin x)
  samples : ∃ m M : ℤ, a.minNumSamples = .int m ∧ a.maxNumSamples = .int M ∧ 1 ≤ m ∧ m ≤ M ∧ M < 2 ^ 31
  atol : a.errorAtol = .none ∨ ∃ x : ℚ, a.errorAtol = .float (.fin x) ∧ 0 ≤ x
  rtol : a.errorRtol = .none ∨ ∃ x : ℚ, a.errorRtol = .float (.fin x) ∧ 0 ≤ x
  levels : ∃ x y : ℚ, a.confidenceLevel = .float (.fin x) ∧ a.outlierSignificanceLevel = .float (.fin y) ∧
    0 ≤ x ∧ 0 ≤ y ∧ x + y ≤ 1
  lanczos : ∃ d q : ℤ, a.lanczosDegree = .int d ∧ a.orthogonalize = .int q ∧ 1 ≤ d ∧ d < 2 ^ 31 ∧
    -2 ^ 31 ≤ q ∧ q ≤ d
  lanczosTol : a.lanczosTol = .none ∨ ∃ x : ℚ, a.lanczosTol = .float (.fin x) ∧ 0 ≤ x
  seed : a.seed = .none ∨ ∃ s : ℤ, a.seed = .int s ∧ -2 ^ 63 ≤ s ∧ s < 2 ^ 63
  threads : ∃ t : ℤ, a.numThreads = .int t ∧ 0 ≤ t ∧ t < 2 ^ 31
  gpuDevices : ∃ t : ℤ, a.numGpuDevices = .int t ∧ 0 ≤ t
  verbose : ∃ b, a.verbose = .bool b
  plot : ∃ b, a.plot = .bool b
  gpu : ∃ b, a.gpu = .bool b

end Imate.Args
