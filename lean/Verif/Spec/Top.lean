import Mathlib.Analysis.Matrix.HermitianFunctionalCalculus
import Mathlib.Analysis.SpecialFunctions.Pow.Real

/-! Specification vocabulary for C37: the documented Schatten norm. -/

namespace Imate.Spec

open Matrix

/-- `|det A|^(1/n)` for `p = 0` and `|trace(A^p) / n|^(1/p)` otherwise. -/
noncomputable def schattenNorm {n : ℕ} (A : Matrix (Fin n) (Fin n) ℝ) (p : ℝ) : ℝ :=
  open Classical in
  if p = 0 then |A.det| ^ (1 / n : ℝ) else |(cfc (fun x : ℝ => x ^ p) A).trace / n| ^ (1 / p)

end Imate.Spec
