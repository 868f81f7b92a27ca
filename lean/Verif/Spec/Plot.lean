import Verif.Spec.Stats

/-! What a plot of the progress of a mean shows. -/

namespace Imate.Spec

/-- `x` is not farther from the mean of `xs` than `q` standard deviations of `xs` -/
noncomputable def near (q : ℝ) (xs : List ℝ) (x : ℝ) : Bool :=
  decide (|x - mean xs| ≤ q * populationStd xs)

end Imate.Spec
