import Mathlib.Analysis.Real.Sqrt

/-! Textbook statistics of a list of real numbers. -/

namespace Imate.Spec

/-- arithmetic mean -/
noncomputable def mean (xs : List ℝ) : ℝ := xs.sum / xs.length

/-- sum of squared deviations from `m` -/
noncomputable def sqDev (m : ℝ) (xs : List ℝ) : ℝ := (xs.map (fun x => (x - m) ^ 2)).sum

/-- sample standard deviation, divisor `n - 1` -/
noncomputable def sampleStd (xs : List ℝ) : ℝ := Real.sqrt (sqDev (mean xs) xs / (xs.length - 1))

/-- population standard deviation, divisor `n` -/
noncomputable def populationStd (xs : List ℝ) : ℝ := Real.sqrt (sqDev (mean xs) xs / xs.length)

/-- half width of the confidence interval of the mean for quantile `z` -/
noncomputable def standardError (z : ℝ) (xs : List ℝ) : ℝ := z * sampleStd xs / Real.sqrt xs.length

end Imate.Spec
