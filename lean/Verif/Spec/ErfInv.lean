import Mathlib.MeasureTheory.Integral.IntervalIntegral.FundThmCalculus
import Mathlib.Analysis.SpecialFunctions.Integrals.Basic
import Mathlib.Analysis.Real.Pi.Bounds
import Verif.Model.ErfInv

/-! # Specification: the error function -/

namespace Imate.Spec

/-- `erf r = 2/√π ∫₀ʳ exp(-t²) dt` -/
noncomputable def erf (r : ℝ) : ℝ := 2 / Real.sqrt Real.pi * ∫ t in (0 : ℝ)..r, Real.exp (-t * t)

/-- The functions of the C library, without rounding. -/
noncomputable def realFns : ErfInv.MathFns ℝ := ⟨Real.log, Real.exp, erf, Real.sqrt, Real.pi⟩

end Imate.Spec
