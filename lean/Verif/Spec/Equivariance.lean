import Verif.Model.Functions
import Verif.Model.Estimator

/-! # Specification: what the call for a scaled matrix should return -/

namespace Imate.Spec

open Functions Convergence Estimator

/-- The call for the matrix whose power is `k` times the old one, with its parameters scaled alike. -/
noncomputable def scaledApi (k : ℝ) : Api → Api
  | .trace => .trace
  | .traceinv => .traceinv
  | .logdet => .logdet
  | .trexp t => .trexp (t / k)
  | .trlinfrac a b c d => .trlinfrac (a / k) b (c / k) d
  | .eigencount lo hi => .eigencount (k * lo) (k * hi)
  | .density mu sigma => .density (k * mu) (k * sigma)

/-- The factor of the result. -/
noncomputable def scaledFactor (k : ℝ) : Api → ℝ
  | .trace => k
  | .traceinv => k⁻¹
  | .density _ _ => k⁻¹
  | _ => 1

/-- What is added to the result, for each dimension. -/
noncomputable def scaledOffset (k : ℝ) : Api → ℝ
  | .logdet => Real.log k
  | _ => 0

variable [HasSqrt ℝ]

/-- A number of the convergence code, multiplied by `k`. -/
noncomputable def scaled (k : ℝ) (x : XR ℝ) : XR ℝ := XR.mul (.fin k) x

/-- The run whose samples and absolute tolerance are multiplied by `k`. -/
noncomputable def scaledConfig (k : ℝ) (cfg : Config (XR ℝ)) : Config (XR ℝ) :=
  { cfg with
    atol := scaled k cfg.atol
    value := fun i j => scaled k (cfg.value i j)
    mixedValue := fun i j => scaled k (cfg.mixedValue i j)
    garbageValue := fun i j => scaled k (cfg.garbageValue i j) }

/-- The same inquiry with its error multiplied by `k`. -/
noncomputable def scaledInquiry (k : ℝ) (q : Inquiry (XR ℝ)) : Inquiry (XR ℝ) := { q with error := scaled k q.error }

/-- The same state with the errors multiplied by `k`. -/
noncomputable def scaledState (k : ℝ) (s : State (XR ℝ)) : State (XR ℝ) := { s with inqs := s.inqs.map (scaledInquiry k) }

/-- The same result with its value and its error multiplied by `k`. -/
noncomputable def scaledAverage (k : ℝ) (r : Averaged (XR ℝ)) : Averaged (XR ℝ) :=
  ⟨scaled k r.trace, scaled k r.error, r.numOutliers⟩

end Imate.Spec
