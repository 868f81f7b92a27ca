import Verif.Model.Interpolator
import Verif.Model.Top

/-! The call of `schatten` by the interpolators. -/

namespace Imate.Interp

open Imate.Hutchinson Imate.Direct Imate.Top Matrix

variable {n : ℕ}

/-- `_compute_schatten` (_interpolant_base.py:140-149) for a dense matrix; a result that is complex or not finite is an
exception here. -/
noncomputable def schattenCall (env : Env) (p : Exponent) (method : String) (M : Matrix (Fin n) (Fin n) ℝ) :
    Except PyExc ℝ :=
  match schatten env (.array (.dense ⟨n, n, M⟩)) false (.num p) method with
  | .ok (some (.real s)) => .ok s
  | .ok _ => .error .valueError
  | .error e => .error e

/-- `InterpolateSchatten(A, B, p, options={'method': method})` for dense matrices. -/
noncomputable def Problem.ofCall (env : Env) (A : Matrix (Fin n) (Fin n) ℝ) (B : Option (Matrix (Fin n) (Fin n) ℝ))
    (p : Exponent) (method : String) : Problem n :=
  ⟨A, B, false, (p.val : ℝ), schattenCall env p method⟩

end Imate.Interp
