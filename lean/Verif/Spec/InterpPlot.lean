import Verif.Model.InterpPlot
import Verif.Spec.Interpolator

/-! Specification vocabulary for C90: what the plots of the interpolators are documented to show. -/

namespace Imate.Spec

open Imate.Interp Matrix

variable {n : ℕ}

/-- The function that a class interpolates, for the matrix `X`: the Schatten norm, the trace of the power, the logarithm
of the determinant. -/
noncomputable def functionOf (q : Quantity) (p : ℝ) (X : Matrix (Fin n) (Fin n) ℝ) : ℝ :=
  match q with
  | .schatten => schattenNorm X p
  | .trace => (cfc (fun x : ℝ => x ^ p) X).trace
  | .logdet => Real.log X.det

/-- The documented normalization: relative to the same function of `B`. -/
noncomputable def normalized (q : Quantity) (p : ℝ) (B : Matrix (Fin n) (Fin n) ℝ) (normalize : Bool) (y : ℝ) : ℝ :=
  if normalize then
    match q with
    | .logdet => y - functionOf q p B
    | _ => y / functionOf q p B
  else y

/-- The exact curve: the function at `A + tB`. -/
noncomputable def exactCurve (q : Quantity) (P : Problem n) (normalize : Bool) (t : ℝ) : ℝ :=
  normalized q P.p P.matB normalize (functionOf q P.p (P.A + t • P.matB))

/-- The function of a matrix whose Schatten norm is `v`. -/
noncomputable def ofNorm (q : Quantity) (n : ℕ) (p v : ℝ) : ℝ :=
  match q with
  | .schatten => v
  | .trace => n * v ^ p
  | .logdet => n * Real.log v

/-- The error of an interpolated value `y` for the exact value `e`: in percent, and absolute for the determinant. -/
noncomputable def plottedError (q : Quantity) (y e : ℝ) : ℝ :=
  match q with
  | .logdet => y - e
  | _ => 100 * (1 - y / e)

/-- The classes are used with their orders: `InterpolateLogdet` has `p = 0` and `InterpolateTrace` rejects it. -/
def OrderOf (q : Quantity) (p : ℝ) : Prop :=
  match q with
  | .schatten => True
  | .trace => p ≠ 0
  | .logdet => p = 0

/-- The problem: positive-definite matrices and the exact Schatten norm. -/
structure PlotProblem (P : Problem n) : Prop where
  size : 0 < n
  posA : P.A.PosDef
  posB : ∀ B, P.B = some B → B.PosDef
  schatten : ComputesSchatten P

/-- The interpolator was constructed by the class from a list or an array of points. -/
def Constructed (P : Problem n) (f : Interpolator) : Prop :=
  ∃ st kind ti l, IsPoints ti l ∧ P.create st kind ti = .ok f

/-- The function itself is plotted against `t`: all kinds but `crf` and `spl` of `InterpolateSchatten`. -/
def PlotsFunction (q : Quantity) (f : Interpolator) : Prop :=
  q = .schatten → (∀ m, f ≠ .crf m) ∧ ∀ m, f ≠ .spl m

/-- A value is outside of the limits of an axis. -/
def Hidden (limits : Option ℝ × Option ℝ) (y : ℝ) : Prop :=
  (∃ b, limits.1 = some b ∧ y < b) ∨ ∃ t, limits.2 = some t ∧ t < y

/-- The function type and the scale of the kinds `crf` and `spl`. -/
def finiteKind : Interpolator → Option (ℤ × ℝ)
  | .crf m => some (m.funcType, m.scale)
  | .spl m => some (m.funcType, 1)
  | _ => none

/-- The documented `y_p = τ(t) / (τ(0) + t) - 1`, and its label for the function type 2. -/
noncomputable def finiteCurve (k : ℤ) (tau : ℝ → ℝ) (tau0 t : ℝ) : ℝ :=
  if k = 1 then tau t / (tau0 + t) - 1 else (tau t - tau0) / t - 1

end Imate.Spec
