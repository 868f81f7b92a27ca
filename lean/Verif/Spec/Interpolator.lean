import Verif.Model.Interpolator
import Verif.Spec.Top
import Mathlib.LinearAlgebra.Matrix.PosDef
import Mathlib.MeasureTheory.Integral.IntervalIntegral.Basic

/-! Specification vocabulary for C40-C46: what is assumed of the spline routine and of the norm. -/

namespace Imate.Spec

open Imate.Interp Matrix

/-- An interpolation routine for increasing points: it returns a function through the points, and raises `ValueError`
for fewer than two points and for points that are not strictly increasing. -/
structure FitsPoints (fit : List (ℝ × ℝ) → Except PyExc (ℝ → ℝ)) : Prop where
  through : ∀ pts f, fit pts = .ok f → ∀ x ∈ pts, f x.1 = x.2
  ok : ∀ pts, 2 ≤ pts.length → (pts.map Prod.fst).Pairwise (· < ·) → ∃ f, fit pts = .ok f
  raises : ∀ pts, ¬ (2 ≤ pts.length ∧ (pts.map Prod.fst).Pairwise (· < ·)) → fit pts = .error .valueError

/-- What is assumed of `scipy.interpolate.CubicSpline`. -/
structure SplineSpec (lib : SplineLib) : Prop where
  notAKnot : FitsPoints lib.notAKnot
  clamped : FitsPoints lib.clamped

/-- An array is never equal to the empty list. -/
def NumpySpec (np : Numpy) : Prop := ∀ l, np.eqEmpty l ≠ .ok true

/-- The matrices are positive definite, and the norm of every positive definite matrix is computed and positive. -/
structure GoodProblem {n : ℕ} (P : Problem n) : Prop where
  posA : P.A.PosDef
  posB : ∀ B, P.B = some B → B.PosDef
  norm : ∀ M : Matrix (Fin n) (Fin n) ℝ, M.PosDef → ∃ s, 0 < s ∧ P.norm M = .ok s

/-- The norm is the documented Schatten norm of order `p`. -/
def ComputesSchatten {n : ℕ} (P : Problem n) : Prop :=
  ∀ M : Matrix (Fin n) (Fin n) ℝ, M.PosDef → P.norm M = .ok (schattenNorm M P.p)

/-- The interpolator returns the function value at `t`. -/
def ExactAt {n : ℕ} (P : Problem n) (f : Interpolator) (t : ℝ) : Prop :=
  ∃ s, P.eval t = .ok s ∧ P.interpolate f t = .ok (some s)

/-- A list or an array of points. -/
def IsPoints (ti : Points) (l : List ℝ) : Prop := ti = .list l ∨ ti = .array l

/-- The condition under which no point is cut off: the points increase, or all of them are inside the fixed
thresholds. -/
def RbfInside (l : List ℝ) : Prop :=
  l.Pairwise (· < ·) ∨ ∀ t ∈ l, -4.5 < Real.logb 10 t ∧ Real.logb 10 t < 3.5

/-- Options that the interpolators are documented for: a known basis, a positive scale, and for the Gaussian radial
functions points that are not cut off. -/
def SoundOptions (st : Settings) (kind : String) (l : List ℝ) : Prop :=
  (kind.toLower = "imbf" → st.basis ≠ .other) ∧ (kind.toLower = "crf" → 0 < st.scale.getD |st.opt|) ∧
    (kind.toLower = "rbf" → st.funcType = 2 → RbfInside l)

/-- The sizes and options for which a constructor accepts distinct points. -/
def AcceptedOptions (st : Settings) (kind : String) (l : List ℝ) : Prop :=
  kind.toLower = "ext" ∨
    kind.toLower = "mbf" ∧ l.length = 1 ∨
    kind.toLower = "imbf" ∧ (st.basis = .ortho → l.length ≤ 8) ∧ (st.basis = .ortho2 → l.length ≤ 9) ∨
    kind.toLower = "rbf" ∧ (st.funcType = 1 ∧ 2 ≤ l.length ∨ st.funcType = 2) ∨
    kind.toLower = "crf" ∧ (st.funcType = 1 ∨ st.funcType = 2) ∨
    kind.toLower = "spl" ∧ (st.funcType = 1 ∨ st.funcType = 2)

/-- The inner product of the package `ortho`, to which the documentation of the tables refers. -/
noncomputable def innerLog (f g : ℝ → ℝ) : ℝ := ∫ t in (0 : ℝ)..1, f t * g t / t

/-- For large `t` the interpolant returns numbers, and their quotient by `t` tends to `c`. -/
def GrowsLike {n : ℕ} (P : Problem n) (f : Interpolator) (c : ℝ) : Prop :=
  ∃ x : ℝ → ℝ, (∀ᶠ t in Filter.atTop, P.interpolate f t = .ok (some (x t))) ∧
    Filter.Tendsto (fun t => x t / t) Filter.atTop (nhds c)

/-- For large `t` the quotient of the interpolant and of the function itself tends to `c`. -/
def RatioTends {n : ℕ} (P : Problem n) (f : Interpolator) (c : ℝ) : Prop :=
  ∃ x s : ℝ → ℝ, (∀ᶠ t in Filter.atTop, P.interpolate f t = .ok (some (x t)) ∧ P.eval t = .ok (s t) ∧ 0 < s t) ∧
    Filter.Tendsto (fun t => x t / s t) Filter.atTop (nhds c)

/-- `nB` is the norm of `B`, which is one for the identity. -/
def IsNormB {n : ℕ} (P : Problem n) (nB : ℝ) : Prop :=
  0 < nB ∧ (P.B = none → nB = 1) ∧ ∀ B, P.B = some B → P.norm B = .ok nB

end Imate.Spec
