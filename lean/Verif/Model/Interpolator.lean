import Verif.Model.Eigenvalue
import Mathlib.Analysis.SpecialFunctions.Log.Base
import Mathlib.LinearAlgebra.Matrix.NonsingularInverse
import Mathlib.LinearAlgebra.Matrix.Trace
import Mathlib.RingTheory.Polynomial.Chebyshev

/-!
# The interpolators of the one-parameter function `t ↦ ‖A + tB‖_p`

`imate/interpolator/`.  Exact real arithmetic; `Option ℝ` is a number that is finite (`some`) or an infinity or a NaN
(`none`).  Plotting is in `InterpPlot`.  Not modelled: printing, and keyword arguments that a method does not know (`TypeError`).
-/

namespace Imate.Interp

open Matrix

variable {n : ℕ}

/-! ### Arguments -/

/-- The argument `ti`. -/
inductive Points where
  | none
  | float (x : ℝ)
  | int (k : ℤ)
  | list (l : List ℝ)
  /-- a one-dimensional `numpy` array -/
  | array (l : List ℝ)

/-- The part of `numpy` that differs between its versions: the truth value of `array == []`. -/
structure Numpy where
  eqEmpty : List ℝ → Except PyExc Bool

/-- Before version 1.25 a comparison of arrays whose shapes do not fit is `False`, and so is the truth value of an
empty array. -/
def numpyOld : Numpy := ⟨fun _ => .ok false⟩

/-- From version 1.25 a comparison of arrays whose shapes do not fit raises `ValueError`. -/
def numpy125 : Numpy := ⟨fun l => if 2 ≤ l.length then .error .valueError else .ok false⟩

/-- `ti == []` -/
def Points.eqEmpty (np : Numpy) : Points → Except PyExc Bool
  | .list l => .ok l.isEmpty
  | .array l => np.eqEmpty l
  | _ => .ok false

/-- `list(ti)` -/
def Points.toList : Points → Except PyExc (List ℝ)
  | .list l | .array l => .ok l
  | _ => .error .typeError

/-- The matrices and the function `schatten(·, p=p, **options)`, which raises or returns a number; not modelled: results
that are not real or not finite. -/
structure Problem (n : ℕ) where
  A : Matrix (Fin n) (Fin n) ℝ
  /-- `None` stands for the identity -/
  B : Option (Matrix (Fin n) (Fin n) ℝ)
  sparse : Bool
  p : ℝ
  norm : Matrix (Fin n) (Fin n) ℝ → Except PyExc ℝ

/-- `self.B` (_interpolant_base.py:90-102). -/
def Problem.matB (P : Problem n) : Matrix (Fin n) (Fin n) ℝ := P.B.getD 1

/-! ### The base class -/

/-- `eval`, `_compute` (_interpolant_base.py:204-231). -/
def Problem.eval (P : Problem n) (t : ℝ) : Except PyExc ℝ := P.norm (P.A + t • P.matB)

/-- `_compute_schatten_of_input_matrices` (_interpolant_base.py:155-174): `tau0` and `schatten_B`.  A zero `schatten_B`
gives numbers that are not finite; every use of them below returns `none` in that case. -/
noncomputable def Problem.inputNorms (P : Problem n) : Except PyExc (ℝ × ℝ) := do
  let a ← P.norm P.A
  let b ← match P.B with
    | Option.none => .ok 1
    | some B => P.norm B
  .ok (a / b, b)

/-- `_compute_for_array` (_interpolant_base.py:237-263) and the quotient of line 131: the pairs of `t_i`, `tau_i`. -/
noncomputable def Problem.dataAt (P : Problem n) (b : ℝ) (l : List ℝ) : Except PyExc (List (ℝ × ℝ)) :=
  l.mapM fun t => do
    let s ← P.eval t
    .ok (t, s / b)

/-- The attributes `tau0`, `schatten_B`, `t_i`, `tau_i` after construction with points. -/
structure Base where
  tau0 : ℝ
  normB : ℝ
  nodes : List (ℝ × ℝ)

/-- `InterpolantBase.__init__` (_interpolant_base.py:67-134) for `ti` that is not `None`. -/
noncomputable def Problem.base (P : Problem n) (ti : Points) : Except PyExc Base := do
  let r ← P.inputNorms
  let l ← ti.toList
  let nodes ← P.dataAt r.2 l
  .ok ⟨r.1, r.2, nodes⟩

/-- `find_scale_ti` (_interpolant_base.py:180-198). -/
def scaleT (nodes : List (ℝ × ℝ)) : ℝ := (nodes.map Prod.fst).foldr max 1

/-- `bound` (_interpolant_base.py:306-342). -/
noncomputable def Problem.bound (P : Problem n) (t : ℝ) : Except PyExc (Option ℝ) := do
  let r ← P.inputNorms
  .ok (if r.2 = 0 then Option.none else some ((r.1 + t) * r.2))

/-- `upper_bound` (_interpolant_base.py:269-300); `numpy.trace` of a sparse matrix raises `ValueError`. -/
noncomputable def Problem.upperBound (P : Problem n) (t : ℝ) : Except PyExc (Option ℝ) :=
  if P.p ≠ -1 then .error .valueError
  else if P.sparse then .error .valueError
  else
    let d := P.A.trace + t * P.matB.trace
    .ok (if d = 0 ∨ n = 0 then Option.none
      else match Eigen.powR ((n : ℝ) ^ 2 / d / n) (1 / P.p) with
        | .fin y => some y
        | _ => Option.none)

/-- `schatten = tau * self.schatten_B` -/
noncomputable def Base.finish (b : Base) (tau : Option ℝ) : Option ℝ :=
  if b.normB = 0 then Option.none else tau.map (· * b.normB)

/-! ### `numpy.linalg.solve` and `numpy.linalg.inv` -/

/-- `numpy.linalg.solve(C, b)` in exact arithmetic: raises when `C` is singular. -/
noncomputable def solve {k : ℕ} (C : Matrix (Fin k) (Fin k) ℝ) (b : Fin k → ℝ) : Except PyExc (Fin k → ℝ) :=
  open Classical in if C.det = 0 then .error .linAlgError else .ok (C⁻¹ *ᵥ b)

/-! ### Monomial basis functions (`mbf`) -/

structure Mbf where
  base : Base
  t1 : ℝ
  tau1 : ℝ

/-- `MonomialBasisFunctionsMethod.__init__` (_monomial_basis_functions_method.py:380-395) after the base class: the
point `t1`. -/
noncomputable def mbfPoint (np : Numpy) (tau0 : ℝ) (ti : Points) : Except PyExc ℝ := do
  let e ← ti.eqEmpty np
  if e then .ok (1 / tau0)
  else match ti with
    | .none => .error .attributeError
    | .float x => .ok x
    | .int k => .ok k
    | .list l | .array l =>
      match l with
      | [t] => .ok t
      | _ => .error .typeError

/-- `MonomialBasisFunctionsMethod.__init__` (_monomial_basis_functions_method.py:369-424).  With `ti=None` the base class
returns early and `ti.size` raises `AttributeError`. -/
noncomputable def Problem.mbf (P : Problem n) (np : Numpy) (ti : Points) : Except PyExc Mbf :=
  match ti with
  | .none => .error .attributeError
  | ti => do
    let b ← P.base ti
    let t1 ← mbfPoint np b.tau0 ti
    let s ← P.eval t1
    .ok ⟨b, t1, s / b.normB⟩

/-- `MonomialBasisFunctionsMethod.interpolate` (_monomial_basis_functions_method.py:433-453). -/
noncomputable def Mbf.interpolate (m : Mbf) (t : ℝ) : Option ℝ :=
  m.base.finish <|
    if m.t1 = 0 then Option.none
    else
      let r := t ^ 2 + (m.tau1 ^ 2 - m.base.tau0 ^ 2 - m.t1 ^ 2) * (t / m.t1) + m.base.tau0 ^ 2
      if r < 0 then Option.none else some (Real.sqrt r)

/-! ### Inverse monomial basis functions (`imbf`) -/

/-- The argument `basis_func_type`. -/
inductive Basis where
  | nonOrtho
  | ortho
  | ortho2
  | other
  deriving DecidableEq

/-- `phi` (_inverse_monomial_basis_functions_method.py:534-549) for `t` that is not negative. -/
noncomputable def phi (i : ℕ) (t : ℝ) : ℝ := t ^ (1 / (i : ℝ))

/-- The table `a` for `'ortho'` (_inverse_monomial_basis_functions_method.py:682-692). -/
def tableOrtho : List (List ℤ) :=
  [[1], [4, -3], [9, -18, 10], [16, -60, 80, -35], [25, -150, 350, -350, 126],
    [36, -315, 1120, -1890, 1512, -462], [49, -588, 2940, -7350, 9702, -6468, 1716],
    [64, -1008, 6720, -23100, 44352, -48048, 27456, -6435],
    [81, -1620, 13860, -62370, 162162, -252252, 231660, -115830, 24310]]

/-- The table `a` for `'ortho2'` (_inverse_monomial_basis_functions_method.py:706-717). -/
def tableOrtho2 : List (List ℤ) :=
  [[1], [6, -5], [20, -40, 21], [50, -175, 210, -84], [105, -560, 1134, -1008, 330],
    [196, -1470, 4410, -6468, 4620, -1287], [336, -3360, 13860, -29568, 34320, -20592, 5005],
    [540, -6930, 37422, -108108, 180180, -173745, 90090, -19448],
    [825, -13200, 90090, -336336, 750750, -1029600, 850850, -388960, 75582]]

/-- `a[j, i]`: the array has nine rows and columns and is zero where no row is given
(_inverse_monomial_basis_functions_method.py:667-719). -/
def tableGet (a : List (List ℤ)) (j i : ℕ) : ℤ := ((a[j]?.getD [])[i]?).getD 0

/-- `alpha[j]` for `'ortho'` (_inverse_monomial_basis_functions_method.py:671-680). -/
noncomputable def alphaOrtho (j : ℕ) : ℝ := (-1) ^ j * Real.sqrt (2 / ((j : ℝ) + 1))

/-- `alpha[j]` for `'ortho2'` (_inverse_monomial_basis_functions_method.py:695-704). -/
noncomputable def alphaOrtho2 (j : ℕ) : ℝ := (-1) ^ j * Real.sqrt (2 / ((j : ℝ) + 2))

/-- `basis_functions` (_inverse_monomial_basis_functions_method.py:555-625) without the check of the index. -/
noncomputable def basisFun (basis : Basis) (j : ℕ) (t : ℝ) : ℝ :=
  match basis with
  | .nonOrtho => phi (j + 2) t
  | .ortho => ∑ i ∈ Finset.range 9, alphaOrtho j * (tableGet tableOrtho j i : ℝ) * phi (i + 1) t
  | .ortho2 => ∑ i ∈ Finset.range 9, alphaOrtho2 j * (tableGet tableOrtho2 j i : ℝ) * phi (i + 2) t
  | .other => 0

structure Imbf where
  base : Base
  basis : Basis
  /-- the size of `self.w` -/
  k : ℕ
  w : Fin k → ℝ

/-- The points and values as functions of the index. -/
def Base.t (b : Base) (i : Fin b.nodes.length) : ℝ := (b.nodes.get i).1
def Base.tau (b : Base) (i : Fin b.nodes.length) : ℝ := (b.nodes.get i).2

/-- `C` and `b` of the lines 460-464 and 510-514; the points are divided by `scale_t` for `'ortho2'` only. -/
noncomputable def imbfMatrix (basis : Basis) (b : Base) (s : ℝ) :
    Matrix (Fin b.nodes.length) (Fin b.nodes.length) ℝ :=
  Matrix.of fun i j => basisFun basis j (b.t i / s)

/-- `C` of the lines 485-491: `q` rows of basis functions and one row for the coefficient of `t`. -/
noncomputable def imbfMatrixOrtho (b : Base) :
    Matrix (Fin (b.nodes.length + 1)) (Fin (b.nodes.length + 1)) ℝ :=
  Matrix.of fun i j =>
    if h : (i : ℕ) < b.nodes.length then basisFun .ortho j (b.t ⟨i, h⟩ / scaleT b.nodes)
    else alphaOrtho j * (tableGet tableOrtho j 0 : ℝ)

/-- `b` of the lines 482-484. -/
noncomputable def imbfRhsOrtho (b : Base) (i : Fin (b.nodes.length + 1)) : ℝ :=
  if h : (i : ℕ) < b.nodes.length then b.tau ⟨i, h⟩ - b.tau0 else 1

/-- `initialize_interpolator` (_inverse_monomial_basis_functions_method.py:447-527) for points that are not negative.
With more than nine points the formatting of the message of the `ValueError` raises `TypeError` (the operator `%` binds
to the last piece of the string); with nine points and `'ortho'` the index 9 of `alpha` raises `IndexError`.  An unknown
basis sets nothing (`k = 0`). -/
noncomputable def imbfInit (basis : Basis) (b : Base) : Except PyExc Imbf :=
  match basis with
  | .nonOrtho => do
    let w ← solve (imbfMatrix .nonOrtho b 1) fun i => b.tau i - b.tau0 - b.t i
    .ok ⟨b, .nonOrtho, _, w⟩
  | .ortho =>
    if 9 < b.nodes.length then .error .typeError
    else if 9 < b.nodes.length + 1 then .error .indexError
    else do
      let w ← solve (imbfMatrixOrtho b) (imbfRhsOrtho b)
      .ok ⟨b, .ortho, _, w⟩
  | .ortho2 =>
    if 9 < b.nodes.length then .error .typeError
    else do
      let w ← solve (imbfMatrix .ortho2 b (scaleT b.nodes)) fun i => b.tau i - b.tau0 - b.t i
      .ok ⟨b, .ortho2, _, w⟩
  | .other => .ok ⟨b, .other, 0, fun _ => 0⟩

/-- `if (ti is None) or (ti == [])` (_inverse_monomial_basis_functions_method.py:428, and the same line of the radial
and the spline method). -/
def checkPoints (np : Numpy) (ti : Points) : Except PyExc Unit :=
  match ti with
  | .none => .error .valueError
  | ti => do
    let e ← ti.eqEmpty np
    if e then .error .valueError else .ok ()

/-- `InverseMonomialBasisFunctionsMethod.__init__` (_inverse_monomial_basis_functions_method.py:421-441). -/
noncomputable def Problem.imbf (P : Problem n) (np : Numpy) (ti : Points) (basis : Basis) : Except PyExc Imbf := do
  checkPoints np ti
  let b ← P.base ti
  imbfInit basis b

/-- `interpolate` (_inverse_monomial_basis_functions_method.py:725-783); the roots of a negative `t` are NaN. -/
noncomputable def Imbf.interpolate (m : Imbf) (t : ℝ) : Except PyExc (Option ℝ) :=
  match m.basis with
  | .nonOrtho => .ok <| m.base.finish <|
      if t < 0 then Option.none else some (m.base.tau0 + (∑ j, m.w j * basisFun .nonOrtho j t) + t)
  | .ortho => .ok <| m.base.finish <|
      if t < 0 then Option.none
      else some (m.base.tau0 + ∑ j, m.w j * basisFun .ortho j (t / scaleT m.base.nodes))
  | .ortho2 => .ok <| m.base.finish <|
      if t < 0 then Option.none
      else some (m.base.tau0 + (∑ j, m.w j * basisFun .ortho2 j (t / scaleT m.base.nodes)) + t)
  | .other => .error .unboundLocal

/-! ### Splines and radial basis functions (`spl`, `rbf`) -/

/-- `scipy.interpolate.CubicSpline(x, y)` and `CubicSpline(x, y, bc_type=((1, 0.0), (2, 0)))`. -/
structure SplineLib where
  notAKnot : List (ℝ × ℝ) → Except PyExc (ℝ → ℝ)
  clamped : List (ℝ × ℝ) → Except PyExc (ℝ → ℝ)

structure Fitted where
  base : Base
  funcType : ℤ
  f : ℝ → ℝ
  low : ℝ
  high : ℝ

/-- `(t - 1.0) / (t + 1.0)` -/
noncomputable def mobius (t : ℝ) : ℝ := (t - 1) / (t + 1)

/-- `yi` of the function type 1 (_spline_method.py:399 and _chebyshev_rational_functions_method.py:637). -/
noncomputable def ratio1 (tau0 : ℝ) (x : ℝ × ℝ) : ℝ := x.2 / (tau0 + x.1) - 1

/-- `yi` of the function type 2 (_spline_method.py:401 and _chebyshev_rational_functions_method.py:639). -/
noncomputable def ratio2 (tau0 : ℝ) (x : ℝ × ℝ) : ℝ := (x.2 - tau0) / x.1 - 1

/-- `initialize_interpolator` (_spline_method.py:390-417); the spline raises `ValueError` for numbers that are not
finite. -/
noncomputable def splineInit (lib : SplineLib) (funcType : ℤ) (b : Base) : Except PyExc Fitted :=
  open Classical in
  if funcType = 1 then
    if (∃ x ∈ b.nodes, b.tau0 + x.1 = 0 ∨ x.1 + 1 = 0) then .error .valueError
    else do
      let f ← lib.notAKnot ((-1, 0) :: b.nodes.map (fun x => (mobius x.1, ratio1 b.tau0 x)) ++ [(1, 0)])
      .ok ⟨b, funcType, f, 0, 0⟩
  else if funcType = 2 then
    if (∃ x ∈ b.nodes, x.1 = 0 ∨ x.1 + 1 = 0) then .error .valueError
    else do
      let f ← lib.notAKnot (b.nodes.map (fun x => (mobius x.1, ratio2 b.tau0 x)) ++ [(1, 0)])
      .ok ⟨b, funcType, f, 0, 0⟩
  else .error .valueError

/-- `SplineMethod.__init__` (_spline_method.py:366-384). -/
noncomputable def Problem.spline (P : Problem n) (np : Numpy) (lib : SplineLib) (ti : Points) (funcType : ℤ) :
    Except PyExc Fitted := do
  checkPoints np ti
  let b ← P.base ti
  splineInit lib funcType b

/-- `SplineMethod.interpolate` (_spline_method.py:423-450). -/
noncomputable def Fitted.spline (m : Fitted) (t : ℝ) : Except PyExc (Option ℝ) :=
  if m.funcType = 1 then
    .ok <| m.base.finish <| if t + 1 = 0 then Option.none else some ((m.f (mobius t) + 1) * (m.base.tau0 + t))
  else if m.funcType = 2 then
    .ok <| m.base.finish <| if t + 1 = 0 then Option.none else some ((m.f (mobius t) + 1) * t + m.base.tau0)
  else .error .valueError

/-- `numpy.mean(numpy.diff(x))` -/
noncomputable def meanDiff (x : List ℝ) : ℝ := (List.zipWith (· - ·) x.tail x).sum / (x.length - 1 : ℕ)

/-- `dxi` (_radial_basis_functions_method.py:412-415). -/
noncomputable def rbfStep (x : List ℝ) : ℝ := if 1 < x.length then meanDiff x else 1

/-- `numpy.min`, `numpy.max` -/
def listMin : List ℝ → ℝ
  | [] => 0
  | [x] => x
  | x :: y :: l => min x (listMin (y :: l))
def listMax : List ℝ → ℝ
  | [] => 0
  | [x] => x
  | x :: y :: l => max x (listMax (y :: l))

/-- `low_log_threshold` (_radial_basis_functions_method.py:428, 433-434). -/
noncomputable def rbfLow (x : List ℝ) : ℝ := if listMin x ≤ -4.5 then listMin x - rbfStep x else -4.5

/-- `high_log_threshold` (_radial_basis_functions_method.py:429, 435-436). -/
noncomputable def rbfHigh (x : List ℝ) : ℝ := if (3.5 : ℝ) ≤ listMax x then listMax x + rbfStep x else 3.5

/-- The function of `scipy.interpolate.Rbf(x, y, function='gaussian', epsilon=eps)`. -/
noncomputable def gauss (eps r : ℝ) : ℝ := Real.exp (-((r / eps) ^ 2))

/-- `scipy.interpolate.Rbf(x, y, function='gaussian', epsilon=eps)`: weights from a linear system, and the sum; a zero
`eps` puts a NaN into the system, which raises `ValueError`. -/
noncomputable def rbfFit (pts : List (ℝ × ℝ)) (eps : ℝ) : Except PyExc (ℝ → ℝ) :=
  if eps = 0 then .error .valueError
  else do
    let w ← solve (Matrix.of fun i j : Fin pts.length => gauss eps |(pts.get i).1 - (pts.get j).1|)
      fun i => (pts.get i).2
    .ok fun x => ∑ j, w j * gauss eps |x - (pts.get j).1|

/-- The three zeros on each side (_radial_basis_functions_method.py:439-447). -/
noncomputable def rbfExtend (low high d : ℝ) (pts : List (ℝ × ℝ)) : List (ℝ × ℝ) :=
  [(low - d, 0), (low - d / 2, 0), (low, 0)] ++ pts ++ [(high, 0), (high + d / 2, 0), (high + d, 0)]

/-- `initialize_interpolator` (_radial_basis_functions_method.py:401-489).  A point that is not positive has no finite
logarithm, and both fits raise `ValueError`; so does the division of line 423 by zero. -/
noncomputable def rbfInit (lib : SplineLib) (funcType : ℤ) (b : Base) : Except PyExc Fitted :=
  open Classical in
  let x := b.nodes.map fun x => Real.logb 10 x.1
  if ¬ (funcType = 1 ∨ funcType = 2) then .error .valueError
  else if ∃ x ∈ b.nodes, x.1 ≤ 0 then .error .valueError
  else if funcType = 1 then do
    let f ← lib.clamped (b.nodes.map fun x => (Real.logb 10 x.1, x.2 - b.tau0 - x.1))
    .ok ⟨b, funcType, f, rbfLow x, rbfHigh x⟩
  else if ∃ x ∈ b.nodes, b.tau0 + x.1 = 0 then .error .valueError
  else do
    let f ← rbfFit (rbfExtend (rbfLow x) (rbfHigh x) (rbfStep x)
      (b.nodes.map fun x => (Real.logb 10 x.1, ratio1 b.tau0 x))) (rbfStep x)
    .ok ⟨b, funcType, f, rbfLow x, rbfHigh x⟩

/-- `RadialBasisFunctionsMethod.__init__` (_radial_basis_functions_method.py:377-395). -/
noncomputable def Problem.rbf (P : Problem n) (np : Numpy) (lib : SplineLib) (ti : Points) (funcType : ℤ) :
    Except PyExc Fitted := do
  checkPoints np ti
  let b ← P.base ti
  rbfInit lib funcType b

/-- `y` of `RadialBasisFunctionsMethod.interpolate` (_radial_basis_functions_method.py:511-515): `log10(0)` is below
every threshold, the logarithm of a negative number is a NaN and goes to the fitted function. -/
noncomputable def Fitted.rbfY (m : Fitted) (t : ℝ) : Option ℝ :=
  if t < 0 then Option.none
  else if t = 0 then some 0
  else if Real.logb 10 t < m.low ∨ m.high < Real.logb 10 t then some 0
  else some (m.f (Real.logb 10 t))

/-- `RadialBasisFunctionsMethod.interpolate` (_radial_basis_functions_method.py:495-525). -/
noncomputable def Fitted.rbf (m : Fitted) (t : ℝ) : Except PyExc (Option ℝ) :=
  if m.funcType = 1 then .ok <| m.base.finish <| (m.rbfY t).map fun y => y + m.base.tau0 + t
  else if m.funcType = 2 then .ok <| m.base.finish <| (m.rbfY t).map fun y => (y + 1) * (m.base.tau0 + t)
  else .error .valueError

/-! ### Chebyshev rational functions (`crf`) -/

/-- `chebyshev_rational_roots` (_chebyshev_rational_functions_method.py:471-490): the roots of the Chebyshev polynomial
in increasing order, mapped to the half line; `roots_chebyt` raises `ValueError` for a degree below one. -/
noncomputable def chebyshevRationalRoots (degree : ℤ) : Except PyExc (List ℝ) :=
  if degree < 1 then .error .valueError
  else .ok <| (List.range degree.toNat).map fun k : ℕ =>
    let x := -Real.cos ((2 * (k : ℝ) + 1) * Real.pi / (2 * degree))
    (1 + x) / (1 - x)

/-- `eval_chebyt(j, x)` -/
noncomputable def chebyt (j : ℕ) (x : ℝ) : ℝ := (Polynomial.Chebyshev.T ℝ (j : ℤ)).eval x

/-- `0.5 * (1.0 - eval_chebyt(j+1, x))` (_chebyshev_rational_functions_method.py:518-519, 691). -/
noncomputable def crfFun (j : ℕ) (x : ℝ) : ℝ := 0.5 * (1 - chebyt (j + 1) x)

structure Crf where
  base : Base
  funcType : ℤ
  scale : ℝ
  /-- the size of `self.coeff` -/
  k : ℕ
  /-- `none` when the system holds numbers that are not finite -/
  coeff : Option (Fin k → ℝ)

/-- The points and values of the linear system (_chebyshev_rational_functions_method.py:506-513). -/
noncomputable def crfPoints (funcType : ℤ) (scale : ℝ) (b : Base) : List (ℝ × ℝ) :=
  let pts := b.nodes.map fun x =>
    (mobius (x.1 / |scale|), if funcType = 1 then ratio1 b.tau0 x else ratio2 b.tau0 x)
  if funcType = 1 then (-1, 0) :: pts else pts

/-- `linear_system` (_chebyshev_rational_functions_method.py:496-524). -/
noncomputable def crfMatrix (pts : List (ℝ × ℝ)) : Matrix (Fin pts.length) (Fin pts.length) ℝ :=
  Matrix.of fun i j => crfFun j (pts.get i).1

/-- A division by zero among the points and values. -/
def crfNonFinite (funcType : ℤ) (scale : ℝ) (b : Base) : Prop :=
  scale = 0 ∨ ∃ x ∈ b.nodes, x.1 / |scale| + 1 = 0 ∨
    (if funcType = 1 then b.tau0 + x.1 = 0 else x.1 = 0)

/-- `initialize_interpolator` (_chebyshev_rational_functions_method.py:628-660).  `opt` is the point that the
minimisation of the curvature returns; nothing is assumed of it. -/
noncomputable def crfInit (opt : ℝ) (scale : Option ℝ) (funcType : ℤ) (b : Base) : Except PyExc Crf :=
  open Classical in
  if ¬ (funcType = 1 ∨ funcType = 2) then .error .valueError
  else
    let s := scale.getD |opt|
    if crfNonFinite funcType s b then .ok ⟨b, funcType, s, (crfPoints funcType s b).length, Option.none⟩
    else do
      let w ← solve (crfMatrix (crfPoints funcType s b)) fun i => ((crfPoints funcType s b).get i).2
      .ok ⟨b, funcType, s, (crfPoints funcType s b).length, some w⟩

/-- The points of `ChebyshevRationalFunctionsMethod.__init__` (_chebyshev_rational_functions_method.py:441-451). -/
noncomputable def crfPointsArg (np : Numpy) (ti : Points) : Except PyExc Points :=
  match ti with
  | .none => .error .valueError
  | .float _ => .error .valueError
  | .int k => do
    let l ← chebyshevRationalRoots k
    .ok (.array l)
  | ti => do
    let e ← ti.eqEmpty np
    if e then .error .valueError else .ok ti

/-- `ChebyshevRationalFunctionsMethod.__init__` (_chebyshev_rational_functions_method.py:435-464). -/
noncomputable def Problem.crf (P : Problem n) (np : Numpy) (opt : ℝ) (ti : Points) (scale : Option ℝ)
    (funcType : ℤ) : Except PyExc Crf := do
  let ti ← crfPointsArg np ti
  let b ← P.base ti
  crfInit opt scale funcType b

/-- `y` of `interpolate` (_chebyshev_rational_functions_method.py:686-691); the sign of `scale` is kept here. -/
noncomputable def Crf.y (m : Crf) (t : ℝ) : Option ℝ :=
  if m.scale = 0 ∨ t / m.scale + 1 = 0 then Option.none
  else m.coeff.map fun w => ∑ j : Fin m.k, w j * crfFun j (mobius (t / m.scale))

/-- `ChebyshevRationalFunctionsMethod.interpolate` (_chebyshev_rational_functions_method.py:670-706). -/
noncomputable def Crf.interpolate (m : Crf) (t : ℝ) : Except PyExc (Option ℝ) :=
  if m.funcType = 1 then .ok <| m.base.finish <| (m.y t).map fun y => (y + 1) * (m.base.tau0 + t)
  else if m.funcType = 2 then .ok <| m.base.finish <| (m.y t).map fun y => (y + 1) * t + m.base.tau0
  else .error .valueError

/-! ### Rational polynomials (`rpf`) -/

/-- `numpy.polyval` -/
def polyval {K : Type} [Semiring K] (c : List K) (t : K) : K := c.foldl (fun acc a => acc * t + a) 0

structure Rpf where
  base : Base
  num : List ℝ
  den : List ℝ

/-- `C` (_rational_polynomial_functions_method.py:414-424). -/
noncomputable def rpfMatrix (q : ℕ) (tau0 : ℝ) (t tau : Fin (2 * q) → ℝ) : Matrix (Fin (2 * q)) (Fin (2 * q)) ℝ :=
  Matrix.of fun i j =>
    if (j : ℕ) = 0 then 1 - tau i / tau0
    else if (j : ℕ) ≤ q then t i ^ (j : ℕ)
    else -tau i * t i ^ ((j : ℕ) - q)

/-- `c` (_rational_polynomial_functions_method.py:418). -/
noncomputable def rpfRhs (q : ℕ) (t tau : Fin (2 * q) → ℝ) (i : Fin (2 * q)) : ℝ := tau i * t i ^ q - t i ^ (q + 1)

/-- `numerator` and `denominator` (_rational_polynomial_functions_method.py:432-440). -/
noncomputable def rpfNum (q : ℕ) (x : Fin (2 * q) → ℝ) : List ℝ := 1 :: ((List.ofFn x).take (q + 1)).reverse
noncomputable def rpfDen (q : ℕ) (tau0 : ℝ) (x : Fin (2 * q) → ℝ) : List ℝ :=
  1 :: (((List.ofFn x).headD 0 / tau0) :: (List.ofFn x).drop (q + 1)).reverse

/-- `numpy.any(numpy.roots(denominator) > 0)` (_rational_polynomial_functions_method.py:443-444): complex numbers are
compared by their real parts first. -/
def positivePole (den : List ℝ) : Prop := ∃ z : ℂ, polyval (den.map ((↑) : ℝ → ℂ)) z = 0 ∧ Eigen.ltC 0 z

/-- `fit_rational_poly` (_rational_polynomial_functions_method.py:382-449).  With a zero `tau0` the system is not finite
and `numpy.roots` raises `LinAlgError`. -/
noncomputable def rpfInit (b : Base) : Except PyExc Rpf :=
  open Classical in
  let q := b.nodes.length / 2
  if h : 2 * q = b.nodes.length then
    if b.tau0 = 0 then .error .linAlgError
    else do
      let t : Fin (2 * q) → ℝ := fun i => b.t (i.cast h)
      let tau : Fin (2 * q) → ℝ := fun i => b.tau (i.cast h)
      let x ← solve (rpfMatrix q b.tau0 t tau) (rpfRhs q t tau)
      if positivePole (rpfDen q b.tau0 x) then .error .valueError
      else .ok ⟨b, rpfNum q x, rpfDen q b.tau0 x⟩
  else .error .valueError

/-- `RationalPolynomialFunctionsMethod.__init__` (_rational_polynomial_functions_method.py:361-376); here the emptiness
of `ti` is tested with `list(ti) == []`. -/
noncomputable def Problem.rpf (P : Problem n) (ti : Points) : Except PyExc Rpf :=
  match ti with
  | .none => .error .valueError
  | ti => do
    let l ← ti.toList
    if l = [] then .error .valueError
    else do
      let b ← P.base ti
      rpfInit b

/-- `interpolate` (_rational_polynomial_functions_method.py:497-515). -/
noncomputable def Rpf.interpolate (m : Rpf) (t : ℝ) : Option ℝ :=
  m.base.finish <| if polyval m.den t = 0 then Option.none else some (polyval m.num t / polyval m.den t)

/-! ### Eigenvalues (`eig`) and exact evaluation (`ext`) -/

/-- `EigenvaluesMethod.__init__`, `initialize_interpolator` (_eigenvalues_method.py:289-376).  `B` has to be `None`, so
that its eigenvalues are one.  For a sparse matrix a fraction of the eigenvalues is computed and the rest is zero. -/
noncomputable def Problem.eig (P : Problem n) (lib : Eigen.Lib) (ratio : ℚ) : Except PyExc (List ℝ) :=
  match P.B with
  | some _ => .error .valueError
  | Option.none =>
    if P.sparse then do
      let k := Eigen.numNonZero n ratio
      let l ← lib.eigsh .largest k n P.A
      .ok (l ++ List.replicate (n - k) 0)
    else .ok (lib.eigh n P.A)

/-- A sum of powers; one that is not finite makes the sum not finite. -/
noncomputable def powSum (p : ℝ) (l : List ℝ) : Option ℝ :=
  Eigen.sumOpt (l.map fun x => match Eigen.powR x p with
    | .fin y => some y
    | _ => Option.none)

/-- `EigenvaluesMethod.interpolate` (_eigenvalues_method.py:382-414).  The logarithm of zero is `-inf` and its
exponential is zero. -/
noncomputable def eigInterpolate (n : ℕ) (p : ℝ) (l : List ℝ) (t : ℝ) : Option ℝ :=
  open Classical in
  let e := l.map (· + t)
  if p = 0 then
    if 0 ∈ e then some 0 else some (Real.exp ((e.map fun x => Real.log |x|).sum / n))
  else (powSum p e).bind fun s => match Eigen.powR (s / n) (1 / p) with
    | .fin y => some y
    | _ => Option.none

/-! ### `InterpolateSchatten` -/

/-- Keyword arguments of the methods, the external routines, and the point of the minimisation. -/
structure Settings where
  np : Numpy
  spline : SplineLib
  eig : Eigen.Lib
  opt : ℝ
  basis : Basis
  funcType : ℤ
  scale : Option ℝ
  ratio : ℚ

/-- `self.interpolator` -/
inductive Interpolator where
  | ext
  | eig (l : List ℝ)
  | mbf (m : Mbf)
  | imbf (m : Imbf)
  | rbf (m : Fitted)
  | crf (m : Crf)
  | spl (m : Fitted)
  | rpf (m : Rpf)

/-- `InterpolateSchatten.__init__` (interpolate_schatten.py:426-492). -/
noncomputable def Problem.create (P : Problem n) (st : Settings) (kind : String) (ti : Points) :
    Except PyExc Interpolator :=
  if kind.toLower = "ext" then .ok .ext
  else if kind.toLower = "eig" then (P.eig st.eig st.ratio).map .eig
  else if kind.toLower = "mbf" then (P.mbf st.np ti).map .mbf
  else if kind.toLower = "imbf" then (P.imbf st.np ti st.basis).map .imbf
  else if kind.toLower = "rbf" then (P.rbf st.np st.spline ti st.funcType).map .rbf
  else if kind.toLower = "crf" then (P.crf st.np st.opt ti st.scale st.funcType).map .crf
  else if kind.toLower = "spl" then (P.spline st.np st.spline ti st.funcType).map .spl
  else if kind.toLower = "rpf" then (P.rpf ti).map .rpf
  else .error .valueError

/-- `self.interpolator.interpolate(t)` -/
noncomputable def Problem.interpolate (P : Problem n) (f : Interpolator) (t : ℝ) : Except PyExc (Option ℝ) :=
  match f with
  | .ext => (P.eval t).map some
  | .eig l => .ok (eigInterpolate n P.p l t)
  | .mbf m => .ok (m.interpolate t)
  | .imbf m => m.interpolate t
  | .rbf m => m.rbf t
  | .crf m => m.interpolate t
  | .spl m => m.spline t
  | .rpf m => .ok (m.interpolate t)

/-- The inquiry points: a number or an array, and the answers. -/
inductive Query (α : Type) where
  | num (x : α)
  | arr (l : List α)

/-- `eval`, `interpolate`, `bound` and `upper_bound` of `InterpolateSchatten` (interpolate_schatten.py:666-676, 779-789,
920-930, 1048-1058): a number, or one value for each point of an array. -/
def Query.each {α β : Type} (g : α → Except PyExc β) : Query α → Except PyExc (Query β)
  | .num x => (g x).map .num
  | .arr l => (l.mapM g).map .arr

/-! ### `InterpolateTrace` and `InterpolateLogdet` -/

/-- `InterpolateTrace.__init__` (interpolate_trace.py:379-392). -/
noncomputable def Problem.createTrace (P : Problem n) (st : Settings) (kind : String) (ti : Points) :
    Except PyExc Interpolator :=
  open Classical in if P.p = 0 then .error .valueError else P.create st kind ti

/-- `_schatten_to_tracep` (interpolate_trace.py:398-404). -/
noncomputable def toTracep (n : ℕ) (p : ℝ) (s : Option ℝ) : Option ℝ :=
  s.bind fun s => match Eigen.powR s p with
    | .fin y => some (y * n)
    | _ => Option.none

/-- `_schatten_to_logdet` (interpolate_logdet.py:378-384). -/
noncomputable def toLogdet (n : ℕ) (s : Option ℝ) : Option ℝ :=
  s.bind fun s => if 0 < s then some (n * Real.log s) else Option.none

/-- `InterpolateTrace.interpolate` and `eval` (interpolate_trace.py:590-591, 692-693) at one point. -/
noncomputable def Problem.traceInterpolate (P : Problem n) (f : Interpolator) (t : ℝ) : Except PyExc (Option ℝ) :=
  (P.interpolate f t).map (toTracep n P.p)
noncomputable def Problem.traceEval (P : Problem n) (t : ℝ) : Except PyExc (Option ℝ) :=
  (P.eval t).map fun s => toTracep n P.p (some s)

/-- `InterpolateTrace.upper_bound` and `lower_bound` (interpolate_trace.py:839-842, 960-963) at one point. -/
noncomputable def Problem.traceUpperBound (P : Problem n) (t : ℝ) : Except PyExc (Option ℝ) :=
  (P.bound t).map (toTracep n P.p)
noncomputable def Problem.traceLowerBound (P : Problem n) (t : ℝ) : Except PyExc (Option ℝ) :=
  (P.upperBound t).map (toTracep n P.p)

/-- `InterpolateLogdet.interpolate` and `eval` (interpolate_logdet.py:570-572, 673-674) at one point; `p` is zero. -/
noncomputable def Problem.logdetInterpolate (P : Problem n) (f : Interpolator) (t : ℝ) : Except PyExc (Option ℝ) :=
  (P.interpolate f t).map (toLogdet n)
noncomputable def Problem.logdetEval (P : Problem n) (t : ℝ) : Except PyExc (Option ℝ) :=
  (P.eval t).map fun s => toLogdet n (some s)

/-- `InterpolateLogdet.lower_bound` (interpolate_logdet.py:801-804) at one point. -/
noncomputable def Problem.logdetLowerBound (P : Problem n) (t : ℝ) : Except PyExc (Option ℝ) :=
  (P.bound t).map (toLogdet n)

end Imate.Interp
