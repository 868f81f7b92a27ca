import Verif.Model.Interpolator

/-!
# The plots of the interpolators

What `plot` of `InterpolateSchatten`, `InterpolateTrace` and `InterpolateLogdet` hands to matplotlib.  Exact real
arithmetic; a drawn value `none` is not finite and is not shown.  Of matplotlib four rules are used: limits of an axis that
are not finite raise `ValueError`, a limit zero of a logarithmic axis is ignored, equal limits of a logarithmic axis are
moved apart by a decade each, and `PercentFormatter` cannot format with a negative number of decimals.  Not modelled:
labels, colours, showing and saving.
-/

namespace Imate.Interp

variable {n : ℕ}

/-- The argument `t`. -/
inductive PlotArg where
  | scalar (x : ℝ)
  | list (l : List ℝ)
  /-- a one-dimensional `numpy` array -/
  | array (l : List ℝ)

/-- The check of `t` (interpolate_schatten.py:1269-1272, 1437-1440; interpolate_trace.py:1091-1094;
interpolate_logdet.py:937-940).  A list has no attribute `size`. -/
def PlotArg.check : PlotArg → Except PyExc (List ℝ)
  | .scalar _ => .error .valueError
  | .list _ => .error .attributeError
  | .array l => if l.length = 1 then .error .valueError else .ok l

/-- The attributes of the base class; the kinds `ext` and `eig` do not set them. -/
def Interpolator.base : Interpolator → Option Base
  | .ext => none
  | .eig _ => none
  | .mbf m => some m.base
  | .imbf m => some m.base
  | .rbf m => some m.base
  | .crf m => some m.base
  | .spl m => some m.base
  | .rpf m => some m.base

/-- `self.interpolator.t_i` (_interpolant_base.py:128; _monomial_basis_functions_method.py:418). -/
def Interpolator.ti : Interpolator → List ℝ
  | .mbf m => [m.t1]
  | f => match f.base with
    | none => []
    | some b => b.nodes.map Prod.fst

/-- `schatten_B` (interpolate_schatten.py:1281-1287, 1450-1456; interpolate_trace.py:1104-1109;
interpolate_logdet.py:950-955). -/
def Problem.plotNormB (P : Problem n) (f : Interpolator) : Except PyExc ℝ :=
  match f.base with
  | some b => .ok b.normB
  | none => P.norm P.matB

/-- The three classes. -/
inductive Quantity where
  | schatten
  | trace
  | logdet
  deriving DecidableEq

/-- The value of a class for a Schatten norm. -/
noncomputable def Quantity.value (n : ℕ) (p : ℝ) : Quantity → Option ℝ → Option ℝ
  | .schatten, s => s
  | .trace, s => toTracep n p s
  | .logdet, s => toLogdet n s

/-- Division of floating-point numbers; not finite when the divisor is zero. -/
noncomputable def divO (x y : Option ℝ) : Option ℝ :=
  x.bind fun x => y.bind fun y => if y = 0 then none else some (x / y)

/-- Difference of floating-point numbers. -/
def subO (x y : Option ℝ) : Option ℝ := x.bind fun x => y.map fun y => x - y

/-- `normal_factor` (interpolate_schatten.py:1280-1291, 1449-1460; interpolate_trace.py:1103-1113;
interpolate_logdet.py:949-959). -/
noncomputable def Problem.factor (P : Problem n) (q : Quantity) (f : Interpolator) (normalize : Bool) :
    Except PyExc (Option ℝ) :=
  if normalize then (P.plotNormB f).map fun b => q.value n P.p (some b)
  else match q with
    | .logdet => .ok (some 0)
    | _ => .ok (some 1)

/-- `tau_i`, `tau_interpolated`, `tau_exact` (interpolate_schatten.py:1293-1298; interpolate_trace.py:1115-1120;
interpolate_logdet.py:961-966). -/
noncomputable def Quantity.scaled : Quantity → Option ℝ → Option ℝ → Option ℝ
  | .logdet, x, c => subO x c
  | _, x, c => divO x c

/-- `tau_relative_error` (interpolate_schatten.py:1299, 1468; interpolate_trace.py:1121) and `tau_absolute_error`
(interpolate_logdet.py:967). -/
noncomputable def Quantity.error : Quantity → Option ℝ → Option ℝ → Option ℝ
  | .logdet, x, y => subO x y
  | _, x, y => (divO x y).map fun r => 1 - r

/-- The curves of a figure and the limits of its vertical axis; a limit that is `none` is left to matplotlib, which shows
all data. -/
structure Figure where
  points : List (ℝ × Option ℝ)
  curve : List (ℝ × Option ℝ)
  exact : Option (List (ℝ × Option ℝ))
  limits : Option ℝ × Option ℝ
  /-- the second panel, for `compare=True` -/
  errors : Option (List (ℝ × Option ℝ))

/-- `numpy.round`: halves to the even neighbour. -/
noncomputable def roundEven (x : ℝ) : ℤ :=
  if Int.fract x < 1 / 2 then ⌊x⌋
  else if 1 / 2 < Int.fract x then ⌊x⌋ + 1
  else if ⌊x⌋ % 2 = 0 then ⌊x⌋ else ⌊x⌋ + 1

/-- `10**(snap(numpy.log10(x)))` as a limit of a logarithmic axis, for `x ≥ 0`: the limit is zero for `x = 0` and is
ignored. -/
noncomputable def snap (r : ℝ → ℤ) (x : ℝ) : Option ℝ :=
  if x = 0 then none else some ((10 : ℝ) ^ r (Real.logb 10 x))

/-- `ax.set_ylim([bottom, top])` on a logarithmic axis. -/
noncomputable def setLogLimits (bottom top : Option ℝ) : Option ℝ × Option ℝ :=
  match bottom, top with
  | some b, some t => if b = t then (some (b / 10), some (t * 10)) else (some b, some t)
  | b, t => (b, t)

/-- The limits of the vertical axis from the values drawn (interpolate_schatten.py:1333-1344;
interpolate_trace.py:1154-1165).  `numpy.min` of nothing raises `ValueError`; the logarithm of a negative number is NaN. -/
noncomputable def logLimits (low high : ℝ → ℤ) (vals : List (Option ℝ)) : Except PyExc (Option ℝ × Option ℝ) :=
  match vals.mapM id with
  | none => .error .valueError
  | some l =>
    if l = [] then .error .valueError
    else if listMin l < 0 then .error .valueError
    else .ok (setLogLimits (snap low (listMin l)) (snap high (listMax l)))

/-- `decimals` and `PercentFormatter` (interpolate_schatten.py:1389-1396, 1583-1590; interpolate_trace.py:1209-1216).  For an
error that is not finite the conversion to `int` raises `ValueError` (NaN) or `OverflowError` (an infinity); only the
first is kept. -/
noncomputable def percentDecimals (errs : List (Option ℝ)) : Except PyExc ℤ :=
  match errs.mapM id with
  | none => .error .valueError
  | some l =>
    let r := listMax (l.map fun e => |100 * e|)
    let d := if r ≠ 0 then ⌈-Real.logb 10 r⌉ + 1 else 2
    if d < 0 then .error .valueError else .ok d

/-- The values of the interpolator at the inquiry points. -/
noncomputable def Problem.plotValues (P : Problem n) (q : Quantity) (f : Interpolator) (l : List ℝ) :
    Except PyExc (List (Option ℝ)) :=
  l.mapM fun t => (P.interpolate f t).map (q.value n P.p)

/-- `self.eval(t)`, and the values at the interpolant points, which were computed at construction. -/
noncomputable def Problem.plotExact (P : Problem n) (q : Quantity) (l : List ℝ) : Except PyExc (List (Option ℝ)) :=
  l.mapM fun t => (P.eval t).map fun s => q.value n P.p (some s)

/-- `compare` -/
noncomputable def Problem.plotCompare (P : Problem n) (q : Quantity) (l : List ℝ) (compare : Bool) :
    Except PyExc (Option (List (Option ℝ))) :=
  if compare then (P.plotExact q l).map some else .ok none

/-- The limits of the first panel; `InterpolateLogdet` sets none, but reads `t[0]` (interpolate_logdet.py:994). -/
noncomputable def Quantity.limits (q : Quantity) (curve exact : List (Option ℝ)) :
    Except PyExc (Option ℝ × Option ℝ) :=
  match q with
  | .schatten => logLimits Int.floor roundEven (exact ++ curve)
  | .trace => logLimits roundEven Int.ceil (exact ++ curve)
  | .logdet => if curve = [] then .error .indexError else .ok (none, none)

/-- The values of the second panel. -/
noncomputable def Quantity.errors (q : Quantity) (curve : List (Option ℝ)) :
    Option (List (Option ℝ)) → Except PyExc (Option (List (Option ℝ)))
  | none => .ok none
  | some ex =>
    let e := List.zipWith q.error curve ex
    match q with
    | .logdet => .ok (some e)
    | _ => (percentDecimals e).map fun _ => some (e.map fun x => x.map fun x => 100 * x)

/-- `_plot_semi_infinite` (interpolate_schatten.py:1245-1398), `InterpolateTrace.plot` (interpolate_trace.py:970-1228) and
`InterpolateLogdet.plot` (interpolate_logdet.py:811-1048). -/
noncomputable def Problem.plotLog (P : Problem n) (q : Quantity) (f : Interpolator) (t : PlotArg)
    (normalize compare : Bool) : Except PyExc Figure := do
  let l ← t.check
  let v ← P.plotValues q f l
  let ex ← P.plotCompare q l compare
  let c ← P.factor q f normalize
  let vi ← P.plotExact q f.ti
  let curve := v.map fun x => q.scaled x c
  let exact := ex.map fun e => e.map fun x => q.scaled x c
  let limits ← q.limits curve (exact.getD [])
  let errors ← q.errors curve exact
  .ok ⟨f.ti.zip (vi.map fun x => q.scaled x c), l.zip curve, exact.map fun e => l.zip e, limits,
    errors.map fun e => l.zip e⟩

/-- `x` (interpolate_schatten.py:1470-1481), for numbers whose denominator is not zero. -/
noncomputable def finiteX (scale t : ℝ) : ℝ := (t / scale - 1) / (t / scale + 1)

/-- `y_i`, `y`, `y_ex` (interpolate_schatten.py:1483-1498). -/
noncomputable def finiteY (funcType : ℤ) (tau0 t : ℝ) (tau : Option ℝ) : Option ℝ :=
  if funcType = 1 then (divO tau (some (tau0 + t))).map fun r => r - 1
  else (divO (tau.map fun x => x - tau0) (some t)).map fun r => r - 1

/-- The limits of the vertical axis (interpolate_schatten.py:1531-1534); a value that is not finite is taken as NaN. -/
noncomputable def finiteLimits (y : List (Option ℝ)) : Option ℝ × Option ℝ :=
  open Classical in
  if ∀ v ∈ y, ∃ x, v = some x ∧ 0 ≤ x then (some 0, none)
  else if ∀ v ∈ y, ∃ x, v = some x ∧ x ≤ 0 then (none, some 0)
  else (none, none)

/-- The second panel reads `t[0]` first (interpolate_schatten.py:1570). -/
noncomputable def finiteErrors (curve : List (Option ℝ)) (ex : Option (List (Option ℝ))) :
    Except PyExc (Option (List (Option ℝ))) :=
  if ex.isSome ∧ curve = [] then .error .indexError else Quantity.schatten.errors curve ex

/-- `_plot_finite` (interpolate_schatten.py:1405-1603) with the attributes of the interpolator. -/
noncomputable def Problem.plotFinite (P : Problem n) (f : Interpolator) (b : Base) (funcType : ℤ) (scale : ℝ)
    (t : PlotArg) (normalize compare : Bool) : Except PyExc Figure := do
  let l ← t.check
  let v ← P.plotValues .schatten f l
  let ex ← P.plotCompare .schatten l compare
  let c ← P.factor .schatten f normalize
  let vi ← P.plotExact .schatten f.ti
  let curve := v.map fun x => Quantity.schatten.scaled x c
  let exact := ex.map fun e => e.map fun x => Quantity.schatten.scaled x c
  if funcType ≠ 1 ∧ funcType ≠ 2 then .error .valueError
  else do
    let y := List.zipWith (finiteY funcType b.tau0) l curve
    let errors ← finiteErrors curve exact
    .ok ⟨(f.ti.map (finiteX scale)).zip (List.zipWith (finiteY funcType b.tau0) f.ti
          (vi.map fun x => Quantity.schatten.scaled x c)),
      (l.map (finiteX scale)).zip y,
      exact.map fun e => (l.map (finiteX scale)).zip (List.zipWith (finiteY funcType b.tau0) l e),
      finiteLimits y, errors.map fun e => l.zip e⟩

/-- `InterpolateSchatten.plot` (interpolate_schatten.py:1064-1238). -/
noncomputable def Problem.plotSchatten (P : Problem n) (f : Interpolator) (t : PlotArg) (normalize compare : Bool) :
    Except PyExc Figure :=
  match f with
  | .crf m => P.plotFinite f m.base m.funcType m.scale t normalize compare
  | .spl m => P.plotFinite f m.base m.funcType 1 t normalize compare
  | f => P.plotLog .schatten f t normalize compare

/-- `plot` of the three classes. -/
noncomputable def Problem.plot (P : Problem n) (q : Quantity) (f : Interpolator) (t : PlotArg)
    (normalize compare : Bool) : Except PyExc Figure :=
  match q with
  | .schatten => P.plotSchatten f t normalize compare
  | q => P.plotLog q f t normalize compare

/-- `get_scale` (interpolate_schatten.py:498-552; interpolate_trace.py:422-476; interpolate_logdet.py:402-456); here
`.runtimeError` stands for its subclass `NotImplementedError`. -/
def Interpolator.getScale : Interpolator → Except PyExc ℝ
  | .crf m => .ok m.scale
  | _ => .error .runtimeError

end Imate.Interp
