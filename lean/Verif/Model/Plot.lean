import Verif.Model.Convergence
import Verif.Model.Py

/-!
# Model of `_trace_estimator/trace_estimator_plot_utilities.py`

The curves that `plot=True` draws.  The quantiles `sqrt(2) * erfinv(level)` are parameters.  A column
of the array `samples` is a list indexed by the row; rows that were not processed hold `nan`.
Drawing is reduced to what can end it: the index of the colour and the limits given to the axes.
-/

namespace Imate.Plot
open FloatLike Convergence

variable {K : Type} [Field K] [LinearOrder K] [HasSqrt K]

def isNan : XR K → Bool
  | .nan => true
  | _ => false

/-- `x[~numpy.isnan(x)]`, trace_estimator_plot_utilities.py:171. -/
def nanless (xs : List (XR K)) : List (XR K) := xs.filter (fun x => !isNan x)

/-- `numpy.nanmean`, trace_estimator_plot_utilities.py:90, 182 (`0/0 = nan` when nothing is left). -/
def nanmean (xs : List (XR K)) : XR K := meanOf (nanless xs)

/-- `numpy.nanstd`, trace_estimator_plot_utilities.py:91, 183: the divisor is the number of values. -/
def nanstd (xs : List (XR K)) : XR K :=
  let v := nanless xs
  sqrt (div (sumSq (meanOf v) v) (ofNat v.length))

/-- `samples[samples_processed_order[:n], j]`, trace_estimator_plot_utilities.py:86-87, 169-170.
Simplified: a row outside the array, where numpy raises, reads as `nan`. -/
def gather (col : List (XR K)) (order : List Nat) (n : Nat) : List (XR K) :=
  (order.take n).map (fun r => col.getD r .nan)

/-- One column in `_remove_outliers`, trace_estimator_plot_utilities.py:31-101, with
`q = sqrt(2) * erfinv(1 - outlier_confidence_level)`. -/
def removeOutliers (q : XR K) (col : List (XR K)) (order : List Nat) (used : Nat) : List (XR K) :=
  let valid := gather col order used
  let mean := nanmean valid
  let std := nanstd valid
  col.map (fun x => if lt (mul q std) (abs (sub x mean)) then .nan else x)

/-- A point of the three curves. -/
structure Point (K : Type) where
  mean : XR K
  abs : XR K
  rel : XR K

/-- Row `i` in `_compute_cumulative_statistics`, trace_estimator_plot_utilities.py:165-187. -/
def cumulative (z : XR K) (cleaned : List (XR K)) (order : List Nat) (i : Nat) : Point K :=
  let v := nanless (gather cleaned order (i + 1))
  if v.length = 0 then ⟨.nan, .nan, .nan⟩
  else
    let m := nanmean v
    let a := div (mul z (nanstd v)) (sqrt (ofNat (i + 1)))
    ⟨m, a, div a (FloatLike.abs m)⟩

/-- The first `used` rows of the three cumulative arrays for one column,
trace_estimator_plot_utilities.py:164-189, after the outliers were removed (536-551). -/
def curve (z q : XR K) (col : List (XR K)) (order : List Nat) (used : Nat) : List (Point K) :=
  (List.range used).map (cumulative z (removeOutliers q col order used) order)

/-- `numpy.nanmax`, trace_estimator_plot_utilities.py:369. -/
def nanmax (xs : List (XR K)) : XR K :=
  match nanless xs with
  | [] => .nan
  | x :: xs => xs.foldl (fun a b => if lt a b then b else a) x

/-- `ax.set_ylim([0, top])` raises `ValueError` for a limit that is not finite. -/
def setYlim : XR K → Except PyExc Unit
  | .fin _ => .ok ()
  | _ => .error .valueError

/-- number of colours, trace_estimator_plot_utilities.py:385-388: `tab10` and `Dark2` -/
def numColors : Nat := 18

/-- `colors[inquiry]` for every inquiry when there is more than one,
trace_estimator_plot_utilities.py:393-414. -/
def pickColors (numInquiries : Nat) : Except PyExc Unit :=
  if 1 < numInquiries ∧ numColors < numInquiries then .error .indexError else .ok ()

/-- The relative errors of all inquiries and rows. -/
def allRel (curves : List (List (Point K))) : List (XR K) := curves.flatten.map (·.rel)

/-- `_plot_error`, trace_estimator_plot_utilities.py:308-489. -/
def plotError (curves : List (List (Point K))) : Except PyExc Unit :=
  let maxRel := mul (nanmax (allRel curves)) (ofNat 100)
  let last := ((curves.headD []).getLast?).getD ⟨.nan, .nan, .nan⟩
  let finalRel := mul last.rel (ofNat 100)
  let ylimAbs := div (mul last.abs maxRel) finalRel
  let scale := div (ofNat 11) (ofNat 10)
  match pickColors curves.length with
  | .error e => .error e
  | .ok () =>
    match setYlim (mul maxRel scale) with
    | .error e => .error e
    | .ok () => if curves.length = 1 then setYlim (mul ylimAbs scale) else .ok ()

/-- `plot_convergence`, trace_estimator_plot_utilities.py:497-578.  `cols` are the columns of
`samples` with their numbers of used samples (at least one inquiry and one sample). -/
def plotConvergence (z q : XR K) (cols : List (List (XR K) × Nat)) (order : List Nat) :
    Except PyExc (List (List (Point K))) :=
  let curves := cols.map (fun c => curve z q c.1 order c.2)
  match plotError curves with
  | .error e => .error e
  | .ok () => .ok curves

end Imate.Plot
