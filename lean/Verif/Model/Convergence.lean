import Verif.Model.FloatLike

/-!
# Model of `_c_trace_estimator/convergence_tools.cpp` and `traceinv/_convergence_tools.py`

The column of processed samples `samples[processed_samples_indices[i]][j]`, `i = 0, 1, …`, is passed
as a list.  The quantiles `sqrt(2) * erf_inv(level)` are parameters here; `erf_inv` itself is
modelled in `Verif.Model.ErfInv`.
-/

namespace Imate.Convergence
open FloatLike

variable {V : Type} [FloatLike V]

/-- `summand = 0; for i: summand += x_i` (e.g. convergence_tools.cpp:144-148). -/
def sumOf (xs : List V) : V := xs.foldl add (ofNat 0)

/-- convergence_tools.cpp:149, 303 -/
def meanOf (xs : List V) : V := div (sumOf xs) (ofNat xs.length)

/-- `summand = 0; for i: summand += (x_i - mean)^2`, convergence_tools.cpp:154-159, 309-315. -/
def sumSq (mean : V) (xs : List V) : V :=
  xs.foldl (fun s x => add s (mul (sub x mean) (sub x mean))) (ofNat 0)

/-- Sample standard deviation, convergence_tools.cpp:152-165, 307-321. -/
def stdOf (xs : List V) : V :=
  if 1 < xs.length then sqrt (div (sumSq (meanOf xs) xs) (sub (ofNat xs.length) (ofNat 1))) else inf

/-- `standard_z_score * std / sqrt(num_processed_samples)`, convergence_tools.cpp:168. -/
def errorOf (z : V) (xs : List V) : V := div (mul z (stdOf xs)) (sqrt (ofNat xs.length))

/-- The convergence criterion, convergence_tools.cpp:171. -/
def meetsTol (z atol rtol : V) (xs : List V) : Bool :=
  lt (errorOf z xs) (FloatLike.max atol (mul rtol (meanOf xs)))

/-- Entries `j` of the arrays `error`, `num_samples_used`, `converged`. -/
structure Inquiry (V : Type) where
  error : V
  numSamplesUsed : Nat
  converged : Bool
  deriving DecidableEq, Repr

/-- One inquiry in `check_convergence`, convergence_tools.cpp:138-179; `xs` is its column of
processed samples. -/
def updateInquiry (z atol rtol : V) (xs : List V) (q : Inquiry V) : Inquiry V :=
  if q.converged then q
  else ⟨errorOf z xs, xs.length, meetsTol z atol rtol xs⟩

/-- `check_convergence`, convergence_tools.cpp:95-194.  `column j` is the list of processed samples
of inquiry `j` and `numProcessed` its length.  Returns the new inquiry data and `all_converged`. -/
def checkConvergence (minNumSamples : Nat) (z atol rtol : V) (column : Nat → List V)
    (numProcessed : Nat) (inqs : List (Inquiry V)) : List (Inquiry V) × Bool :=
  if numProcessed < minNumSamples then
    (inqs.map (fun _ => ⟨inf, numProcessed, false⟩), false)
  else
    let inqs := inqs.mapIdx (fun j q => updateInquiry z atol rtol (column j) q)
    (inqs, inqs.all (·.converged))

/-- Result of `average_estimates` for one inquiry. -/
structure Averaged (V : Type) where
  trace : V
  error : V
  numOutliers : Nat
  deriving DecidableEq, Repr

/-- The outlier test, convergence_tools.cpp:324-336. -/
def isOutlier (mean half x : V) : Bool := lt half (abs (sub x mean))

/-- One inquiry in `average_estimates`, convergence_tools.cpp:288-373.  `xs` is the column of used
samples; the flags `outlier_indices` are replaced by filtering the list. -/
def averageEstimate (errorZ outlierZ : V) (xs : List V) : Averaged V :=
  let mean := meanOf xs
  let half := mul outlierZ (stdOf xs)
  let kept := xs.filter (fun x => !isOutlier mean half x)
  let numOutliers := xs.countP (fun x => isOutlier mean half x)
  let mean' := div (sumOf kept) (ofNat (xs.length - numOutliers))
  let std := if 1 + numOutliers < xs.length then
      sqrt (div (sumSq mean' kept) (sub (ofNat (xs.length - numOutliers)) (ofNat 1)))
    else inf
  ⟨mean', div (mul errorZ std) (sqrt (ofNat (xs.length - numOutliers))), numOutliers⟩

/-! ## The Python rules used by the Hutchinson method -/

/-- `numpy.std` (population standard deviation) with the special case of
traceinv/_convergence_tools.py:61-65 and 118-122. -/
def pyStdOf (xs : List V) : V :=
  if 1 < xs.length then sqrt (div (sumSq (meanOf xs) xs) (ofNat xs.length)) else inf

/-- traceinv/_convergence_tools.py:68 -/
def pyErrorOf (z : V) (xs : List V) : V := div (mul z (pyStdOf xs)) (sqrt (ofNat xs.length))

/-- traceinv/_convergence_tools.py:71 (`numpy.max` of two non-nan numbers). -/
def pyMeetsTol (z atol rtol : V) (xs : List V) : Bool :=
  lt (pyErrorOf z xs) (FloatLike.max atol (mul rtol (meanOf xs)))

/-- `check_convergence`, traceinv/_convergence_tools.py:22-79: `(converged, num_samples_used)`. -/
def pyCheckConvergence (minNumSamples : Nat) (z atol rtol : V) (xs : List V) : Bool × Nat :=
  if xs.length < minNumSamples then (false, xs.length)
  else (pyMeetsTol z atol rtol xs, xs.length)

/-- `average_estimates`, traceinv/_convergence_tools.py:86-161.  `none` is the `ZeroDivisionError`
raised by line 143 when no sample is left. -/
def pyAverageEstimate (errorZ outlierZ : V) (xs : List V) : Option (Averaged V) :=
  let mean := meanOf xs
  let half := mul outlierZ (pyStdOf xs)
  let kept := xs.filter (fun x => !isOutlier mean half x)
  let numOutliers := xs.countP (fun x => isOutlier mean half x)
  if xs.length - numOutliers = 0 then none
  else
    let mean' := div (sumOf kept) (ofNat (xs.length - numOutliers))
    let std := if 1 + numOutliers < xs.length then
        sqrt (div (sumSq mean' kept) (sub (ofNat (xs.length - numOutliers)) (ofNat 1)))
      else inf
    some ⟨mean', div (mul errorZ std) (sqrt (ofNat (xs.length - numOutliers))), numOutliers⟩

end Imate.Convergence
