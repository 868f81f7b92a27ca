import Verif.Model.RoundedConvergence

/-!
# The convergence code with intermediate results in other types

`Verif.Model.RoundedConvergence` rounds every operation to `DataType`.  The quotient under the square root, the square
roots and the last quotient are computed in other types: `num_processed_samples - 1.0` and `sqrt(num_processed_samples)`
are `double`, and `sqrt` is the C function on `double` or an overload, depending on the standard library.  Here each of
these results has its own rounding.
-/

namespace Imate.MixedConvergence
open Convergence RoundedConvergence

/-- The roundings of the results in convergence_tools.cpp:149-168 and 307-371, in the order of computation. -/
structure Roundings where
  /-- `DataType`: sums, differences, squares, the mean, `standard_z_score * std` -/
  data : ℝ → ℝ
  /-- `summand / (num_processed_samples - 1.0)` -/
  quotient : ℝ → ℝ
  /-- the conversion to the type of the parameter of `sqrt` -/
  argument : ℝ → ℝ
  /-- the result of `sqrt` -/
  root : ℝ → ℝ
  /-- the assignment to `std` -/
  std : ℝ → ℝ
  /-- `sqrt(num_processed_samples)` -/
  rootCount : ℝ → ℝ
  /-- the last quotient -/
  ratio : ℝ → ℝ
  /-- the assignment to `error[j]` -/
  error : ℝ → ℝ

variable (r : Roundings)

/-- The number in a type with fewer or more bits. -/
def widen {fl : ℝ → ℝ} (x : Fl fl) : XR ℝ := x

/-- One operation with its rounding. -/
def rounded (f : ℝ → ℝ) : XR ℝ → XR ℝ
  | .fin x => .fin (f x)
  | y => y

/-- convergence_tools.cpp:152-165 -/
noncomputable def stdOf (xs : List (Fl r.data)) : XR ℝ :=
  if 1 < xs.length then
    rounded r.std (rounded r.root (FloatLike.sqrt (V := XR ℝ) (rounded r.argument (rounded r.quotient
      (FloatLike.div (V := XR ℝ) (widen (sumSq (meanOf xs) xs)) (.fin ((xs.length : ℝ) - 1)))))))
  else .pinf

/-- convergence_tools.cpp:168 -/
noncomputable def errorOf (z : ℝ) (xs : List (Fl r.data)) : XR ℝ :=
  rounded r.error (rounded r.ratio (FloatLike.div (V := XR ℝ)
    (rounded r.data (FloatLike.mul (V := XR ℝ) (.fin z) (stdOf r xs)))
    (rounded r.rootCount (FloatLike.sqrt (V := XR ℝ) (.fin (xs.length : ℝ))))))

/-- convergence_tools.cpp:171 -/
noncomputable def meetsTol (z atol rtol : ℝ) (xs : List (Fl r.data)) : Bool :=
  FloatLike.lt (V := XR ℝ) (errorOf r z xs)
    (FloatLike.max (V := XR ℝ) (.fin atol) (widen (FloatLike.mul (Fl.fin rtol) (meanOf xs))))

/-- One inquiry of `average_estimates`, convergence_tools.cpp:288-373, see `Convergence.averageEstimate`. -/
noncomputable def averageEstimate (ez oz : ℝ) (xs : List (Fl r.data)) : Averaged (XR ℝ) :=
  let mean := meanOf xs
  let half : Fl r.data := rounded r.data (FloatLike.mul (V := XR ℝ) (.fin oz) (stdOf r xs))
  let kept := xs.filter (fun x => !isOutlier mean half x)
  ⟨widen (meanOf kept), errorOf r ez kept, xs.countP (fun x => isOutlier mean half x)⟩

end Imate.MixedConvergence
