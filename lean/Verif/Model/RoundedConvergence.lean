import Verif.Lemmas.Convergence

/-!
# The convergence code with rounding

`Verif.Model.Convergence` models `_c_trace_estimator/convergence_tools.cpp` for every type of numbers.  Here is the type
of floating-point numbers with one rounding function `fl`, and the special values.  Simplifications: no overflow and no
underflow of finite numbers; for `float` the code computes the quotient under the square root, the square root and the
last quotient in `double` (convergence_tools.cpp:160, 168), here they are rounded like all other operations.
-/

namespace Imate.RoundedConvergence

/-- Numbers that are rounded by `fl` after every operation. -/
def Fl (_fl : ℝ → ℝ) : Type := XR ℝ

variable {fl : ℝ → ℝ}

/-- A finite number. -/
def Fl.fin (x : ℝ) : Fl fl := XR.fin x

/-- The result of an operation. -/
def Fl.round (fl : ℝ → ℝ) : XR ℝ → Fl fl
  | .fin x => XR.fin (fl x)
  | y => y

/-- The operations of `DataType` in convergence_tools.cpp: the exact result, rounded.  Integers are converted to `DataType`. -/
noncomputable instance : FloatLike (Fl fl) where
  add a b := Fl.round fl (FloatLike.add (V := XR ℝ) a b)
  sub a b := Fl.round fl (FloatLike.sub (V := XR ℝ) a b)
  mul a b := Fl.round fl (FloatLike.mul (V := XR ℝ) a b)
  div a b := Fl.round fl (FloatLike.div (V := XR ℝ) a b)
  sqrt a := Fl.round fl (FloatLike.sqrt (V := XR ℝ) a)
  abs a := FloatLike.abs (V := XR ℝ) a
  lt a b := FloatLike.lt (V := XR ℝ) a b
  ofNat n := Fl.round fl (FloatLike.ofNat (V := XR ℝ) n)
  inf := (XR.pinf : XR ℝ)
  nan := (XR.nan : XR ℝ)

end Imate.RoundedConvergence
