import Verif.Lemmas.Convergence

/-!
# The convergence code with a finite range of numbers

`Verif.Model.Convergence` models `_c_trace_estimator/convergence_tools.cpp` for every type of numbers.  Here is the type
of floating-point numbers with a rounding function that may overflow and underflow.  Simplification: for `float` the code
computes the quotient under the square root, the square root and the last quotient in `double` (convergence_tools.cpp:160,
168), here they are rounded like all other operations.
-/

namespace Imate.RangedConvergence

/-- Numbers rounded by `fl` after every operation; the rounded number may be infinite. -/
def Ranged (_fl : ℝ → XR ℝ) : Type := XR ℝ

variable {fl : ℝ → XR ℝ}

/-- A number or special value. -/
def Ranged.of (a : XR ℝ) : Ranged fl := a

/-- A finite number. -/
abbrev Ranged.fin (x : ℝ) : Ranged fl := Ranged.of (.fin x)

/-- Infinity. -/
abbrev Ranged.inf : Ranged fl := Ranged.of .pinf

/-- The result of an operation. -/
def Ranged.round (fl : ℝ → XR ℝ) : XR ℝ → Ranged fl
  | .fin x => .of (fl x)
  | y => .of y

/-- The operations of `DataType` in convergence_tools.cpp: the exact result, rounded.  Integers are converted to `DataType`. -/
noncomputable instance : FloatLike (Ranged fl) where
  add a b := Ranged.round fl (FloatLike.add (V := XR ℝ) a b)
  sub a b := Ranged.round fl (FloatLike.sub (V := XR ℝ) a b)
  mul a b := Ranged.round fl (FloatLike.mul (V := XR ℝ) a b)
  div a b := Ranged.round fl (FloatLike.div (V := XR ℝ) a b)
  sqrt a := Ranged.round fl (FloatLike.sqrt (V := XR ℝ) a)
  abs a := FloatLike.abs (V := XR ℝ) a
  lt a b := FloatLike.lt (V := XR ℝ) a b
  ofNat n := Ranged.round fl (FloatLike.ofNat (V := XR ℝ) n)
  inf := .inf
  nan := .of .nan

end Imate.RangedConvergence
