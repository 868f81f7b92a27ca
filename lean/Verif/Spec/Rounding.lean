import Mathlib.Data.Real.Basic

/-!
# Specification: rounding to floating-point numbers

Numbers with a significand of `p` bits and an exponent without limits (no overflow, no underflow), and functions that
round to a nearest one; nothing is said about ties.  IEEE single, double and x87 extended precision have `p` = 24, 53
and 64.
-/

namespace Imate.Spec

/-- `y = s * 2^e` with an integer `s` of fewer than `p + 1` bits. -/
def Representable (p : ℕ) (y : ℝ) : Prop := ∃ s e : ℤ, |s| < 2 ^ p ∧ y = s * (2 : ℝ) ^ e

/-- `fl x` is a number with `p` bits, and no other one is nearer to `x`. -/
def Nearest (p : ℕ) (fl : ℝ → ℝ) : Prop :=
  ∀ x, Representable p (fl x) ∧ ∀ y, Representable p y → |fl x - x| ≤ |y - x|

end Imate.Spec
