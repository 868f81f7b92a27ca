import Verif.Model.FloatLike
import Mathlib.Data.Real.Basic

/-! # Specification: the binary floating-point formats of IEEE 754, with their range -/

namespace Imate.Spec

/-- The finite numbers with `p` bits and exponents between `emin` and `emax`, with the subnormal numbers. -/
def FiniteNumber (p : ℕ) (emin emax : ℤ) (y : ℝ) : Prop :=
  ∃ m e : ℤ, |m| < 2 ^ p ∧ emin - p + 1 ≤ e ∧ e ≤ emax - p + 1 ∧ y = m * 2 ^ e

/-- Rounding to nearest (ties either way): a nearest finite number, or infinity at and above the middle between the largest
finite number and the power of two that follows it. -/
structure Format (p : ℕ) (emin emax : ℤ) (fl : ℝ → XR ℝ) : Prop where
  nearest : ∀ x : ℝ, |x| < 2 ^ (emax + 1) - 2 ^ (emax - p) →
    ∃ y, fl x = .fin y ∧ FiniteNumber p emin emax y ∧ ∀ y', FiniteNumber p emin emax y' → |x - y| ≤ |x - y'|
  overflow : ∀ x : ℝ, 2 ^ (emax + 1) - 2 ^ (emax - p) ≤ |x| → fl x = XR.signedInf x

/-- At least one bit, and the numbers from `0` to `2^p` are in the range. -/
structure Usual (p : ℕ) (emin emax : ℤ) : Prop where
  bits : 1 ≤ p
  low : emin ≤ 0
  high : (p : ℤ) ≤ emax

/-- `float` -/
def SingleFormat (fl : ℝ → XR ℝ) : Prop := Format 24 (-126) 127 fl

/-- `double` -/
def DoubleFormat (fl : ℝ → XR ℝ) : Prop := Format 53 (-1022) 1023 fl

end Imate.Spec
