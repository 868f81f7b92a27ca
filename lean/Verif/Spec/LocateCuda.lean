import Mathlib.Data.Nat.Digits.Defs

/-! # Specification: numbers and versions as text -/

namespace Imate.Spec

/-- The decimal numeral of a number. -/
def decimal (n : ℕ) : List Char := if n = 0 then ['0'] else (Nat.digits 10 n).reverse.map Nat.digitChar

/-- `major.minor.patch` -/
def dotted (a b c : ℕ) : List Char := decimal a ++ '.' :: (decimal b ++ '.' :: decimal c)

/-- The number in the header of CUDA: `1000 major + 10 minor + patch`. -/
def cudaNumber (major minor patch : ℕ) : ℕ := 1000 * major + 10 * minor + patch

/-- A line of a header that defines the version of CUDA as a number. -/
def DefinesVersion (line : List Char) : Prop :=
  ∃ c digits, c ≠ '\n' ∧ digits ≠ [] ∧ (∀ d ∈ digits, d.isDigit = true) ∧
    (line = "#define CUDA_VERSION".toList ++ c :: digits ∨ line = "#define CUDA_VERSION".toList ++ c :: (digits ++ ['\n']))

end Imate.Spec
