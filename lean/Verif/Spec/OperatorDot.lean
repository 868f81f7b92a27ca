import Verif.Model.OperatorDot

/-!
# Good arrays and the parameter in force

The words of C84.
-/

namespace Imate.Spec.OperatorDot

open Imate.OperatorDot Args

variable {K : Type}

/-- An array with one dimension, writable, contiguous, of the given type and with the given entries. -/
def Good (d : DType) {k : ℕ} (v : Fin k → K) (x : Vec K) : Prop :=
  x.dtype = d ∧ x.ndim = 1 ∧ x.writeable = true ∧ x.stride = 1 ∧ x.memory = Array.ofFn v

/-- The parameters of the last call of `set_parameters`. -/
def lastSet : List (Call K) → Parameters K → Parameters K
  | [], p => p
  | .setParameters p :: cs, _ => lastSet cs p
  | .dot _ _ _ :: cs, p => lastSet cs p

/-- The parameter `t` was given: as a number that is a `float` (one that the conversion to `float64` keeps), or as the
first entry of an array. -/
def Gives (astype : DType → K → K) (p : Parameters K) (t : K) : Prop :=
  (p = .scalar t ∧ astype .float64 t = t) ∨ ∃ ts, p = .array (t :: ts)

/-- The entry `i` of an array, as Python shows it. -/
def entry (x : Vec K) (i : ℕ) : Option K := x.memory[i * x.stride]?

end Imate.Spec.OperatorDot
