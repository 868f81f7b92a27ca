import Verif.Model.ParameterView

/-!
# The parameters the user gave

The words of C85.
-/

namespace Imate.Spec.ParameterView

open Imate.ParameterView Args

variable {K : Type}

/-- The numbers `xs` are the entries of the array, as Python shows them. -/
def Entries (v : View K) (xs : List K) : Prop :=
  xs.length = v.size ∧
  ∀ i (h : i < xs.length), ∃ a : ℕ, (a : ℤ) = v.offset + i * v.stride ∧ v.base[a]? = some xs[i]

/-- The numbers `xs` are what was given as `parameters`. -/
def Values : Given K → List K → Prop
  | .none, xs => xs = []
  | .scalar t, xs => xs = [t]
  | .list ys, xs => xs = ys
  | .array v, xs => Entries v xs
  | _, _ => False

/-- The result has one entry for every `n` consecutive numbers of `xs`, in this order. -/
def Batches (n : ℕ) (xs : List K) (r : List (List K)) : Prop :=
  r.flatten = xs ∧ ∀ b ∈ r, b.length = n

end Imate.Spec.ParameterView
