import Verif.Model.Arrays

/-!
# Nonzero entries

The words of C87.
-/

namespace Imate.Spec.Info

open Direct

variable {K : Type} [Field K] [DecidableEq K]

/-- The number of entries of a matrix that are not zero. -/
def numNonzero {n m : ℕ} (M : Matrix (Fin n) (Fin m) K) : ℕ :=
  (Finset.univ.filter fun ij : Fin n × Fin m => M ij.1 ij.2 ≠ 0).card

/-- No position is stored twice. -/
def StoredOnce {n m : ℕ} (entries : List (Fin n × Fin m × K)) : Prop := (entries.map fun e => (e.1, e.2.1)).Nodup

/-- The number of devices that compute: none without a GPU, all if the argument is zero. -/
def devicesUsed (gpu : Bool) (numGpuDevices available : ℕ) : ℕ :=
  match gpu, numGpuDevices with
  | false, _ => 0
  | true, 0 => available
  | true, k => k

end Imate.Spec.Info
