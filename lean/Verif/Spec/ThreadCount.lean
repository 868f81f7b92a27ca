import Verif.Model.ThreadCount

/-!
# Documented numbers of threads

"If set to `0` or a number larger than the available number of threads, all threads of the processor are used."
-/

namespace Imate.ThreadCount.Spec

open ThreadCount

/-- The number of threads a call with `num_threads = k` uses when `n` are available. -/
def documented (n : ℕ) (k : ℤ) : ℕ := if k < 1 ∨ (n : ℤ) < k then n else k.toNat

/-- A call with `num_threads = k` that passes its checks, on the CPU. -/
def slqCall (k : ℤ) : Call := .slq ⟨k, false, 0, none, false, true⟩

/-- The calls that neither give a number of threads nor take one from the machine: those that raise, the direct methods, and
the SLQ method on the CPU with the default. -/
def Neutral (m : Machine) : Call → Prop
  | .slq c => c.refused ≠ none ∨ (c.gpu = false ∧ c.numThreads < 1) ∨ (c.gpu = true ∧ m.devices < c.numGpuDevices)
  | .hutchinson c => c.refused ≠ none
  | .correlation r _ => r ≠ none
  | .direct _ => True
  | .release _ => False

/-- The number of threads that a call leaves to the thread that made it; `n` is the number before. -/
inductive Leaves (m : Machine) : Call → ℕ → ℕ → Prop
  | neutral {c n} : Neutral m c → Leaves m c n n
  | slq {c : Slq} {n} : c.refused = none → c.gpu = false → 1 ≤ c.numThreads → Leaves m (.slq c) n c.numThreads.toNat
  | gpu {c : Slq} {n} : c.refused = none → c.gpu = true → c.numGpuDevices ≤ m.devices → 0 < c.numGpuDevices →
      Leaves m (.slq c) n c.numGpuDevices
  | gpuAll {c : Slq} {n} : c.refused = none → c.gpu = true → c.numGpuDevices = 0 → Leaves m (.slq c) n m.devices
  | hutchinson {c : Hutchinson} {n} : c.refused = none → 1 ≤ c.numThreads →
      Leaves m (.hutchinson c) n c.numThreads.toNat
  | hutchinsonAll {c : Hutchinson} {n} : c.refused = none → c.numThreads < 1 → Leaves m (.hutchinson c) n m.cpuCount
  | correlation {k n} : Leaves m (.correlation none k) n m.cpuCount
  | release {g n} : Leaves m (.release g) n g

/-- The number of threads left to a thread by its calls, in order, beginning with `n`. -/
inductive LeavesAll (m : Machine) : List Call → ℕ → ℕ → Prop
  | nil {n} : LeavesAll m [] n n
  | cons {c cs n k l} : Leaves m c n k → LeavesAll m cs k l → LeavesAll m (c :: cs) n l

/-- The calls of one thread. -/
def ownCalls (τ : ℕ) (h : List (ℕ × Call)) : List Call := (h.filter (fun c => c.1 = τ)).map (·.2)

/-- A machine with at least one processor and device, and operators that are on at least one device. -/
structure Sound (m : Machine) (h : List (ℕ × Call)) : Prop where
  cpu : 0 < m.cpuCount
  initial : 0 < m.initial
  devices : 0 < m.devices
  released : ∀ τ g, (τ, Call.release g) ∈ h → 0 < g

end Imate.ThreadCount.Spec
