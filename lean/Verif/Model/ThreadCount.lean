import Verif.Model.Py
import Mathlib.Data.Int.Notation
import Mathlib.Data.Nat.Notation
import Mathlib.Logic.Function.Basic

/-!
# The number of OpenMP threads over a history of calls

OpenMP keeps for each thread of the process the number of threads that its next parallel region asks for (the internal
control variable `nthreads-var`).  `omp_set_num_threads` sets it, `omp_get_max_threads` reads it.  The functions of the
package set it and do not restore it.

Simplified: all extension modules share one OpenMP runtime; the runtime gives a region as many threads as it asks for;
`num_threads` and `num_gpu_devices` are integers (other types are in `Verif.Model.Args`); the outcome of all other checks of
a call, made before the native code, is given.
-/

namespace Imate.ThreadCount

/-- The machine and the environment of the process. -/
structure Machine where
  /-- `multiprocessing.cpu_count()`: the processors of the machine -/
  cpuCount : ℕ
  /-- the variable of a new thread: the processors the process may use, or `OMP_NUM_THREADS` -/
  initial : ℕ
  /-- the GPU devices -/
  devices : ℕ

/-- The variable of each thread of the process. -/
abbrev State := ℕ → ℕ

/-- A new process. -/
def start (m : Machine) : State := fun _ => m.initial

/-- `omp_set_num_threads(k)` in the thread `τ`; numbers below one count as one. -/
def setNumThreads (τ k : ℕ) (s : State) : State := Function.update s τ (max k 1)

/-- `omp_get_max_threads()` in the thread `τ`. -/
def getMaxThreads (τ : ℕ) (s : State) : ℕ := s τ

/-- What the caller sees of a call that ran: `info['device']['num_cpu_threads']`, and the numbers of threads of its parallel
regions, in order. -/
structure Seen where
  reported : ℕ
  teams : List ℕ
  deriving DecidableEq

/-- `#pragma omp parallel`: the number of threads of a region begun by the thread `τ`. -/
def region (τ : ℕ) (s : State) : ℕ := s τ

/-- A call of `trace`, `traceinv`, `logdet`, … with `method='slq'`. -/
structure Slq where
  numThreads : ℤ
  gpu : Bool
  numGpuDevices : ℕ
  /-- the exception of a check before the native code -/
  refused : Option PyExc
  /-- the operator is already on the devices asked for (C06) -/
  cached : Bool
  /-- the operator was made for this call from an array and dies with it -/
  temporary : Bool

/-- trace_estimator.pyx:115-116 (`num_threads`), 134-140 (checks), 191-227 (GPU), 229-263 (CPU), 335 (`info`);
c_trace_estimator.cpp:223, 259 (CPU) and cu_trace_estimator.cu:229, 265 (GPU) set the variable and begin the loop.  A new
operator on the GPU sets it to the number of its devices and runs a region for each of its parts, which are not listed
(cu_linear_operator.cu:193, 225, cu_dense_matrix.cu:100, cu_csr_matrix.cu:170); its destructor does so again
(cu_linear_operator.cu:109, 131).  More devices than there are end the process (cu_linear_operator.cu:72-80). -/
def slq (m : Machine) (τ : ℕ) (c : Slq) (s : State) : Except PyExc Seen × State :=
  let numThreads := if c.numThreads < 1 then getMaxThreads τ s else c.numThreads.toNat
  match c.refused with
  | some e => (.error e, s)
  | none =>
    if c.gpu then
      if m.devices < c.numGpuDevices then (.error (.native .abort), s)
      else
        let numGpuDevices := if c.numGpuDevices = 0 then m.devices else c.numGpuDevices
        let s := if c.cached then s else setNumThreads τ numGpuDevices s
        let s := setNumThreads τ numGpuDevices s
        let seen := ⟨numThreads, [region τ s]⟩
        let s := if c.temporary then setNumThreads τ numGpuDevices s else s
        (.ok seen, s)
    else
      let s := setNumThreads τ numThreads s
      (.ok ⟨numThreads, [region τ s]⟩, s)

/-- A call of `traceinv` with `method='hutchinson'`. -/
structure Hutchinson where
  numThreads : ℤ
  refused : Option PyExc
  orthogonalize : Bool
  /-- how often `orthogonalize_vectors` draws a vector again (orthogonalization.pyx:283) -/
  redrawn : ℕ

/-- `generate_random_array` with `num_threads > 0` (random_array_generator.cpp:74-78, 104). -/
def generateRandomArray (τ numThreads : ℕ) (s : State) : List ℕ × State :=
  let s := setNumThreads τ numThreads s
  ([region τ s], s)

/-- `orthogonalize_vectors` (orthogonalization.pyx:228, 283): each vector that is drawn again is drawn by one thread. -/
def orthogonalizeVectors (τ : ℕ) : ℕ → State → List ℕ × State
  | 0, s => ([], s)
  | n + 1, s =>
    let (l, s) := generateRandomArray τ 1 s
    let (ls, s) := orthogonalizeVectors τ n s
    (l ++ ls, s)

/-- `generate_random_column_vectors` (random_vectors.pyx:61-85). -/
def generateRandomColumnVectors (τ numThreads : ℕ) (orthogonalize : Bool) (redrawn : ℕ) (s : State) : List ℕ × State :=
  let (l1, s) := generateRandomArray τ numThreads s
  let (l2, s) := if orthogonalize then orthogonalizeVectors τ redrawn s else ([], s)
  let s := setNumThreads τ numThreads s
  (l1 ++ l2 ++ [region τ s], s)

/-- _hutchinson_method.pyx:619-626 (checks), 642-643 (`num_threads`), 785-787 (vectors), 710 (`info`).  The samples are
computed by one thread. -/
def hutchinson (m : Machine) (τ : ℕ) (c : Hutchinson) (s : State) : Except PyExc Seen × State :=
  match c.refused with
  | some e => (.error e, s)
  | none =>
    let numThreads := if c.numThreads < 1 then m.cpuCount else c.numThreads.toNat
    let (teams, s) := generateRandomColumnVectors τ numThreads c.orthogonalize c.redrawn s
    (.ok ⟨numThreads, teams⟩, s)

/-- `correlation_matrix`: _dense_correlation_matrix.pyx:203, 101, 114 and _sparse_correlation_matrix.pyx:518, 149, 168, which
may be tried several times (543-634).  There is no `info`; the number is given in its place. -/
def correlationTries (m : Machine) (τ : ℕ) : ℕ → State → List ℕ × State
  | 0, s => ([], s)
  | n + 1, s =>
    let s := setNumThreads τ m.cpuCount s
    let l := region τ s
    let (ls, s) := correlationTries m τ n s
    (l :: ls, s)

/-- A call of `correlation_matrix`: refused, or with one try (dense) or several (sparse). -/
def correlation (m : Machine) (τ : ℕ) (refused : Option PyExc) (retries : ℕ) (s : State) : Except PyExc Seen × State :=
  match refused with
  | some e => (.error e, s)
  | none =>
    let (teams, s) := correlationTries m τ (retries + 1) s
    (.ok ⟨m.cpuCount, teams⟩, s)

/-- What a thread of the program may do. -/
inductive Call where
  | slq (c : Slq)
  | hutchinson (c : Hutchinson)
  | correlation (refused : Option PyExc) (retries : ℕ)
  /-- the methods `exact`, `eigenvalue` and `cholesky`, the Toeplitz functions, the queries of devices -/
  | direct (outcome : Except PyExc Unit)
  /-- an operator on `devices` GPU devices is released by the program (cu_linear_operator.cu:103-143) -/
  | release (devices : ℕ)

/-- One call in the thread `τ`. -/
def call (m : Machine) (τ : ℕ) (c : Call) (s : State) : Except PyExc Seen × State :=
  match c with
  | .slq c => slq m τ c s
  | .hutchinson c => hutchinson m τ c s
  | .correlation r n => correlation m τ r n s
  | .direct (.ok _) => (.ok ⟨1, []⟩, s)
  | .direct (.error e) => (.error e, s)
  | .release g => (.ok ⟨1, []⟩, setNumThreads τ g s)

/-- The state after a history of calls by the threads of the program. -/
def after (m : Machine) (h : List (ℕ × Call)) : State := h.foldl (fun s c => (call m c.1 c.2 s).2) (start m)

/-- What a call gives after a history. -/
def result (m : Machine) (h : List (ℕ × Call)) (τ : ℕ) (c : Call) : Except PyExc Seen := (call m τ c (after m h)).1

end Imate.ThreadCount
