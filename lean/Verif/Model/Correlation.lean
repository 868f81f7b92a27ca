import Verif.Model.Kernel
import Verif.Model.Py
import Mathlib.Algebra.Order.Floor.Defs
import Mathlib.Algebra.Order.Floor.Semiring
import Mathlib.Analysis.Real.Pi.Bounds

/-!
# Model of `correlation_matrix`

`imate/sample_matrices/correlation_matrix.py`, `_dense_correlation_matrix.pyx` and
`_sparse_correlation_matrix.pyx`.  The native loops run on several threads; a run is a sequence of the actions of
the threads in any order.  Rounding to the type of the matrix, the progress counter, the plot and the printed
messages are not modelled.
-/

namespace Imate.Sample

/-! ### The kernel -/

/-- The check of `kernel` (correlation_matrix.py:474-480); any string is a `str`. -/
def checkKernel (kernel : String) : Except PyExc Unit :=
  if kernel ∈ ["matern", "exponential", "square_exponential", "rational_quadratic"] then .ok ()
  else .error .valueError

/-- The default of `kernel_param` (correlation_matrix.py:378-382), and what becomes of `None` after it
(_dense_correlation_matrix.pyx:195-196, _sparse_correlation_matrix.pyx:510-511). -/
noncomputable def kernelParam (kernel : String) : Option (XR ℝ) → XR ℝ
  | some p => p
  | none =>
    if kernel = "matern" then .fin (1 / 2)
    else if kernel = "rational-quadratic" then .fin 1
    else .nan

/-- The correlation of two points (_dense_correlation_matrix.pyx:120-126,
_sparse_correlation_matrix.pyx:179-185). -/
noncomputable def correlation (kernel : Kernel) (param : XR ℝ) (scale : ℝ) (points : List Point) (i j : ℕ) :
    Option ℝ :=
  kernel (euclideanDistance (points.getD i []) (points.getD j []) scale) param

/-! ### The dense matrix -/

variable {V : Type}

/-- The two statements of the inner loop. -/
inductive DenseAct where
  /-- write the entry `(i, j)` (_dense_correlation_matrix.pyx:119-126) -/
  | compute (i j : ℕ)
  /-- copy the entry `(i, j)` to `(j, i)` (_dense_correlation_matrix.pyx:130-131) -/
  | mirror (i j : ℕ)

/-- The iteration of the outer loop for the row `i` (_dense_correlation_matrix.pyx:116-131). -/
def denseRow (n i : ℕ) : List DenseAct :=
  (List.range' i (n - i)).flatMap fun j => if i ≠ j then [.compute i j, .mirror i j] else [.compute i j]

/-- One action on the buffer `c_correlation_matrix`; `entry i j` is the correlation of the points `i` and `j`. -/
def denseExec (entry : ℕ → ℕ → V) (n : ℕ) (c : Array V) : DenseAct → Except Fault (Array V)
  | .compute i j => wr c (i * n + j) (entry i j)
  | .mirror i j => do
    let x ← rd c (i * n + j)
    wr c (j * n + i) x

/-- `chunk_size` (_dense_correlation_matrix.pyx:108-110, _sparse_correlation_matrix.pyx:160-162). -/
def chunkSize (n numThreads : ℕ) : ℕ := if n / numThreads < 1 then 1 else n / numThreads

/-- The rows of a thread under `schedule='static'` with this chunk size (_dense_correlation_matrix.pyx:115): the
chunks are dealt out in turn. -/
def staticRows (n chunk numThreads t : ℕ) : List ℕ :=
  (List.range n).filter fun i => i / chunk % numThreads = t

/-- What every thread does (_dense_correlation_matrix.pyx:114-131).  OpenMP can start fewer threads (`started`)
than the chunk size was computed for (`numThreads`). -/
def densePrograms (n numThreads started : ℕ) : List (List DenseAct) :=
  (List.range started).map fun t => (staticRows n (chunkSize n numThreads) started t).flatMap (denseRow n)

/-- Run a sequence of actions. -/
def denseRun (entry : ℕ → ℕ → V) (n : ℕ) (es : List DenseAct) (c : Array V) : Except Fault (Array V) :=
  es.foldlM (denseExec entry n) c

/-- `correlation_matrix` with `sparse=False` (correlation_matrix.py:373-413,
_dense_correlation_matrix.pyx:154-285), from the check of `kernel` on, with the actions in the order `es`. -/
noncomputable def correlationDense (kv : ℝ → ℝ → ℝ) (rand : ℕ → ℕ) (randMax size dimension : ℕ) (scale : ℝ)
    (kernel : String) (param : Option (XR ℝ)) (grid : Bool) (es : List DenseAct) :
    Except PyExc (Array (Option ℝ)) := do
  checkKernel kernel
  let points := generatePoints rand randMax size dimension grid
  let n := points.length
  let k ← ofNative (getKernel kv kernel)
  ofNative (denseRun (correlation k (kernelParam kernel param) scale points) n es (Array.replicate (n * n) (some 0)))

/-! ### The threshold of the sparse matrix -/

/-- The loop of `_ball_radius` for an even dimension; `m` is the value of `k`
(_sparse_correlation_matrix.pyx:271-273). -/
noncomputable def gammaEven : ℕ → ℝ → ℝ
  | 0, gamma => gamma
  | m + 1, gamma => gammaEven m (gamma * (m + 1 : ℕ))

/-- The loop of `_ball_radius` for an odd dimension (_sparse_correlation_matrix.pyx:277-279). -/
noncomputable def gammaOdd : ℕ → ℝ → ℝ
  | 0, gamma => gamma
  | m + 1, gamma => gammaOdd m (gamma * ((m + 1 : ℕ) - 1 / 2))

/-- `_ball_radius` (_sparse_correlation_matrix.pyx:253-284). -/
noncomputable def ballRadius (volume : ℝ) (dimension : ℕ) : ℝ :=
  let gamma := if dimension % 2 = 0 then gammaEven (dimension / 2) 1 else gammaOdd ((dimension + 1) / 2) √Real.pi
  (gamma * volume) ^ (1 / (dimension : ℝ)) / √Real.pi

/-- `_estimate_kernel_threshold` (_sparse_correlation_matrix.pyx:291-404). -/
noncomputable def kernelThreshold (kernel : Kernel) (param : XR ℝ) (scale : ℝ) (n dimension : ℕ) (density : ℝ) :
    Except PyExc (Option ℝ) :=
  let adjacencyVolume := density * n
  if adjacencyVolume < 1 then .error .valueError
  else
    let adjacencyRadius := ballRadius adjacencyVolume dimension
    let gridAxisNumPoints := (n : ℝ) ^ (1 / (dimension : ℝ))
    if gridAxisNumPoints - 1 = 0 then .error .zeroDivision
    else
      let gridSize := 1 / (gridAxisNumPoints - 1)
      let kernelRadius := gridSize * adjacencyRadius
      .ok (kernel (some (kernelRadius / scale)) param)

/-- `_estimate_max_nnz` (_sparse_correlation_matrix.pyx:411-445). -/
noncomputable def maxNnz (n dimension : ℕ) (density : ℝ) : ℕ :=
  let estimated := ⌈density * (n : ℝ) ^ 2⌉₊
  ⌈1 / ballRadius 1 dimension * estimated⌉₊

/-! ### The loop of the sparse matrix -/

/-- Where a thread is. -/
inductive SparsePos where
  /-- between two rows -/
  | idle
  /-- in front of the test of `success` for the row `i` (line 173) -/
  | row (i : ℕ)
  /-- in front of the column `j` of the row `i` (lines 176-191) -/
  | col (i j : ℕ)
  /-- in front of the critical section that gives up (lines 194-206) -/
  | stop (i j : ℕ)
  /-- in front of the critical section that stores the entry `(i, j)` (lines 209-226) -/
  | add (i j : ℕ)
  deriving DecidableEq

/-- A thread: its position and the rest of the chunk of rows it was given. -/
structure SparseThread where
  pos : SparsePos
  rest : List ℕ

/-- The state shared by the threads, and the threads. -/
structure SparseState (V : Type) where
  /-- the first row that was not given to a thread -/
  next : ℕ
  nnz : ℕ
  rows : Array ℕ
  cols : Array ℕ
  data : Array V
  success : Bool
  threads : List SparseThread

/-- What a run computes. -/
structure SparseProblem (V : Type) where
  n : ℕ
  chunk : ℕ
  maxNnz : ℕ
  entry : ℕ → ℕ → V
  /-- `thread_data > kernel_threshold` -/
  above : V → Bool

/-- Store one entry: lines 211-215 or 219-223 of _sparse_correlation_matrix.pyx.  Bounds are not checked by the code
(`boundscheck(False)`). -/
def sparsePush (s : SparseState V) (i j : ℕ) (v : V) : Except Fault (SparseState V) := do
  let nnz := s.nnz + 1
  let rows ← wr s.rows (nnz - 1) i
  let cols ← wr s.cols (nnz - 1) j
  let data ← wr s.data (nnz - 1) v
  .ok { s with nnz := nnz, rows := rows, cols := cols, data := data }

/-- The critical section that stores an entry, and the one opposite to it (_sparse_correlation_matrix.pyx:209-226). -/
def sparseAdd (p : SparseProblem V) (s : SparseState V) (i j : ℕ) : Except Fault (SparseState V) := do
  let s ← sparsePush s i j (p.entry i j)
  if i ≠ j then sparsePush s j i (p.entry i j) else .ok s

/-- One step of a run: the thread that moves, and the values it sees when it reads `success` (line 173) or `nnz`
(line 191) outside of the critical sections. -/
structure SparseMove where
  thread : ℕ
  seenSuccess : Bool
  seenNnz : ℕ

/-- One step of the thread number `t`, which is at `th` (_sparse_correlation_matrix.pyx:169-226). -/
def sparseStep (p : SparseProblem V) (s : SparseState V) (m : SparseMove) (th : SparseThread) :
    Except Fault (SparseState V) :=
  let put (s : SparseState V) (th : SparseThread) : SparseState V := { s with threads := s.threads.set m.thread th }
  match th.pos with
  | .idle =>
    match th.rest with
    | i :: rest => .ok (put s ⟨.row i, rest⟩)
    | [] =>
      if s.next < p.n then
        let hi := min (s.next + p.chunk) p.n
        .ok (put { s with next := hi } ⟨.idle, List.range' s.next (hi - s.next)⟩)
      else .ok s
  | .row i => .ok (put s ⟨if m.seenSuccess then .col i i else .idle, th.rest⟩)
  | .col i j =>
    if j < p.n then
      if p.above (p.entry i j) then
        if m.seenNnz ≥ p.maxNnz then .ok (put s ⟨.stop i j, th.rest⟩) else .ok (put s ⟨.add i j, th.rest⟩)
      else .ok (put s ⟨.col i (j + 1), th.rest⟩)
    else .ok (put s ⟨.idle, th.rest⟩)
  | .stop _ _ => .ok (put { s with success := false } ⟨.idle, th.rest⟩)
  | .add i j => do
    let s ← sparseAdd p s i j
    .ok (put s ⟨.col i (j + 1), th.rest⟩)

/-- What a thread can see: `success` may still look true after another thread made it false; `nnz` is the present
value, an old one, or the value between the two stores of another thread.  This allows more than the hardware does: a
thread always sees its own stores. -/
def SparseMove.Possible (s : SparseState V) (m : SparseMove) : Prop :=
  (m.seenSuccess = false → s.success = false) ∧
  (m.seenNnz ≤ s.nnz ∨ (m.seenNnz = s.nnz + 1 ∧
    ∃ t i j rest, t ≠ m.thread ∧ i ≠ j ∧ s.threads[t]? = some ⟨.add i j, rest⟩))

/-- A run of the loop (_sparse_correlation_matrix.pyx:164-246): it goes on until no thread has anything left to do,
or until an access outside of the arrays. -/
inductive SparseRun (p : SparseProblem V) : SparseState V → Except Fault (SparseState V) → Prop where
  | done {s : SparseState V} : s.next ≥ p.n → (∀ th ∈ s.threads, th = ⟨.idle, []⟩) → SparseRun p s (.ok s)
  | fault {s : SparseState V} {m : SparseMove} {th : SparseThread} {f : Fault} :
      s.threads[m.thread]? = some th → m.Possible s → sparseStep p s m th = .error f → SparseRun p s (.error f)
  | step {s s' : SparseState V} {m : SparseMove} {th : SparseThread} {out : Except Fault (SparseState V)} :
      s.threads[m.thread]? = some th → m.Possible s → sparseStep p s m th = .ok s' → SparseRun p s' out →
      SparseRun p s out

/-- The state at the start (_sparse_correlation_matrix.pyx:554-557, 165-167). -/
def sparseStart (p : SparseProblem V) (zero : V) (threads : ℕ) : SparseState V where
  next := 0
  nnz := 0
  rows := Array.replicate p.maxNnz 0
  cols := Array.replicate p.maxNnz 0
  data := Array.replicate p.maxNnz zero
  success := true
  threads := List.replicate threads ⟨.idle, []⟩

/-- The entries of the COO matrix made of the first `nnz` elements (_sparse_correlation_matrix.pyx:641-645). -/
def SparseState.entries (s : SparseState V) : List (ℕ × ℕ × V) :=
  ((s.rows.toList.take s.nnz).zip ((s.cols.toList.take s.nnz).zip (s.data.toList.take s.nnz)))

/-- The loop that doubles the arrays until they are large enough (_sparse_correlation_matrix.pyx:551-638). -/
inductive SparseRetry (p : SparseProblem V) (zero : V) (threads : ℕ) : ℕ → Except Fault (List (ℕ × ℕ × V)) → Prop where
  | done {m : ℕ} {s : SparseState V} :
      SparseRun { p with maxNnz := m } (sparseStart { p with maxNnz := m } zero threads) (.ok s) → s.success = true →
      SparseRetry p zero threads m (.ok s.entries)
  | fault {m : ℕ} {f : Fault} :
      SparseRun { p with maxNnz := m } (sparseStart { p with maxNnz := m } zero threads) (.error f) →
      SparseRetry p zero threads m (.error f)
  | again {m : ℕ} {s : SparseState V} {out : Except Fault (List (ℕ × ℕ × V))} :
      SparseRun { p with maxNnz := m } (sparseStart { p with maxNnz := m } zero threads) (.ok s) → s.success = false →
      SparseRetry p zero threads (2 * m) out → SparseRetry p zero threads m out

/-- `thread_data > kernel_threshold` (_sparse_correlation_matrix.pyx:188); a comparison with `nan` is false. -/
noncomputable def aboveThreshold (threshold v : Option ℝ) : Bool :=
  match v, threshold with
  | some v, some t => decide (v > t)
  | _, _ => false

/-- What `correlation_matrix` with `sparse=True` does before the loop that doubles the arrays
(correlation_matrix.py:373-402, _sparse_correlation_matrix.pyx:510-536), from the check of `kernel` on. -/
noncomputable def sparseSetup (kv : ℝ → ℝ → ℝ) (rand : ℕ → ℕ) (randMax size dimension : ℕ) (scale : ℝ)
    (kernel : String) (param : Option (XR ℝ)) (grid : Bool) (density : ℝ) (numThreads : ℕ) :
    Except PyExc (SparseProblem (Option ℝ)) := do
  checkKernel kernel
  let param := kernelParam kernel param
  let points := generatePoints rand randMax size dimension grid
  let n := points.length
  let k ← ofNative (getKernel kv kernel)
  let threshold ← kernelThreshold k param scale n dimension density
  .ok { n := n, chunk := chunkSize n numThreads, maxNnz := maxNnz n dimension density
        entry := correlation k param scale points, above := aboveThreshold threshold }

end Imate.Sample
