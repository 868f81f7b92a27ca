import Verif.Model.Convergence

/-!
# Model of the parallel sampling loop of `c_trace_estimator.cpp`

`c_trace_estimator` (c_trace_estimator.cpp:190-307) runs

    #pragma omp parallel for schedule(dynamic, chunk_size)
    for (i=0; i < max_num_samples; ++i)
        if (!all_converged) { _c_stochastic_lanczos_quadrature(..., converged, samples[i]);
            #pragma omp critical { record i; all_converged = check_convergence(...) } }

The model is an interleaving transition system: `stepThread cfg t s` is the next atomic action of
thread `t`.  Every read of the shared flags `all_converged` and `converged[j]`, every write of
`converged[j]` outside the critical section, every use of the operator's shared parameter and every
write of a sample is an action of its own; the critical section is one action.

Simplifications: memory is sequentially consistent; the value of sample `i` for inquiry `j` is
the parameter `cfg.value i j` (an execution computes it at most once, so a function of `i` and `j`
loses nothing); the quantiles of `check_convergence` are parameters.
-/

namespace Imate.Estimator
open Convergence

/-- What is known about `samples[i][j]`. -/
inductive Cell where
  /-- still the `NAN` written by py_c_trace_estimator.pyx:231-234 -/
  | untouched
  /-- computed by c_trace_estimator.cpp:607-620 from nodes and weights of this inquiry; `own` says that
  every operator application of the Lanczos run used the parameter of this inquiry -/
  | computed (own : Bool)
  /-- computed from the uninitialised `lanczos_size[j]` -/
  | garbage
  deriving DecidableEq, Repr

/-- Arguments of a run. -/
structure Config (V : Type) where
  numThreads : Nat
  chunkSize : Nat
  minNumSamples : Nat
  maxNumSamples : Nat
  numInquiries : Nat
  /-- `A->is_eigenvalue_relation_known()` -/
  relationKnown : Bool
  /-- number of operator applications of one Lanczos run -/
  numProducts : Nat
  z : V
  atol : V
  rtol : V
  /-- the number computed for sample `i`, inquiry `j` -/
  value : Nat → Nat → V
  /-- the number computed if some product of the run used another parameter -/
  mixedValue : Nat → Nat → V
  /-- the number computed from uninitialised data -/
  garbageValue : Nat → Nat → V

variable {V : Type} [FloatLike V]

/-- `required_num_inquiries`, c_trace_estimator.cpp:448-457. -/
def Config.required (cfg : Config V) : Nat :=
  if cfg.relationKnown then 1 else cfg.numInquiries

/-- The number found in `samples[i][j]`. -/
def Config.cellValue (cfg : Config V) (i j : Nat) : Cell → V
  | .untouched => FloatLike.nan
  | .computed true => cfg.value i j
  | .computed false => cfg.mixedValue i j
  | .garbage => cfg.garbageValue i j

/-- Program counter of a thread inside one iteration `i` of the loop.  `seen` records, for each
inquiry already passed in the first loop over inquiries, whether its Lanczos run was skipped, and if
not whether it was run with its own parameter only. -/
inductive Pc where
  /-- before the test `if (!all_converged)`, or between iterations -/
  | ready
  /-- c_trace_estimator.cpp:497-506: about to test `converged[j]` in the first loop -/
  | test (i j : Nat) (seen : List (Option Bool))
  /-- about to call `A->set_parameters(&parameters[j*num_parameters])`, line 509 -/
  | setParam (i j : Nat) (seen : List (Option Bool))
  /-- inside the Lanczos run for inquiry `j`, `k` products left, lines 511-555 -/
  | lanczos (i j k : Nat) (own : Bool) (seen : List (Option Bool))
  /-- about to execute `converged[j] = 0`, lines 571-574 -/
  | reset (i j : Nat) (seen : List (Option Bool))
  /-- about to test `converged[j]` and write `trace_estimate[j]`, lines 598-621 -/
  | quad (i j : Nat) (seen : List (Option Bool))
  /-- about to enter the critical section, c_trace_estimator.cpp:274-289 -/
  | critical (i : Nat)
  deriving DecidableEq, Repr

/-- A thread: its position and the rest of the chunk of iterations it was given. -/
structure Thread where
  todo : List Nat
  pc : Pc
  deriving DecidableEq, Repr

/-- Shared state. -/
structure State (V : Type) where
  /-- next iteration index not yet given to a thread -/
  next : Nat
  threads : List Thread
  samples : Nat → Nat → Cell
  /-- `processed_samples_indices[0 .. num_processed_samples)` -/
  processed : List Nat
  inqs : List (Inquiry V)
  allConverged : Bool
  /-- the inquiry whose parameters were last given to `A->set_parameters` -/
  param : Nat
  /-- ghost: iterations whose body was skipped because of `all_converged` -/
  skipped : List Nat

/-- State on entry of the loop; arrays as initialised by trace_estimator.pyx:151-174. -/
def init (cfg : Config V) : State V where
  next := 0
  threads := List.replicate cfg.numThreads ⟨[], .ready⟩
  samples := fun _ _ => .untouched
  processed := []
  inqs := List.replicate cfg.numInquiries ⟨FloatLike.ofNat 0, 0, false⟩
  allConverged := false
  param := 0
  skipped := []

/-- `converged[j]` -/
def flag (s : State V) (j : Nat) : Bool :=
  match s.inqs[j]? with
  | some q => q.converged
  | none => false

/-- `converged[j] = 0` -/
def clearFlag (s : State V) (j : Nat) : State V :=
  { s with inqs := s.inqs.modify j (fun q => { q with converged := false }) }

/-- The column of processed samples of inquiry `j`. -/
def column (cfg : Config V) (s : State V) (j : Nat) : List V :=
  s.processed.map (fun i => cfg.cellValue i j (s.samples i j))

/-- What the quadrature loop writes to `samples[i][j]`, given how the first loop treated the inquiry
whose nodes it uses (inquiry 0 if the eigenvalue relation is known and there are several). -/
def quadCell (cfg : Config V) (seen : List (Option Bool)) (j : Nat) : Cell :=
  match seen[if cfg.relationKnown && decide (1 < cfg.numInquiries) then 0 else j]? with
  | some (some own) => .computed own
  | _ => .garbage

/-- Position after the first loop over inquiries. -/
def afterLanczos (cfg : Config V) (i : Nat) (seen : List (Option Bool)) : Pc :=
  if cfg.relationKnown && decide (1 < cfg.numInquiries) then .reset i 0 seen else .quad i 0 seen

/-- The critical section, c_trace_estimator.cpp:274-289. -/
def criticalSection (cfg : Config V) (i : Nat) (s : State V) : State V :=
  let s := { s with processed := s.processed ++ [i] }
  let r := checkConvergence cfg.minNumSamples cfg.z cfg.atol cfg.rtol (column cfg s)
    s.processed.length s.inqs
  { s with inqs := r.1, allConverged := r.2 }

/-- One atomic action of a thread in state `th`; `none` if it has nothing left to do. -/
def stepThread (cfg : Config V) (s : State V) (th : Thread) : Option (State V × Thread) :=
  match th.pc with
  | .ready =>
    match th.todo with
    | [] =>
      if s.next < cfg.maxNumSamples then
        -- schedule(dynamic, chunk_size): take the next chunk
        let hi := min (s.next + max 1 cfg.chunkSize) cfg.maxNumSamples
        some ({ s with next := hi }, { th with todo := List.range' s.next (hi - s.next) })
      else none
    | i :: rest =>
      if s.allConverged then some ({ s with skipped := s.skipped ++ [i] }, { th with todo := rest })
      else some (s, ⟨rest, .test i 0 []⟩)
  | .test i j seen =>
    if j < cfg.required then
      if flag s j && decide (cfg.required = cfg.numInquiries) then
        some (s, { th with pc := .test i (j + 1) (seen ++ [none]) })
      else some (s, { th with pc := .setParam i j seen })
    else some (s, { th with pc := afterLanczos cfg i seen })
  | .setParam i j seen =>
    some ({ s with param := j }, { th with pc := .lanczos i j cfg.numProducts true seen })
  | .lanczos i j k own seen =>
    match k with
    | 0 => some (s, { th with pc := .test i (j + 1) (seen ++ [some own]) })
    | k + 1 => some (s, { th with pc := .lanczos i j k (own && decide (s.param = j)) seen })
  | .reset i j seen =>
    if j < cfg.numInquiries then some (clearFlag s j, { th with pc := .reset i (j + 1) seen })
    else some (s, { th with pc := .quad i 0 seen })
  | .quad i j seen =>
    if j < cfg.numInquiries then
      if flag s j then some (s, { th with pc := .quad i (j + 1) seen })
      else some ({ s with samples := fun i' j' =>
              if i' = i ∧ j' = j then quadCell cfg seen j else s.samples i' j' },
            { th with pc := .quad i (j + 1) seen })
    else some (s, { th with pc := .critical i })
  | .critical i => some (criticalSection cfg i s, { th with pc := .ready })

/-- Thread `t` makes one action. -/
def step (cfg : Config V) (s : State V) (t : Nat) : Option (State V) :=
  match s.threads[t]? with
  | none => none
  | some th =>
    match stepThread cfg s th with
    | none => none
    | some (s', th') => some { s' with threads := s.threads.set t th' }

/-- Run a schedule (a list of thread numbers); `none` if it asks a finished thread to move. -/
def run (cfg : Config V) : State V → List Nat → Option (State V)
  | s, [] => some s
  | s, t :: ts => (step cfg s t).bind (fun s => run cfg s ts)

/-- All threads have reached the end of the loop. -/
def Finished (cfg : Config V) (s : State V) : Prop := ∀ t < cfg.numThreads, step cfg s t = none

/-- The call of `average_estimates` after the loop, c_trace_estimator.cpp:297-301: the result for
inquiry `j`. -/
def averaged (cfg : Config V) (errorZ outlierZ : V) (s : State V) (j : Nat) : Averaged V :=
  match s.inqs[j]? with
  | some q => averageEstimate errorZ outlierZ ((column cfg s j).take q.numSamplesUsed)
  | none => ⟨FloatLike.nan, FloatLike.nan, 0⟩

/-- `samples[i, j]` as returned to Python (py_c_trace_estimator.pyx:272-274; rows beyond
`num_samples_used[j]` keep the NaN of trace_estimator.pyx:160). -/
def reportedSample (cfg : Config V) (s : State V) (i j : Nat) : V :=
  match s.inqs[j]? with
  | some q =>
    if i < q.numSamplesUsed then
      match s.processed[i]? with
      | some p => cfg.cellValue p j (s.samples p j)
      | none => cfg.cellValue 0 j (s.samples 0 j)
    else FloatLike.nan
  | none => FloatLike.nan

/-- `info['convergence']['samples_processed_order']`: the whole array, whose entries beyond the
processed samples are the zeros of trace_estimator.pyx:163-165 (returned at line 325). -/
def reportedOrder (cfg : Config V) (s : State V) : List Nat :=
  s.processed ++ List.replicate (cfg.maxNumSamples - s.processed.length) 0

end Imate.Estimator
