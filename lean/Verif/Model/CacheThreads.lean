import Verif.Model.OperatorCache
import Mathlib.Logic.Function.Basic

/-!
# One operator object used by several Python threads

`get_linear_operator` (linear_operator.py:114-147) and `initialize` (matrix.py:286-352, affine_matrix_function.py:295-362)
of one object, called by any number of threads.  A step of a thread is one access to an attribute of the object, or one
construction of a native operator; between two steps any other thread may run.  This is what the Python language allows, and
what the interpreter does when it checks for a switch after each instruction (CPython 3.8 and 3.9, PyPy, free-threaded
builds); later versions with a global lock switch only at calls, which are the steps `buildGpu`, `buildCpu` and `properties`.
The run of the C++ code itself holds the global lock, because `_c_trace_estimator/py_c_trace_estimator.pyx` does not release
it, and is not modelled here.  The attribute `self.gpu` is written and never read, and is left out.
-/

namespace Imate.CacheThreads

open Cache

variable {M : Type}

/-- Where a call stands: the next thing it does. -/
inductive Pc (M : Type) where
  /-- `if not self.initialized_on_gpu`, matrix.py:303 -/
  | checkGpu
  /-- `pycuMatrix(self.A, num_gpu_devices)`, matrix.py:307, 339 -/
  | buildGpu
  /-- `self.gpu_Aop = …`, matrix.py:307, 339 -/
  | storeGpu (h : Handle M)
  /-- `self.initialized_on_gpu = True`, matrix.py:308, 340 -/
  | flagGpu
  /-- `elif num_gpu_devices != self.num_gpu_devices`, matrix.py:310 -/
  | compare
  /-- `self.gpu_Aop.get_device_properties()`, matrix.py:313 -/
  | properties
  /-- `if (num_gpu_devices == 0) and (self.num_gpu_devices == num_all_gpu_devices)`, matrix.py:321-322 -/
  | firstTest (all : Nat)
  /-- `elif (num_gpu_devices == num_all_gpu_devices) and (self.num_gpu_devices == 0)`, matrix.py:324-325 -/
  | secondTest (all : Nat)
  /-- `if self.gpu_Aop is not None`, matrix.py:336 -/
  | testNone
  /-- `del self.gpu_Aop`, matrix.py:337 -/
  | delete
  /-- `if not self.initialized_on_cpu`, matrix.py:344 -/
  | checkCpu
  /-- `pycMatrix(self.A)`, matrix.py:348 -/
  | buildCpu
  /-- `self.cpu_Aop = …`, matrix.py:348 -/
  | storeCpu (h : Handle M)
  /-- `self.initialized_on_cpu = True`, matrix.py:349 -/
  | flagCpu
  /-- `self.num_gpu_devices = num_gpu_devices`, matrix.py:352 -/
  | record
  /-- `self.gpu_Aop is None`, linear_operator.py:139, and the same for the CPU, 143 -/
  | selectNone
  /-- `not self.initialized_on_gpu`, linear_operator.py:139, 143 -/
  | selectFlag
  /-- `self.gpu_Aop` of linear_operator.py:141, 145 -/
  | selectRead
  /-- `self.Aop = …`, linear_operator.py:141, 145 -/
  | storeAop (h : Handle M)
  /-- `return self.Aop`, linear_operator.py:147 -/
  | readAop
  /-- the call has returned or raised -/
  | done (r : Except PyExc (Handle M))

/-- The first step of a call. -/
def start (gpu : Bool) : Pc M := if gpu then .checkGpu else .checkCpu

/-- One step of a call of `get_linear_operator(gpu, num_gpu_devices=k)`; `e` is what the machine does in a construction. -/
def stepPc (e : Env) (gpu : Bool) (k : Nat) (o : Obj M) : Pc M → Obj M × Pc M
  | .checkGpu => (o, if o.initializedOnGpu then .compare else .buildGpu)
  | .buildGpu =>
    match newGpu e o.A k with
    | .error x => (o, .done (.error x))
    | .ok h => (o, .storeGpu h)
  | .storeGpu h => ({ o with gpuAop := .set h }, .flagGpu)
  | .flagGpu => ({ o with initializedOnGpu := true }, .record)
  | .compare => (o, if k ≠ o.numGpuDevices then .properties else .record)
  | .properties =>
    match allDevices e o with
    | .error x => (o, .done (.error x))
    | .ok all => (o, .firstTest all)
  | .firstTest all => (o, if k = 0 ∧ o.numGpuDevices = all then .record else .secondTest all)
  | .secondTest all => (o, if k = all ∧ o.numGpuDevices = 0 then .record else .testNone)
  | .testNone =>
    match o.gpuAop with
    | .missing => (o, .done (.error .attributeError))
    | .none => (o, .buildGpu)
    | .set _ => (o, .delete)
  | .delete =>
    match o.gpuAop with
    | .missing => (o, .done (.error .attributeError))
    | _ => ({ o with gpuAop := .missing }, .buildGpu)
  | .checkCpu => (o, if o.initializedOnCpu then .record else .buildCpu)
  | .buildCpu =>
    match newCpu e o.A with
    | .error x => (o, .done (.error x))
    | .ok h => (o, .storeCpu h)
  | .storeCpu h => ({ o with cpuAop := .set h }, .flagCpu)
  | .flagCpu => ({ o with initializedOnCpu := true }, .record)
  | .record => ({ o with numGpuDevices := k }, .selectNone)
  | .selectNone =>
    match (if gpu then o.gpuAop else o.cpuAop) with
    | .missing => (o, .done (.error .attributeError))
    | .none => (o, .done (.error .runtimeError))
    | .set _ => (o, .selectFlag)
  | .selectFlag =>
    (o, if (if gpu then o.initializedOnGpu else o.initializedOnCpu) then .selectRead else .done (.error .runtimeError))
  | .selectRead =>
    match (if gpu then o.gpuAop else o.cpuAop) with
    | .missing => (o, .done (.error .attributeError))
    | .none => (o, .done (.error .runtimeError))
    | .set h => (o, .storeAop h)
  | .storeAop h => ({ o with aop := .set h }, .readAop)
  | .readAop =>
    match o.aop with
    | .set h => (o, .done (.ok h))
    | .none => (o, .done (.error .typeError))
    | .missing => (o, .done (.error .attributeError))
  | .done r => (o, .done r)

/-- A call that has not ended. -/
structure Running (M : Type) where
  gpu : Bool
  k : Nat
  pc : Pc M

/-- A call that has ended. -/
structure Ended (M : Type) where
  thread : Nat
  gpu : Bool
  k : Nat
  result : Except PyExc (Handle M)

/-- The object, the calls that have not ended, and those that have, the last first. -/
structure State (M : Type) where
  obj : Obj M
  running : Nat → Option (Running M)
  log : List (Ended M)

/-- No call yet. -/
def State.init (o : Obj M) : State M := ⟨o, fun _ => none, []⟩

/-- What happens next: a thread that is free calls `get_linear_operator`, or a thread takes a step. -/
inductive Event where
  | call (thread : Nat) (gpu : Bool) (k : Nat)
  | step (thread : Nat) (env : Env)

/-- One event. -/
def State.next (s : State M) : Event → State M
  | .call t gpu k =>
    match s.running t with
    | some _ => s
    | none => { s with running := Function.update s.running t (some ⟨gpu, k, start gpu⟩) }
  | .step t e =>
    match s.running t with
    | none => s
    | some c =>
      match stepPc e c.gpu c.k s.obj c.pc with
      | (o, .done r) => ⟨o, Function.update s.running t none, ⟨t, c.gpu, c.k, r⟩ :: s.log⟩
      | (o, pc) => ⟨o, Function.update s.running t (some ⟨c.gpu, c.k, pc⟩), s.log⟩

/-- A history of events. -/
def State.run (s : State M) (events : List Event) : State M := events.foldl State.next s

end Imate.CacheThreads
