import Verif.Model.Py

/-!
# Model of the operator cache of `Matrix` and `AffineMatrixFunction`

`imate/linear_operator/linear_operator.py`, `matrix.py` and `affine_matrix_function.py`.  The two
`initialize` methods (matrix.py:286-352, affine_matrix_function.py:295-362) are the same text up to
the name of the class that is instantiated and the second matrix `B`; the type `M` of "the matrix"
is `A` in the first case and the pair `A, B` in the second.

Simplified: a native operator is represented by the data it was built from and the number of devices
it occupies; the contents of the devices are not represented.
-/

namespace Imate.Cache

/-- A native operator object (`pycMatrix`, `pycuMatrix`, …). -/
structure Handle (M : Type) where
  /-- the data it was built from -/
  matrix : M
  /-- whether it lives on the GPU devices -/
  onGpu : Bool
  /-- on how many of them; `0` for a CPU operator -/
  devices : Nat
  deriving DecidableEq

/-- A Python attribute: deleted, `None`, or an object. -/
inductive Attr (α : Type) where
  | missing
  | none
  | set (x : α)
  deriving DecidableEq

/-- The attributes of `LinearOperator`, linear_operator.py:34-42, that its methods read. -/
structure Obj (M : Type) where
  A : M
  aop : Attr (Handle M)
  cpuAop : Attr (Handle M)
  gpuAop : Attr (Handle M)
  numGpuDevices : Nat
  initializedOnCpu : Bool
  initializedOnGpu : Bool
  deriving DecidableEq

/-- `LinearOperator.__init__` and `Matrix.__init__`, linear_operator.py:29-42, matrix.py:269-280. -/
def Obj.new {M : Type} (A : M) : Obj M := ⟨A, .none, .none, .none, 0, false, false⟩

/-- What the machine does during one request: how many devices it has and the exception the
construction of the native operator raises, if any (`None` for a constructor that succeeds). -/
structure Env where
  available : Nat
  failure : Option PyExc

/-- The constructor of `pycuMatrix`/`pycuAffineMatrixFunction`: py_cu_linear_operator.pyx:45-51 raises
when there is no device, py_cu_matrix.pyx:118-142 and the allocations raise (`failure`), and
cu_linear_operator.cu:73-90 takes all devices for `0` and aborts the process when more devices are
requested than exist. -/
def newGpu {M : Type} (e : Env) (A : M) (k : Nat) : Except PyExc (Handle M) :=
  if e.available = 0 then .error .runtimeError
  else match e.failure with
    | some x => .error x
    | none =>
      if k = 0 then .ok ⟨A, true, e.available⟩
      else if e.available < k then .error (.native .abort)
      else .ok ⟨A, true, k⟩

/-- The constructor of `pycMatrix`/`pycAffineMatrixFunction`, which raises for matrices it does not
support (`failure`). -/
def newCpu {M : Type} (e : Env) (A : M) : Except PyExc (Handle M) :=
  match e.failure with
  | some x => .error x
  | none => .ok ⟨A, false, 0⟩

/-- The `reallocate` flag, matrix.py:316-326. -/
def reallocate (k old all : Nat) : Bool :=
  if k = 0 ∧ old = all then false
  else if k = all ∧ old = 0 then false
  else true

/-- `num_all_gpu_devices`, matrix.py:313-314: `self.gpu_Aop.get_device_properties()` fails when the
attribute is missing or `None`. -/
def allDevices {M : Type} (e : Env) (o : Obj M) : Except PyExc Nat :=
  match o.gpuAop with
  | .set _ => .ok e.available
  | _ => .error .attributeError

/-- The assignments of `self.gpu_Aop` and of the flag, matrix.py:305-308 and 339-340, starting from an
object whose attribute has been deleted or was never set; with the exception that ends the call, if
any. -/
def assignGpu {M : Type} (e : Env) (k : Nat) (o : Obj M) : Option PyExc × Obj M :=
  match newGpu e o.A k with
  | .error x => (some x, o)
  | .ok h => (none, { o with gpuAop := .set h, initializedOnGpu := true })

/-- The branch `elif num_gpu_devices != self.num_gpu_devices`, matrix.py:310-340.  The old operator is
deleted before the new one is built (lines 336-337). -/
def changeGpu {M : Type} (e : Env) (k : Nat) (o : Obj M) : Option PyExc × Obj M :=
  match allDevices e o with
  | .error x => (some x, o)
  | .ok all =>
    if reallocate k o.numGpuDevices all then
      assignGpu e k { o with gpuAop := .missing }
    else (none, o)

/-- The branches of `initialize`, matrix.py:301-349. -/
def initializeBranch {M : Type} (e : Env) (gpu : Bool) (k : Nat) (o : Obj M) : Option PyExc × Obj M :=
  if gpu then
    if !o.initializedOnGpu then assignGpu e k o
    else if k ≠ o.numGpuDevices then changeGpu e k o
    else (none, o)
  else if !o.initializedOnCpu then
    match newCpu e o.A with
    | .error x => (some x, o)
    | .ok h => (none, { o with cpuAop := .set h, initializedOnCpu := true })
  else (none, o)

/-- `initialize`, matrix.py:286-352: the last line records the number of devices. -/
def initializeOn {M : Type} (e : Env) (gpu : Bool) (k : Nat) (o : Obj M) : Option PyExc × Obj M :=
  match initializeBranch e gpu k o with
  | (some x, o) => (some x, o)
  | (none, o) => (none, { o with numGpuDevices := k })

/-- Reading the attribute of the requested side, linear_operator.py:138-145. -/
def select {M : Type} (a : Attr (Handle M)) (initialized : Bool) (o : Obj M) :
    Except PyExc (Handle M) × Obj M :=
  match a with
  | .missing => (.error .attributeError, o)
  | .none => (.error .runtimeError, o)
  | .set h => if initialized then (.ok h, { o with aop := .set h }) else (.error .runtimeError, o)

/-- `get_linear_operator`, linear_operator.py:114-147. -/
def getLinearOperator {M : Type} (e : Env) (gpu : Bool) (k : Nat) (o : Obj M) :
    Except PyExc (Handle M) × Obj M :=
  match initializeOn e gpu k o with
  | (some x, o) => (.error x, o)
  | (none, o) =>
    if gpu then select o.gpuAop o.initializedOnGpu o
    else select o.cpuAop o.initializedOnCpu o

/-- One request of a caller together with what the machine does. -/
structure Request where
  gpu : Bool
  numGpuDevices : Nat
  env : Env

/-- A history of requests on one object; an exception is caught by the caller, who continues. -/
def history {M : Type} : List Request → Obj M → Obj M
  | [], o => o
  | r :: rs, o => history rs (getLinearOperator r.env r.gpu r.numGpuDevices o).2

end Imate.Cache
