import Verif.Model.OperatorCache
import Mathlib.Logic.Function.Basic

/-!
# Model of an operator on several GPU devices

`imate/_cu_linear_operator/cu_linear_operator.cu`, `cu_dense_matrix.cu`, `cu_csr_matrix.cu`, `cu_csc_matrix.cu` and the
parallel loop of `imate/_cu_trace_estimator/cu_trace_estimator.cu`.

An operator copies `r` arrays (one for dense matrices, three for sparse ones) to each of its `k` devices.  This is done
by a team of OpenMP threads, where the thread `i` serves the device `i`.  The steps of the threads interleave in any
order.  `omp_set_num_threads(k)` asks for `k` threads; the OpenMP runtime may give fewer.

Simplified: `cudaMalloc` and `cudaMemcpy` succeed (the code only asserts that they do); an address of device memory is
the number of the allocation; the content of an array is one value.  The descriptor of cuSPARSE, which is created from
the three addresses, is not represented; its use reads the three arrays.
-/

namespace Imate.MultiGpu

/-- A block of device memory. -/
structure Block (α : Type) where
  /-- the device that holds it -/
  device : Nat
  /-- what was copied to it; `none` before that -/
  content : Option α
  /-- it was not released -/
  live : Bool

/-- The devices and an operator that is being built on them. -/
structure State (α : Type) where
  /-- all allocations that were made, in order; the address is the position -/
  heap : List (Block α)
  /-- `device_A[thread_id]`, `device_A_data[thread_id]` …: the address of array `j` for device `i`; `none` is the
  undefined value of a new array of pointers (cu_dense_matrix.cu:103, cu_csr_matrix.cu:179-184) -/
  pointer : Nat → Nat → Option Nat
  /-- how many instructions a thread has executed -/
  pc : Nat → Nat
  /-- the current device of a thread -/
  current : Nat → Nat

/-- A state before the parallel region: other allocations may exist, no pointer is set; the threads start with an
arbitrary current device. -/
def State.start {α : Type} (heap : List (Block α)) (current : Nat → Nat) : State α :=
  ⟨heap, fun _ _ => none, fun _ => 0, current⟩

/-- One instruction of the thread `i` (cu_dense_matrix.cu:108-118, cu_csr_matrix.cu:186-219, cu_csc_matrix.cu:195-228):
`set_device(thread_id)`, then `alloc` and `copy_to_device` for each array in turn. -/
def step {α : Type} (r : Nat) (host : Nat → α) (i : Nat) (s : State α) : State α :=
  if s.pc i = 0 then
    { s with current := Function.update s.current i i, pc := Function.update s.pc i 1 }
  else if s.pc i ≤ 2 * r then
    let j := (s.pc i - 1) / 2
    if s.pc i % 2 = 1 then
      { s with
        heap := s.heap ++ [⟨s.current i, none, true⟩]
        pointer := Function.update s.pointer i (Function.update (s.pointer i) j (some s.heap.length))
        pc := Function.update s.pc i (s.pc i + 1) }
    else
      match s.pointer i j with
      | none => s
      | some a =>
        { s with
          heap := s.heap.modify a fun b => { b with content := some (host j) }
          pc := Function.update s.pc i (s.pc i + 1) }
  else s

/-- An interleaving of the threads. -/
def run {α : Type} (r : Nat) (host : Nat → α) : List Nat → State α → State α
  | [], s => s
  | i :: is, s => run r host is (step r host i s)

/-- All threads of the team have reached the end of the parallel region. -/
def Finished {α : Type} (r team : Nat) (s : State α) : Prop := ∀ i < team, s.pc i = 2 * r + 1

/-- What can go wrong on the devices. -/
inductive Fault where
  /-- a pointer of a device for which no element exists -/
  | outOfBounds
  /-- a pointer that was never set -/
  | undefined
  /-- memory that was released -/
  | released
  /-- memory of another device, or without content -/
  | wrong
  deriving DecidableEq

/-- The array `j` as the thread `i` reads it during a sample (cu_trace_estimator.cu:265-280): the thread switches to the
device `i`, and the product takes the pointer of the current device (cu_dense_matrix.cu:138-147,
cu_csr_matrix.cu:302-318).  The array of pointers has `k` elements. -/
def read {α : Type} (k : Nat) (s : State α) (i j : Nat) : Except Fault α :=
  if k ≤ i then .error .outOfBounds
  else match s.pointer i j with
    | none => .error .undefined
    | some a =>
      match s.heap[a]? with
      | none => .error .undefined
      | some b =>
        if b.live then
          if b.device = i then
            match b.content with
            | some x => .ok x
            | none => .error .wrong
          else .error .wrong
        else .error .released

/-- `CudaInterface::del` (cuda_interface.cu:165-174). -/
def free {α : Type} (s : State α) (i j : Nat) : Except Fault (State α) :=
  match s.pointer i j with
  | none => .error .undefined
  | some a =>
    match s.heap[a]? with
    | none => .error .undefined
    | some b =>
      if b.live then .ok { s with heap := s.heap.modify a fun b => { b with live := false } } else .error .released

/-- The arrays of one device are released in turn. -/
def freeDevice {α : Type} (i : Nat) : Nat → State α → Except Fault (State α)
  | 0, s => .ok s
  | j + 1, s => do
    let s ← freeDevice i j s
    free s i j

/-- The loop of the destructor over the devices (cu_dense_matrix.cu:71-79, cu_csr_matrix.cu:100-115): all `k` devices,
whatever the team was. -/
def destroy {α : Type} (r : Nat) : Nat → State α → Except Fault (State α)
  | 0, s => .ok s
  | k + 1, s => do
    let s ← destroy r k s
    freeDevice k r s

/-- On how many devices handles of cuBLAS are created.  The base class of a matrix is constructed with the requested
number (cu_matrix.cu:33-37, cu_linear_operator.cu:59-95); the one of an affine matrix function by the default
constructor, which takes all devices (cu_affine_matrix_function.cu:30-36, cu_linear_operator.cu:29-45). -/
def handleDevices (affine : Bool) (available k : Nat) : Nat :=
  if affine then available else if k = 0 then available else k

/-- The number of threads, and so of devices, that draw samples: trace_estimator.pyx:208-216 and
cu_trace_estimator.cu:229. -/
def samplingDevices (available k : Nat) : Nat := if k = 0 then available else k

end Imate.MultiGpu
