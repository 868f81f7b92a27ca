import Verif.Model.Args

/-!
# The parameters of an operator, as arrays in memory

`imate/_trace_estimator/trace_estimator_utilities.py`, `imate/_c_trace_estimator/py_c_trace_estimator.pyx` and
`imate/_cu_trace_estimator/py_cu_trace_estimator.pyx`: how the argument `parameters` of `logdet`, `traceinv` and the other
functions reaches the C++ code, when it is a view of an array in memory, and the table of samples these wrappers allocate.
`Verif.Model.Args` has the same functions for contiguous arrays and for arguments of all types.  Numbers are not rounded.
-/

namespace Imate.ParameterView

open Args

variable {K : Type}

/-- A `numpy` array with one dimension, as a view of the memory of its base: entry `i` is at `offset + i * stride`. -/
structure View (K : Type) where
  dtype : DType
  writeable : Bool
  size : ℕ
  offset : ℕ
  stride : ℤ
  base : Array K

/-- The argument `parameters`. -/
inductive Given (K : Type) where
  | none
  | scalar (t : K)
  /-- a flat list of numbers -/
  | list (entries : List K)
  | array (v : View K)
  /-- an array with zero, two or more dimensions -/
  | otherArray
  | other

/-- `get_operator_parameters` (trace_estimator_utilities.py:62-101): a list becomes a new contiguous array of the type of
the operator; an array is handed on as it is. -/
def getOperatorParameters (dtype : DType) : Given K → Except PyExc (Given K × ℕ)
  | .none => .ok (.none, 0)
  | .scalar t => .ok (.scalar t, 1)
  | .list entries => .ok (.array ⟨dtype, true, entries.length, 0, 1, entries.toArray⟩, entries.length)
  | .array v => .ok (.array v, v.size)
  | .otherArray => .error .valueError
  | .other => .error .typeError

/-- A pointer into an array of memory, or the null pointer. -/
inductive Pointer (K : Type) where
  | null
  | to (memory : Array K) (position : ℕ)

/-- `c_parameters` (py_c_trace_estimator.pyx:202-216 and the same lines for the other types,
py_cu_trace_estimator.pyx:175-188, 294-307): the typed memory view takes writable arrays of its own type, with any stride;
the pointer is the address of its first entry. -/
def point (dtype : DType) : Given K → Except PyExc (Pointer K)
  | .scalar t => .ok (.to #[t] 0)
  | .array v =>
    if v.dtype ≠ dtype then .error .valueError
    else if v.writeable = false then .error .valueError
    else .ok (.to v.base v.offset)
  | _ => .ok .null

/-- `pointer[k]` in C++. -/
def Pointer.read (p : Pointer K) (k : ℕ) : Except Fault K :=
  match p with
  | .null => .error .abort
  | .to memory position =>
    match memory[position + k]? with
    | some x => .ok x
    | none => .error .outOfBounds

/-- `f 0, …, f (n - 1)`, up to the first fault. -/
def collect {α : Type} (f : ℕ → Except Fault α) : ℕ → Except Fault (List α)
  | 0 => .ok []
  | n + 1 => do
    let xs ← collect f n
    let x ← f n
    .ok (xs ++ [x])

/-- The parameters of inquiry `j`: the operator reads `parameters[0], …` after
`A->set_parameters(&parameters[j*num_parameters])` (c_trace_estimator.cpp:509, cu_trace_estimator.cu:517; the shift of the
eigenvalues, c_trace_estimator.cpp:584-588, reads the same addresses). -/
def inquiry (numParameters : ℕ) (p : Pointer K) (j : ℕ) : Except Fault (List K) :=
  collect (fun k => p.read (j * numParameters + k)) numParameters

/-- The parameters at which the estimates are computed, one list for each entry of the result
(trace_estimator.pyx:127-133, 218-279).  `dtype` is the type of the operator. -/
def inquiries (dtype : DType) (numParameters : ℕ) (g : Given K) : Except PyExc (List (List K)) := do
  let (g, size) ← getOperatorParameters dtype g
  let n ← findNumInquiries numParameters size
  let p ← point dtype g
  ofNative (collect (inquiry numParameters p) n)

/-! ### The table of samples -/

/-- The sizes in bytes of a pointer and of the numbers on a platform. -/
structure Platform where
  pointer : ℕ
  single : ℕ
  double : ℕ
  longDouble : ℕ

/-- `sizeof` the numbers of a type. -/
def Platform.number (w : Platform) : DType → ℕ
  | .float32 => w.single
  | .float64 => w.double
  | _ => w.longDouble

/-- The bytes allocated for the array of rows and for a row of the table, `malloc(sizeof(float*) * max_num_samples)` and
`malloc(sizeof(float) * num_inquiries)` (py_c_trace_estimator.pyx:227-231, 344-348, 461-466,
py_cu_trace_estimator.pyx:199-203, 318-322).  In the function for `double` the two sizes are exchanged. -/
def allocated (w : Platform) (dtype : DType) (maxNumSamples numInquiries : ℕ) : ℕ × ℕ :=
  match dtype with
  | .float64 => (w.double * maxNumSamples, w.pointer * numInquiries)
  | d => (w.pointer * maxNumSamples, w.number d * numInquiries)

/-- A write of `width` bytes at entry `i` of an allocation. -/
def write (bytes width i : ℕ) : Except Fault Unit :=
  if (i + 1) * width ≤ bytes then .ok () else .error .outOfBounds

/-- The loops that store the rows and fill them with `NAN` (py_c_trace_estimator.pyx:230-234). -/
def fillTable (w : Platform) (dtype : DType) (maxNumSamples numInquiries : ℕ) : Except Fault Unit := do
  let (rows, row) := allocated w dtype maxNumSamples numInquiries
  let _ ← collect (fun i => do
    write rows w.pointer i
    let _ ← collect (fun j => write row (w.number dtype) j) numInquiries
    .ok ()) maxNumSamples
  .ok ()

end Imate.ParameterView
