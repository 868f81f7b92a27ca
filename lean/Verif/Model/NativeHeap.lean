import Mathlib.Data.Finset.Basic
import Mathlib.Logic.Function.Basic
import Verif.Model.Args
import Verif.Model.Slq

/-!
# Model of the native memory of a call

`imate/*/_slq_method.pyx` (the seven functions with an SLQ method), `imate/_trace_estimator/trace_estimator.pyx`,
`imate/_c_trace_estimator/py_c_trace_estimator.pyx`, `c_trace_estimator.cpp`, the random number generators and the classes
`pycLinearOperator`/`pycMatrix` take memory from the C++ heap.  Here the heap is the set of the blocks in use; the contents
of the blocks are in the other models.

Simplified: memory never runs out; the buffers of a diagonalisation, of a Lanczos run and of LAPACK, which are released in
the function that takes them, are left out; the references Python keeps to the temporary operator end when the call ends.
-/

namespace Imate.NativeHeap

open Imate.Args

/-- The heap: the blocks in use and the next address that was never used. -/
structure Heap where
  next : ℕ
  live : Finset ℕ
  deriving DecidableEq

/-- A piece of the program: it ends the process, or raises an exception or returns a value and leaves a heap. -/
def Act (α : Type) : Type := Heap → Except Fault (Except PyExc α × Heap)

/-- Sequential execution; an exception ends it. -/
def Act.bind {α β : Type} (a : Act α) (f : α → Act β) : Act β := fun h =>
  match a h with
  | .error x => .error x
  | .ok (.error e, h) => .ok (.error e, h)
  | .ok (.ok x, h) => f x h

instance : Monad Act where
  pure x := fun h => .ok (.ok x, h)
  bind := Act.bind

/-- `raise`, if there is something to raise. -/
def raiseOpt : Option PyExc → Act Unit
  | none => fun h => .ok (.ok (), h)
  | some e => fun h => .ok (.error e, h)

/-- What CPython does with a local object when the function ends: `b` runs after `a`, whether `a` raised or not. -/
def Act.finally {α : Type} (a : Act α) (b : Act Unit) : Act α := fun h =>
  match a h with
  | .error x => .error x
  | .ok (r, h) =>
    match b h with
    | .error x => .error x
    | .ok (.error e, h) => .ok (.error e, h)
    | .ok (.ok _, h) => .ok (r, h)

/-- `new` and `malloc`. -/
def newBlock : Act ℕ := fun h => .ok (.ok h.next, ⟨h.next + 1, insert h.next h.live⟩)

/-- `delete` and `free`; releasing a block that is not in use is a fault. -/
def deleteBlock (p : ℕ) : Act Unit := fun h =>
  if p ∈ h.live then .ok (.ok (), { h with live := h.live.erase p }) else .error .invalid

/-- `n` blocks taken in a loop. -/
def newBlocks : ℕ → Act (List ℕ)
  | 0 => pure []
  | n + 1 => do
    let p ← newBlock
    let ps ← newBlocks n
    pure (p :: ps)

/-- Blocks released in a loop. -/
def deleteBlocks : List ℕ → Act Unit
  | [] => pure ()
  | p :: ps => do
    deleteBlock p
    deleteBlocks ps

/-! ### The random number generator -/

/-- An object of `Xoshiro256StarStar`: its own block and the block of its state. -/
structure Xoshiro where
  object : ℕ
  state : ℕ

/-- `new Xoshiro256StarStar(seed)` (xoshiro_256_star_star.cpp:33-47; `SplitMix64` is on the stack). -/
def newXoshiro : Act Xoshiro := do
  let object ← newBlock
  let state ← newBlock
  pure ⟨object, state⟩

/-- `delete` of such an object (xoshiro_256_star_star.cpp:56-63). -/
def deleteXoshiro (x : Xoshiro) : Act Unit := do
  deleteBlock x.state
  deleteBlock x.object

/-- The loop of `RandomNumberGenerator::initialize` (random_number_generator.cpp:126-136). -/
def newXoshiros : ℕ → Act (List Xoshiro)
  | 0 => pure []
  | n + 1 => do
    let x ← newXoshiro
    let xs ← newXoshiros n
    pure (x :: xs)

/-- The loop of the destructor (random_number_generator.cpp:90-94). -/
def deleteXoshiros : List Xoshiro → Act Unit
  | [] => pure ()
  | x :: xs => do
    deleteXoshiro x
    deleteXoshiros xs

/-- The member data of `RandomNumberGenerator`. -/
structure Rng where
  table : ℕ
  generators : List Xoshiro

/-- The constructor (random_number_generator.cpp:69-75, 120-137). -/
def newRng (threads : ℕ) : Act Rng := do
  let table ← newBlock
  let generators ← newXoshiros threads
  pure ⟨table, generators⟩

/-- The destructor (random_number_generator.cpp:86-99). -/
def deleteRng (r : Rng) : Act Unit := do
  deleteXoshiros r.generators
  deleteBlock r.table

/-- `py_generate_random_array`, which makes the random vectors of the Hutchinson method
(py_random_array_generator.pyx:42-51). -/
def generateRandomArray (threads : ℕ) : Act Unit := do
  let object ← newBlock
  let rng ← newRng threads
  deleteRng rng
  deleteBlock object

/-! ### The SLQ run -/

/-- What one sample meets: the options and which inquiries have converged before it. -/
structure Sample where
  gram : Bool
  relationKnown : Bool
  converged : ℕ → Bool

/-- The number of inquiries a sample iterates over (c_trace_estimator.cpp:447-455). -/
def Sample.required (s : Sample) (numInquiries : ℕ) : ℕ := if s.relationKnown then 1 else numInquiries

/-- The blocks with the given names are taken one after the other; the result tells where they are. -/
def newNamed : List Lanczos.Block → Act (Lanczos.Block → ℕ)
  | [] => pure fun _ => 0
  | b :: bs => do
    let p ← newBlock
    let f ← newNamed bs
    pure (Function.update f b p)

/-- One sample: the blocks it takes (c_trace_estimator.cpp:438-439, 462-491, 519-522, 544) and those it releases at the
end (c_trace_estimator.cpp:623-653). -/
def runSample (numInquiries : ℕ) (s : Sample) : Act Unit := do
  let address ← newNamed
    (Lanczos.allocatedBlocks s.gram (s.required numInquiries) numInquiries s.converged)
  deleteBlocks
    ((Lanczos.releasedBlocks s.gram (s.required numInquiries) numInquiries s.converged).map address)

/-- The samples of a run in the order in which they are processed (c_trace_estimator.cpp:257-289). -/
def runSamples (numInquiries : ℕ) : List Sample → Act Unit
  | [] => pure ()
  | s :: ss => do
    runSample numInquiries s
    runSamples numInquiries ss

/-- `average_estimates` (convergence_tools.cpp:277, 375). -/
def averageEstimates : Act Unit := do
  let outlierIndices ← newBlock
  deleteBlock outlierIndices

/-- `c_trace_estimator` (c_trace_estimator.cpp:218-307); the generator is a local object. -/
def cTraceEstimator (threads numInquiries : ℕ) (samples : List Sample) : Act Unit := do
  let randomVectors ← newBlock
  let rng ← newRng threads
  runSamples numInquiries samples
  averageEstimates
  deleteBlock randomVectors
  deleteRng rng

/-! ### The Python objects of the operators -/

/-- The pointers of `pycLinearOperator`. -/
structure PyOperator where
  dtype : DType
  aopFloat : Option ℕ
  aopDouble : Option ℕ
  aopLongDouble : Option ℕ

/-- `del` of a pointer that is not null (py_c_linear_operator.pyx:77-79). -/
def deletePointer : Option ℕ → Act Unit
  | none => pure ()
  | some p => deleteBlock p

/-- `__dealloc__` (py_c_linear_operator.pyx:73-87). -/
def PyOperator.dealloc (o : PyOperator) : Act Unit := do
  deletePointer o.aopFloat
  deletePointer o.aopDouble
  deletePointer o.aopLongDouble

/-- `pycLinearOperator.__cinit__` (py_c_linear_operator.pyx:34-45), which runs before that of the derived class. -/
def emptyOperator (dtype : DType) : PyOperator := ⟨dtype, none, none, none⟩

/-- `pycMatrix(A)` (py_c_matrix.pyx:117-208, 262-266, 318-322, 374-378 and the sparse and affine ones).  If `__cinit__`
raises (`failure`), Cython calls `__dealloc__` of the object as it is.  A matrix of another type is refused
(py_c_matrix.pyx:141-143). -/
def newOperator (dtype : DType) (failure : Option PyExc) : Act PyOperator :=
  match failure with
  | some e => do
    (emptyOperator dtype).dealloc
    raiseOpt (some e)
    pure (emptyOperator dtype)
  | none =>
    match dtype with
    | .float32 => do
      let p ← newBlock
      pure { emptyOperator .float32 with aopFloat := some p }
    | .float64 => do
      let p ← newBlock
      pure { emptyOperator .float64 with aopDouble := some p }
    | .float128 => do
      let p ← newBlock
      pure { emptyOperator .float128 with aopLongDouble := some p }
    | .other => do
      (emptyOperator .other).dealloc
      raiseOpt (some .typeError)
      pure (emptyOperator .other)

/-- `get_linear_operator_float`, `_double` and `_long_double` as called by the function for the data type
(py_c_linear_operator.pyx:149-211, py_c_trace_estimator.pyx:72-161, 238). -/
def PyOperator.pointer (o : PyOperator) (dtype : DType) : Option PyExc :=
  match dtype with
  | .float32 => if o.aopFloat.isNone || o.dtype ≠ .float32 then some .runtimeError else none
  | .float64 => if o.aopDouble.isNone || o.dtype ≠ .float64 then some .runtimeError else none
  | .float128 => if o.aopLongDouble.isNone || o.dtype ≠ .float128 then some .runtimeError else none
  | .other => some .typeError

/-! ### A call -/

/-- What happens in a call apart from the memory. -/
structure Call where
  /-- the exception of `check_arguments(return_info)` of the function, or of the check of its own arguments -/
  firstCheck : Option PyExc
  /-- the exception of the checks of `trace_estimator` -/
  checks : Option PyExc
  /-- the exception of the constructor of the operator -/
  build : Option PyExc
  /-- the exception of the conversions of the arguments to C types -/
  convert : Option PyExc
  /-- the exception of `print_summary` and of the plot -/
  finish : Option PyExc
  maxNumSamples : ℕ
  numInquiries : ℕ
  threads : ℕ
  samples : List Sample

/-- `_pyc_trace_estimator_double` (py_c_trace_estimator.pyx:319-400; the other types 203-283, 436-519). -/
def pycTraceEstimator (c : Call) (dtype : DType) (o : PyOperator) : Act Unit := do
  raiseOpt c.convert
  let table ← newBlock
  let rows ← newBlocks c.maxNumSamples
  raiseOpt (o.pointer dtype)
  cTraceEstimator c.threads c.numInquiries c.samples
  deleteBlocks rows
  deleteBlock table

/-- `trace_estimator` for an array or a SciPy matrix: the operator is a local object (trace_estimator.pyx:115-390). -/
def traceEstimatorMatrix (c : Call) (dtype : DType) : Act Unit := do
  raiseOpt c.checks
  let o ← newOperator dtype c.build
  (do
    pycTraceEstimator c dtype o
    raiseOpt c.finish).finally o.dealloc

/-- `get_linear_operator(gpu=False)` of the user's operator, which keeps the object it builds
(matrix.py:342-349, linear_operator.py:114-147). -/
def cachedOperator (cache : Option PyOperator) (dtype : DType) (build : Option PyExc) : Act PyOperator :=
  match cache with
  | some o => pure o
  | none => newOperator dtype build

/-- The rest of `trace_estimator` for an operator that the user keeps (trace_estimator.pyx:247-390). -/
def runWith (c : Call) (dtype : DType) (o : PyOperator) : Act Unit := do
  pycTraceEstimator c dtype o
  raiseOpt c.finish

/-- `slq_method` (trace/_slq_method.pyx:821-858 and the six others): the function object is made after the first
check and deleted after the estimator has returned. -/
def slqMethod (firstCheck : Option PyExc) (estimator : Act Unit) : Act Unit := do
  raiseOpt firstCheck
  let matrixFunction ← newBlock
  estimator
  deleteBlock matrixFunction

/-- The user's program: calls with matrices and calls with one operator object; every exception is caught. -/
inductive Step where
  | withMatrix (dtype : DType) (c : Call)
  | withOperator (c : Call)

/-- One step; the second component is what the operator object keeps. -/
def step (dtype : DType) (cache : Option PyOperator) (s : Step) (h : Heap) :
    Except Fault (Option PyOperator × Heap) :=
  match s with
  | .withMatrix dt c =>
    match slqMethod c.firstCheck (traceEstimatorMatrix c dt) h with
    | .error x => .error x
    | .ok (_, h) => .ok (cache, h)
  | .withOperator c =>
    match (do raiseOpt c.firstCheck; newBlock : Act ℕ) h with
    | .error x => .error x
    | .ok (.error _, h) => .ok (cache, h)
    | .ok (.ok f, h) =>
      match (do raiseOpt c.checks; cachedOperator cache dtype c.build : Act PyOperator) h with
      | .error x => .error x
      | .ok (.error _, h) => .ok (cache, h)
      | .ok (.ok o, h) =>
        match (do runWith c dtype o; deleteBlock f : Act Unit) h with
        | .error x => .error x
        | .ok (_, h) => .ok (some o, h)

/-- All steps, and the end of the operator object. -/
def program (dtype : DType) : Option PyOperator → List Step → Heap → Except Fault Heap
  | cache, [], h =>
    match cache with
    | none => .ok h
    | some o =>
      match o.dealloc h with
      | .error x => .error x
      | .ok (_, h) => .ok h
  | cache, s :: ss, h =>
    match step dtype cache s h with
    | .error x => .error x
    | .ok (cache, h) => program dtype cache ss h

end Imate.NativeHeap
