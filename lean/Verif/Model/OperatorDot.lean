import Verif.Model.Args
import Verif.Model.Operators

/-!
# Products with the operator objects of Python

`imate/_c_linear_operator/py_c_linear_operator.pyx`: the methods `set_parameters`, `dot` and `transpose_dot` of the object
`get_linear_operator()` returns, for any history of calls.  The products themselves are in `Verif.Model.Operators`.  Vector
and product do not share memory here (`denseInPlace` is the case where they do).  The conversions of a parameter between
the types are any functions (`Op.astype`).
-/

namespace Imate.OperatorDot

open Args

variable {K : Type} [Field K] [DecidableEq K]

/-- A `numpy` array: the memory from its first to its last entry, in which the entries lie `stride` apart. -/
structure Vec (K : Type) where
  dtype : DType
  ndim : ℕ
  writeable : Bool
  stride : ℕ
  memory : Array K

/-- The value given to `set_parameters`. -/
inductive Parameters (K : Type) where
  | none
  | scalar (t : K)
  | array (entries : List K)
  /-- anything without the method `astype`, such as a list -/
  | other

/-- The attribute `parameters` after `set_parameters` (py_c_linear_operator.pyx:222-232).  A number becomes an array of
type `float`, which is `float64`. -/
def setParameters (astype : DType → K → K) : Parameters K → Parameters K
  | .scalar t => .array [astype .float64 t]
  | p => p

/-- The pointer `parameters` of the C++ object (c_linear_operator.cpp:107-111). -/
inductive Pointer (K : Type) where
  | null
  | live (entries : List K)
  /-- the array it points to was released -/
  | released

/-- The C++ object: `pycMatrix` or `pycAffineMatrixFunction`. -/
inductive Native (K : Type) where
  | matrix (S : StoredMatrix K) (numRows numColumns : ℕ)
  | affine (O : AffineOp K)

/-- The C++ product with the pointer as it is.  Reading the parameter through a null pointer ends the process. -/
def Native.product (transposed : Bool) (N : Native K) (p : Pointer K) (vector product : Array K) :
    Except Fault (Array K) :=
  match N with
  | .matrix S n m => if transposed then S.transposeDot n m vector product else S.dot n m vector product
  | .affine O =>
    match p with
    | .null => .error .abort
    | .released => .error .invalid
    | .live [] => .error .outOfBounds
    | .live (t :: _) => if transposed then O.transposeDot (some t) vector product else O.dot (some t) vector product

/-- The Python object.  The pointers to the C++ objects of the other types are null (py_c_linear_operator.pyx:40-45). -/
structure Op (K : Type) where
  dtype : DType
  native : Native K
  /-- the conversion of a number to a type of `numpy` -/
  astype : DType → K → K

/-- The state of the object: its attribute and the pointer in the C++ object. -/
structure State (K : Type) where
  parameters : Parameters K
  pointer : Pointer K

/-- A new object (py_c_linear_operator.pyx:40-45, c_linear_operator.cpp:27-35). -/
def init : State K := ⟨.none, .null⟩

/-- The assignment of an array to a typed memory view with one dimension, such as `mv_vector_float = vector`
(py_c_linear_operator.pyx:279-284). -/
def view (v : Vec K) : Except PyExc (Array K) :=
  if v.ndim ≠ 1 then .error .valueError
  else if v.writeable = false then .error .valueError
  else .ok v.memory

/-- The parameters given to the C++ object for this product, if the attribute is set (py_c_linear_operator.pyx:287-290):
a copy converted to the type of the vector. -/
def pointParameters (convert : K → K) : State K → Except PyExc (Pointer K)
  | ⟨.none, p⟩ => .ok p
  | ⟨.scalar t, _⟩ => .ok (.live [convert t])
  | ⟨.array entries, _⟩ => .ok (.live (entries.map convert))
  | ⟨.other, _⟩ => .error .attributeError

/-- The pointer after the product: the converted copy of the parameters is released when the method returns. -/
def leave : State K → Pointer K
  | ⟨.none, p⟩ => p
  | _ => .released

/-- `dot` and `transpose_dot` (py_c_linear_operator.pyx:238-336, 342-440): the memory of `product` and the state afterwards.
The three branches differ in the type only.  The C++ object of another type than that of the vectors is a null pointer, and
calling it ends the process.  The address of the first entry is handed over; the stride and the length are not. -/
def dot (transposed : Bool) (op : Op K) (s : State K) (vector product : Vec K) : Except PyExc (Array K × State K) := do
  if vector.dtype ≠ product.dtype then .error .typeError
  else if vector.dtype = .other then .error .typeError
  else
    let x ← view vector
    let y ← view product
    let p ← pointParameters (op.astype vector.dtype) s
    if vector.dtype ≠ op.dtype then .error (.native .abort)
    else
      let z ← ofNative (op.native.product transposed p x y)
      .ok (z, ⟨s.parameters, leave s⟩)

/-- A call of a method. -/
inductive Call (K : Type) where
  | setParameters (p : Parameters K)
  | dot (transposed : Bool) (vector product : Vec K)

/-- The state after a call.  A Python exception leaves it as it was (the caller may catch it); a fault of the native code
ends the history. -/
def step (op : Op K) (s : State K) : Call K → Except Fault (State K)
  | .setParameters p => .ok ⟨OperatorDot.setParameters op.astype p, s.pointer⟩
  | .dot t x y =>
    match dot t op s x y with
    | .ok (_, s') => .ok s'
    | .error (.native f) => .error f
    | .error _ => .ok s

/-- The state after a history of calls. -/
def after (op : Op K) : State K → List (Call K) → Except Fault (State K)
  | s, [] => .ok s
  | s, c :: cs =>
    match step op s c with
    | .ok s' => after op s' cs
    | .error f => .error f

/-- `dense_matvec` of a row major matrix, when vector and product are the same array: each row reads what the rows before
it wrote (c_matrix_operations.cpp:100-120; the sums of five terms are taken one by one). -/
def denseInPlace (A : Array K) (n : ℕ) (x : Array K) : Except Fault (Array K) :=
  forRange 0 n (fun i x => do
    let sum ← forRange 0 n (fun j sum => do .ok (sum + (← rd A (i * n + j)) * (← rd x j))) 0
    wr x i sum) x

end Imate.OperatorDot
