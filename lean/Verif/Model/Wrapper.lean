import Mathlib.Logic.Function.Basic
import Verif.Model.Operators
import Verif.Model.Py

/-!
# Model of the Cython classes that hand the user's arrays to the native operators

`imate/_c_linear_operator/py_c_matrix.pyx` and `py_c_affine_matrix_function.pyx` (the text of the GPU
classes `py_cu_matrix.pyx`, `py_cu_affine_matrix_function.pyx` is the same here).  The classes do not
copy the matrix: they keep pointers into the NumPy arrays of the user.

SciPy is modelled by its documented behaviour: a CSR or CSC matrix has three array attributes that
several matrices can share, `has_sorted_indices` remembers its first answer, and `sort_indices` sorts
the arrays `indices` and `data` in place.  The order of equal indices after sorting is left open (`sort`).
Arithmetic is exact; the three data types are one.
-/

namespace Imate.Wrapper

variable {K : Type} [Field K] {α : Type}

/-! ### Matrices that share arrays -/

inductive Format where
  | csr
  | csc
  deriving DecidableEq

/-- A SciPy matrix: the identities of its arrays, and the remembered answer of `has_sorted_indices`. -/
structure SparseObj where
  format : Format
  data : ℕ
  indices : ℕ
  indptr : ℕ
  sortedFlag : Option Bool

/-- The arrays of floats, the arrays of integers and the matrices of the user, by their identity. -/
structure State (K : Type) where
  vals : ℕ → Array K
  idxs : ℕ → Array ℕ
  objs : ℕ → SparseObj

/-- The matrix `o` of the user, as stored at the moment. -/
def State.stored (s : State K) (o : ℕ) : StoredMatrix K :=
  let ob := s.objs o
  match ob.format with
  | .csr => .csr (s.vals ob.data) (s.idxs ob.indices) (s.idxs ob.indptr)
  | .csc => .csc (s.vals ob.data) (s.idxs ob.indices) (s.idxs ob.indptr)

/-- The pairs (index, value) at the positions `lo ≤ k < hi`. -/
def segment (idx : Array ℕ) (dat : Array K) (lo hi : ℕ) : List (ℕ × K) :=
  (List.range' lo (hi - lo)).map fun k => (idx.getD k 0, dat.getD k 0)

/-- Write a list into an array from position `lo` on. -/
def splice (a : Array α) (lo : ℕ) (l : List α) : Array α :=
  Array.ofFn fun k : Fin a.size => if lo ≤ k.1 then l.getD (k.1 - lo) a[k] else a[k]

/-- One row (CSR) or column (CSC) of `sort_indices`. -/
def sortSegment (sort : List (ℕ × K) → List (ℕ × K)) (ptr : Array ℕ) (s : Array ℕ × Array K) (i : ℕ) :
    Array ℕ × Array K :=
  let lo := ptr.getD i 0
  let hi := ptr.getD (i + 1) 0
  let l := sort (segment s.1 s.2 lo hi)
  (splice s.1 lo (l.map Prod.fst), splice s.2 lo (l.map Prod.snd))

/-- `sort_indices` of SciPy (called in py_c_matrix.pyx:153, 169, 188): every row is sorted in place. -/
def sortIndices (sort : List (ℕ × K) → List (ℕ × K)) (ptr idx : Array ℕ) (dat : Array K) :
    Array ℕ × Array K :=
  (List.range (ptr.size - 1)).foldl (sortSegment sort ptr) (idx, dat)

/-- What `has_sorted_indices` of SciPy computes (called in py_c_matrix.pyx:152, 168, 187). -/
def rowsSorted (ptr idx : Array ℕ) : Bool :=
  (List.range (ptr.size - 1)).all fun i =>
    let lo := ptr.getD i 0
    let hi := ptr.getD (i + 1) 0
    (List.range' lo (hi - lo - 1)).all fun k => decide (idx.getD k 0 ≤ idx.getD (k + 1) 0)

/-- `has_sorted_indices` of SciPy: computed once, then remembered. -/
def State.hasSorted (s : State K) (o : ℕ) : Bool × State K :=
  let ob := s.objs o
  match ob.sortedFlag with
  | some b => (b, s)
  | none =>
    let b := rowsSorted (s.idxs ob.indptr) (s.idxs ob.indices)
    (b, { s with objs := Function.update s.objs o { ob with sortedFlag := some b } })

/-- "Check sorted indices", py_c_matrix.pyx:151-153 and 167-169 (same text
py_c_affine_matrix_function.pyx:224-229 and 243-248). -/
def State.ensureSorted (sort : List (ℕ × K) → List (ℕ × K)) (s : State K) (o : ℕ) : State K :=
  let r := s.hasSorted o
  let s := r.2
  if r.1 then s
  else
    let ob := s.objs o
    let t := sortIndices sort (s.idxs ob.indptr) (s.idxs ob.indices) (s.vals ob.data)
    { vals := Function.update s.vals ob.data t.2
      idxs := Function.update s.idxs ob.indices t.1
      objs := Function.update s.objs o { ob with sortedFlag := some true } }

/-- An array of indices as the native class sees it: the array of the user, or a copy that was made
because the type of the elements is another one (py_c_matrix.pyx:398-402). -/
inductive IdxRef where
  | shared (id : ℕ)
  | copy (a : Array ℕ)

def IdxRef.read (s : State K) : IdxRef → Array ℕ
  | .shared id => s.idxs id
  | .copy a => a

/-- A native operator: the pointers it was given (py_c_matrix.pyx:384-428 for CSR, 525-569 for CSC; the other
data types have the same text). -/
structure NativeOp where
  format : Format
  data : ℕ
  indices : IdxRef
  indptr : IdxRef

/-- What the native operator reads. -/
def NativeOp.stored (s : State K) (p : NativeOp) : StoredMatrix K :=
  match p.format with
  | .csr => .csr (s.vals p.data) (p.indices.read s) (p.indptr.read s)
  | .csc => .csc (s.vals p.data) (p.indices.read s) (p.indptr.read s)

/-- The pointers taken from a matrix, py_c_matrix.pyx:398-417; `sameType` tells whether the indices of the user
have the type of the native code (`astype(…, copy=False)`). -/
def capture (sameType : Bool) (s : State K) (o : ℕ) : NativeOp :=
  let ob := s.objs o
  ⟨ob.format, ob.data, if sameType then .shared ob.indices else .copy (s.idxs ob.indices),
    if sameType then .shared ob.indptr else .copy (s.idxs ob.indptr)⟩

/-- `pycMatrix(A)` for a CSR or CSC matrix, py_c_matrix.pyx:145-181. -/
def newMatrix (sort : List (ℕ × K) → List (ℕ × K)) (sameType : Bool) (s : State K) (a : ℕ) :
    State K × NativeOp :=
  let s := s.ensureSorted sort a
  (s, capture sameType s a)

/-- `pycAffineMatrixFunction(A, B)` for CSR or CSC matrices, py_c_affine_matrix_function.pyx:206-258: `A` and `B`
must have the same type; the data types and the shapes are compared as well, which is not modelled. -/
def newAffine (sort : List (ℕ × K) → List (ℕ × K)) (sameType : Bool) (s : State K) (a b : ℕ) :
    Except PyExc (State K × NativeOp × NativeOp) :=
  if (s.objs a).format ≠ (s.objs b).format then .error .typeError
  else
    let s := s.ensureSorted sort a
    let s := s.ensureSorted sort b
    .ok (s, capture sameType s a, capture sameType s b)

/-! ### Dense arrays and strides -/

/-- A two-dimensional NumPy array: a place in a buffer and two strides, counted in elements. -/
structure View where
  rows : ℕ
  cols : ℕ
  offset : ℕ
  stride0 : ℤ
  stride1 : ℤ

/-- The position of an element in the buffer. -/
def View.address (v : View) (i j : ℕ) : ℤ := v.offset + i * v.stride0 + j * v.stride1

/-- `A.flags['C_CONTIGUOUS']` of NumPy: the stride of a dimension of length one does not matter. -/
def View.cContiguous (v : View) : Bool :=
  v.rows = 0 || v.cols = 0 || ((v.cols = 1 || v.stride1 = 1) && (v.rows = 1 || v.stride0 = v.cols))

/-- `A.flags['F_CONTIGUOUS']` of NumPy. -/
def View.fContiguous (v : View) : Bool :=
  v.rows = 0 || v.cols = 0 || ((v.rows = 1 || v.stride0 = 1) && (v.cols = 1 || v.stride1 = v.rows))

/-- `set_dense_matrix_double`, py_c_matrix.pyx:272-322 (same text for the other types and for both matrices of an
affine function): the native class is given a pointer to the first element and the order. -/
def setDense (buf : Array K) (v : View) : Except PyExc (StoredMatrix K) :=
  if v.cContiguous then .ok (.dense (buf.extract v.offset (v.offset + v.rows * v.cols)) true)
  else if v.fContiguous then .ok (.dense (buf.extract v.offset (v.offset + v.rows * v.cols)) false)
  else .error .typeError

/-- The `data` of a sparse matrix as the native class sees it, py_c_matrix.pyx:413-417: a memory view of any stride is
accepted, and the elements are read one after another from the first one on.  The native code is taken to stay within
`size` elements. -/
def pointer (buf : Array K) (offset size : ℕ) : Array K := buf.extract offset (offset + size)

/-- The elements of a one-dimensional NumPy array. -/
def elements (buf : Array K) (offset stride size : ℕ) : Array K :=
  Array.ofFn fun k : Fin size => buf.getD (offset + k.1 * stride) 0

/-! ### Life of an operator -/

/-- The state of the process, and the arrays of floats that the user's variables (or other matrices) refer to. -/
structure World (K : Type) extends State K where
  held : ℕ → Bool

/-- What the user can do with the matrix `a` between two uses of its operator. -/
inductive Act (K : Type) where
  /-- write an element of an array of floats -/
  | writeVal (id k : ℕ) (x : K)
  /-- write an element of an array of integers -/
  | writeIdx (id k j : ℕ)
  /-- begin or stop to refer to an array of floats -/
  | hold (id : ℕ) (b : Bool)
  /-- `A.data = …` with the array `id` (SciPy does it when an entry is inserted or removed) -/
  | setData (id : ℕ)

def World.act (a : ℕ) (w : World K) : Act K → World K
  | .writeVal id k x => { w with vals := Function.update w.vals id ((w.vals id).setIfInBounds k x) }
  | .writeIdx id k j => { w with idxs := Function.update w.idxs id ((w.idxs id).setIfInBounds k j) }
  | .hold id b => { w with held := Function.update w.held id b }
  | .setData id => { w with objs := Function.update w.objs a { w.objs a with data := id } }

/-- An array of floats is released as soon as neither the user nor the matrix refers to it; the native operator does not
count (py_c_matrix.pyx:398-402 keeps `A_indices_copy` and `A_index_pointer_copy`, and matrix.py:278 the matrix). -/
def World.alive (w : World K) (a id : ℕ) : Bool := w.held id || (w.objs a).data = id

/-- A product with the operator of the matrix `a`; reading a released array is a fault. -/
def World.multiply [DecidableEq K] (w : World K) (a : ℕ) (p : NativeOp) (numRows numColumns : ℕ) (vector product : Array K) :
    Except Fault (Array K) :=
  if w.alive a p.data then (p.stored w.toState).dot numRows numColumns vector product else .error .invalid

end Imate.Wrapper
