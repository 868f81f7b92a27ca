import Verif.Model.Mem
import Mathlib.Algebra.Field.Basic

/-!
# Model of `imate/_c_basic_algebra/c_vector_operations.cpp`

Simplifications: exact arithmetic over a field instead of `float`/`double`/`long double`;
the `USE_CBLAS == 1` branches (calls into BLAS) are in `Verif.Model.Blas`, the library's own loops are here.
Index types are unbounded.
-/

namespace Imate.VectorOps

variable {K : Type _} [Field K] [DecidableEq K]

/-- `copy_vector`, c_vector_operations.cpp:38-62 (branch 53-61). -/
def copyVector (input : Array K) (n : Nat) (output : Array K) : Except Fault (Array K) :=
  forRange 0 n (fun i out => do wr out i (← rd input i)) output

/-- `copy_scaled_vector`, c_vector_operations.cpp:80-107 (branch 98-106). -/
def copyScaledVector (input : Array K) (n : Nat) (scale : K) (output : Array K) :
    Except Fault (Array K) :=
  forRange 0 n (fun i out => do wr out i (scale * (← rd input i))) output

/-- `subtract_scaled_vector`, c_vector_operations.cpp:134-166 (branch 152-165), with its early
return for a zero scale. -/
def subtractScaledVector (input : Array K) (n : Nat) (scale : K) (output : Array K) :
    Except Fault (Array K) :=
  if scale = 0 then .ok output
  else forRange 0 n (fun i out => do wr out i ((← rd out i) - scale * (← rd input i))) output

/-- `inner_product`, c_vector_operations.cpp:203-244 (branch 220-243): five products per iteration
up to the largest multiple of five, then the rest. -/
def innerProduct (v1 v2 : Array K) (n : Nat) : Except Fault K := do
  let chunk := 5
  let nChunked := n - n % chunk
  let s ← forStep chunk nChunked (fun i s => do
    .ok (s + ((← rd v1 i) * (← rd v2 i) + (← rd v1 (i+1)) * (← rd v2 (i+1)) +
      (← rd v1 (i+2)) * (← rd v2 (i+2)) + (← rd v1 (i+3)) * (← rd v2 (i+3)) +
      (← rd v1 (i+4)) * (← rd v2 (i+4))))) 0
  forRange nChunked n (fun i s => do .ok (s + (← rd v1 i) * (← rd v2 i))) s

/-- The squared norm accumulated by `euclidean_norm`, c_vector_operations.cpp:280-313
(branch 294-313). -/
def normSq (v : Array K) (n : Nat) : Except Fault K := do
  let chunk := 5
  let nChunked := n - n % chunk
  let s ← forStep chunk nChunked (fun i s => do
    .ok (s + ((← rd v i) * (← rd v i) + (← rd v (i+1)) * (← rd v (i+1)) +
      (← rd v (i+2)) * (← rd v (i+2)) + (← rd v (i+3)) * (← rd v (i+3)) +
      (← rd v (i+4)) * (← rd v (i+4))))) 0
  forRange nChunked n (fun i s => do .ok (s + (← rd v i) * (← rd v i))) s

/-- `euclidean_norm`, c_vector_operations.cpp:280-321; `sqrt` is a parameter. -/
def euclideanNorm (sqrt : K → K) (v : Array K) (n : Nat) : Except Fault K := do
  .ok (sqrt (← normSq v n))

/-- `normalize_vector_in_place`, c_vector_operations.cpp:337-370 (branch 355-369): returns the
vector and the norm.  (Division by a zero norm is `x / 0`, which the float code evaluates to
NaN/inf; theorems exclude it.) -/
def normalizeInPlace (sqrt : K → K) (v : Array K) (n : Nat) : Except Fault (Array K × K) := do
  let norm ← euclideanNorm sqrt v n
  let v ← forRange 0 n (fun i out => do wr out i ((← rd out i) / norm)) v
  .ok (v, norm)

/-- `normalize_vector_and_copy`, c_vector_operations.cpp:388-422 (branch 407-421). -/
def normalizeAndCopy (sqrt : K → K) (v : Array K) (n : Nat) (output : Array K) :
    Except Fault (Array K × K) := do
  let norm ← euclideanNorm sqrt v n
  let out ← forRange 0 n (fun i out => do wr out i ((← rd v i) / norm)) output
  .ok (out, norm)

end Imate.VectorOps
