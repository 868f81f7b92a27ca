import Verif.Model.Mem
import Verif.Model.FloatLike
import Mathlib.Data.Real.Sqrt
import Verif.Lemmas.Convergence

/-!
# Vector kernels and the Lanczos iteration with a finite range of numbers

`c_vector_operations.cpp` and `c_lanczos_tridiagonalization.cpp` (`orthogonalize = 0`) with numbers that may overflow and
underflow: `flD` rounds to `DataType`, `flL` to `long double`, `flE` to the wider one of `double` and `DataType`.  A rounded
number may be infinite; infinity and NaN are computed with as IEEE 754 says.  Simplifications: the branches without CBLAS, no
contraction of a product and a sum into one operation; a zero has no sign; `sqrt` of a number of `DataType` is rounded to
`DataType`; `lanczos_tol * sqrt(n)` is a finite number.
-/

namespace Imate.RangedVector

variable (flD flE flL : ℝ → XR ℝ)

/-- A result with its rounding. -/
def rounded (fl : ℝ → XR ℝ) : XR ℝ → XR ℝ
  | .fin x => fl x
  | y => y

/-- `x + y` -/
noncomputable def plus (fl : ℝ → XR ℝ) (x y : XR ℝ) : XR ℝ := rounded fl (XR.add x y)

/-- `x - y` -/
noncomputable def minus (fl : ℝ → XR ℝ) (x y : XR ℝ) : XR ℝ := rounded fl (XR.add x (XR.neg y))

/-- `x * y` -/
noncomputable def times (fl : ℝ → XR ℝ) (x y : XR ℝ) : XR ℝ := rounded fl (XR.mul x y)

/-- `x / y` -/
noncomputable def over (fl : ℝ → XR ℝ) (x y : XR ℝ) : XR ℝ := rounded fl (XR.div x y)

/-- The sum of the five products of one iteration, from left to right, c_vector_operations.cpp:227-231, 303-307. -/
noncomputable def five (p0 p1 p2 p3 p4 : XR ℝ) : XR ℝ := plus flD (plus flD (plus flD (plus flD p0 p1) p2) p3) p4

/-- The two loops of `inner_product`, c_vector_operations.cpp:221-237, and of `euclidean_norm`, 296-313. -/
noncomputable def chunked (a b : Array (XR ℝ)) (n : Nat) : Except Fault (XR ℝ) := do
  let chunk := 5
  let nChunked := n - n % chunk
  let s ← forStep chunk nChunked (fun i s => do
    .ok (plus flL s (five flD (times flD (← rd a i) (← rd b i)) (times flD (← rd a (i+1)) (← rd b (i+1)))
      (times flD (← rd a (i+2)) (← rd b (i+2))) (times flD (← rd a (i+3)) (← rd b (i+3)))
      (times flD (← rd a (i+4)) (← rd b (i+4)))))) (.fin 0)
  forRange nChunked n (fun i s => do .ok (plus flL s (times flD (← rd a i) (← rd b i)))) s

/-- `inner_product`, c_vector_operations.cpp:203-244 (branch 220-243). -/
noncomputable def innerProduct (a b : Array (XR ℝ)) (n : Nat) : Except Fault (XR ℝ) := do
  .ok (rounded flD (← chunked flD flL a b n))

/-- `euclidean_norm`, c_vector_operations.cpp:280-321 (branch 294-319): the sum of squares is converted to `DataType`
before the square root. -/
noncomputable def euclideanNorm (v : Array (XR ℝ)) (n : Nat) : Except Fault (XR ℝ) := do
  .ok (rounded flD (XR.sqrt (rounded flD (← chunked flD flL v v n))))

/-- `normalize_vector_in_place`, c_vector_operations.cpp:337-370 (branch 355-369): the vector and the norm. -/
noncomputable def normalizeInPlace (v : Array (XR ℝ)) (n : Nat) : Except Fault (Array (XR ℝ) × XR ℝ) := do
  let norm ← euclideanNorm flD flL v n
  let v ← forRange 0 n (fun i v => do wr v i (over flD (← rd v i) norm)) v
  .ok (v, norm)

/-- `normalize_vector_and_copy`, c_vector_operations.cpp:388-422 (branch 407-421). -/
noncomputable def normalizeAndCopy (v : Array (XR ℝ)) (n : Nat) (out : Array (XR ℝ)) :
    Except Fault (Array (XR ℝ) × XR ℝ) := do
  let norm ← euclideanNorm flD flL v n
  let out ← forRange 0 n (fun i out => do wr out i (over flD (← rd v i) norm)) out
  .ok (out, norm)

/-- `copy_scaled_vector`, c_vector_operations.cpp:80-107 (branch 98-106). -/
noncomputable def copyScaledVector (v : Array (XR ℝ)) (n : Nat) (scale : XR ℝ) (out : Array (XR ℝ)) :
    Except Fault (Array (XR ℝ)) :=
  forRange 0 n (fun i out => do wr out i (times flD scale (← rd v i))) out

open Classical in
/-- `subtract_scaled_vector`, c_vector_operations.cpp:134-166 (branch 152-165). -/
noncomputable def subtractScaledVector (v : Array (XR ℝ)) (n : Nat) (scale : XR ℝ) (out : Array (XR ℝ)) :
    Except Fault (Array (XR ℝ)) :=
  if scale = .fin 0 then .ok out
  else forRange 0 n (fun i out => do wr out i (minus flD (← rd out i) (times flD scale (← rd v i)))) out

/-- `csr_matvec`, c_matrix_operations.cpp:468-494. -/
noncomputable def csrMatvec (data : Array (XR ℝ)) (colIdx ptr : Array Nat) (b : Array (XR ℝ)) (numRows : Nat)
    (c : Array (XR ℝ)) : Except Fault (Array (XR ℝ)) :=
  forRange 0 numRows (fun row c => do
    let sum ← forRange (← rd ptr row) (← rd ptr (row + 1)) (fun k s => do
      let column ← rd colIdx k
      .ok (plus flL s (times flD (← rd data k) (← rd b column)))) (.fin 0)
    wr c row (rounded flD sum)) c

/-- Local variables and outputs of `c_lanczos_tridiagonalization`: `V` is the buffer with two rows, `stop` records that
`break` was executed. -/
structure LanczosState where
  V : Array (Array (XR ℝ))
  r : Array (XR ℝ)
  alpha : Array (XR ℝ)
  beta : Array (XR ℝ)
  size : Nat
  stop : Bool

/-- The factor with which `r` is scaled, c_lanczos_tridiagonalization.cpp:171-181. -/
noncomputable def lanczosScale (initialBeta : XR ℝ) (j : Nat) (beta : Array (XR ℝ)) : Except Fault (XR ℝ) := do
  let b ← if j = 0 then .ok initialBeta else rd beta (j - 1)
  .ok (rounded flD (over flE (.fin 1) b))

/-- "Subtract V[:,j-1] * beta[j] from r", c_lanczos_tridiagonalization.cpp:194-199. -/
noncomputable def subtractPrevious (n j : Nat) (V : Array (Array (XR ℝ))) (beta r : Array (XR ℝ)) :
    Except Fault (Array (XR ℝ)) :=
  if j > 0 then do
    subtractScaledVector flD (← rd V ((j - 1) % 2)) n (← rd beta (j - 1)) r
  else .ok r

/-- The loop body for index `j`, c_lanczos_tridiagonalization.cpp:165-229; `bound` is `lanczos_tol * sqrt(n)`. -/
noncomputable def lanczosBody (dot : Array (XR ℝ) → Array (XR ℝ) → Except Fault (Array (XR ℝ))) (n : Nat) (bound : ℝ)
    (initialBeta : XR ℝ) (j : Nat) (s : LanczosState) : Except Fault LanczosState := do
  let scale ← lanczosScale flD flE initialBeta j s.beta
  let vj ← copyScaledVector flD s.r n scale (← rd s.V (j % 2))
  let V ← wr s.V (j % 2) vj
  let r ← dot vj s.r
  let a ← innerProduct flD flL vj r n
  let alpha ← wr s.alpha j a
  let r ← subtractScaledVector flD vj n a r
  let r ← subtractPrevious flD n j V s.beta r
  let b ← euclideanNorm flD flL r n
  let beta ← wr s.beta j b
  .ok ⟨V, r, alpha, beta, s.size + 1, XR.lt b (.fin bound)⟩

/-- `c_lanczos_tridiagonalization`, c_lanczos_tridiagonalization.cpp:116-236, from the start vector in `r` on. -/
noncomputable def lanczos (dot : Array (XR ℝ) → Array (XR ℝ) → Except Fault (Array (XR ℝ))) (n m : Nat) (bound : ℝ)
    (V0 : Array (Array (XR ℝ))) (v alpha beta : Array (XR ℝ)) : Except Fault (Nat × Array (XR ℝ) × Array (XR ℝ)) := do
  let initialBeta ← euclideanNorm flD flL v n
  let s ← forRange 0 m (fun j s =>
      if s.stop then .ok s else lanczosBody flD flE flL dot n bound initialBeta j s)
    ⟨V0, v, alpha, beta, 0, false⟩
  .ok (s.size, s.alpha, s.beta)

end Imate.RangedVector
