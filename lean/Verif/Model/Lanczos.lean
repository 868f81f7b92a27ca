import Verif.Model.Mem
import Mathlib.Algebra.Order.Field.Basic
import Mathlib.Data.Matrix.Mul

/-!
# Model of the Krylov layer

* `imate/_c_trace_estimator/c_orthogonalization.cpp` (`gram_schmidt_process`)
* `imate/_c_trace_estimator/c_lanczos_tridiagonalization.cpp`
* `imate/_c_trace_estimator/c_golub_kahn_bidiagonalization.cpp`

Simplifications.  Arithmetic is exact over an ordered field; `sqrt` and machine epsilon are
parameters.  A vector of length `n` is a function `Fin n → K`; the loops inside the vector kernels
(`copy_vector`, `inner_product`, …) are modelled separately in `Model/VectorOps.lean` and shown to
compute the operations used here.  The coalesced buffer `V[n * buffer_size]` is an array of
`buffer_size` *rows*; access to a row is bounds-checked, and a row that was never written, or that was
divided by zero, is `none`, so that any later use of it is the error `Fault.invalid`.
The two virtual methods `A->dot` and `A->transpose_dot` are function parameters.
-/

namespace Imate.Lanczos

variable {K : Type _} [Field K] [LinearOrder K] {n : Nat}

/-- A coalesced buffer of vectors, one entry per row. -/
abbrev Rows (K : Type _) (n : Nat) := Array (Option (Fin n → K))

/-- `&V[i*n]` used as a source operand. -/
def load (V : Rows K n) (i : Nat) : Except Fault (Fin n → K) := do
  match ← rd V i with
  | some v => .ok v
  | none => .error .invalid

/-- `&V[i*n]` used as a destination operand. -/
def store (V : Rows K n) (i : Nat) (v : Option (Fin n → K)) : Except Fault (Rows K n) := wr V i v

/-- `cVectorOperations::euclidean_norm`, c_vector_operations.cpp:280-321 (loops in
`VectorOps.euclideanNorm`). -/
def norm (sqrt : K → K) (v : Fin n → K) : K := sqrt (v ⬝ᵥ v)

/-- Division of a vector by a scalar; `none` when the scalar is zero (IEEE `inf`/`NaN`). -/
def divide (v : Fin n → K) (c : K) : Option (Fin n → K) :=
  if c = 0 then none else some (fun i => v i / c)

/-! ### Gram-Schmidt -/

/-- Number of vectors in the window, c_orthogonalization.cpp:133-160 (zero models the early
`return`). -/
def gsNumSteps (vectorSize numVectors : Nat) (numOrtho : Int) : Nat :=
  if numOrtho = 0 ∨ numVectors < 2 then 0
  else
    let numSteps :=
      if numOrtho < 0 ∨ numOrtho > (numVectors : Int) then numVectors else numOrtho.toNat
    if numSteps > vectorSize then vectorSize else numSteps

/-- The buffer row visited in a step, c_orthogonalization.cpp:173-181. -/
def gsIndex (numVectors lastVector step : Nat) : Nat :=
  if lastVector % numVectors ≥ step then lastVector % numVectors - step
  else lastVector % numVectors + numVectors - step

/-- One step of the process against one vector, c_orthogonalization.cpp:181-222. -/
def gsStep (sqrt : K → K) (eps : K) (Vi v : Fin n → K) : Fin n → K :=
  let nrm := norm sqrt Vi
  if nrm < eps * sqrt n then v
  else
    let inner := Vi ⬝ᵥ v
    let scale := inner / (nrm * nrm)
    if |(|scale| - 1)| ≤ 2 * eps ∧
        norm sqrt v * norm sqrt v - 2 * inner + nrm * nrm < 2 * eps * n then v
    else v - scale • Vi

/-- `gram_schmidt_process`, c_orthogonalization.cpp:124-224, with `v` outside the buffer. -/
def gramSchmidt (sqrt : K → K) (eps : K) (V : Rows K n) (numVectors lastVector : Nat)
    (numOrtho : Int) (v : Fin n → K) : Except Fault (Fin n → K) :=
  forRange 0 (gsNumSteps n numVectors numOrtho) (fun step v => do
    let Vi ← load V (gsIndex numVectors lastVector step)
    .ok (gsStep sqrt eps Vi v)) v

/-- `gram_schmidt_process`, c_orthogonalization.cpp:124-224, called with `v` pointing to the row
`slot` of the buffer itself (as the Golub-Kahn iteration does). -/
def gramSchmidtIn (sqrt : K → K) (eps : K) (V : Rows K n) (numVectors lastVector : Nat)
    (numOrtho : Int) (slot : Nat) : Except Fault (Rows K n) :=
  forRange 0 (gsNumSteps n numVectors numOrtho) (fun step V => do
    let Vi ← load V (gsIndex numVectors lastVector step)
    let v ← load V slot
    store V slot (some (gsStep sqrt eps Vi v))) V

/-! ### Lanczos -/

/-- Buffer size, c_lanczos_tridiagonalization.cpp:127-144. -/
def lanczosBufferSize (m : Nat) (orthogonalize : Int) : Nat :=
  if orthogonalize = 0 ∨ orthogonalize = 1 then 2
  else if orthogonalize < 0 ∨ orthogonalize > (m : Int) then m
  else orthogonalize.toNat

/-- Local variables and outputs of `c_lanczos_tridiagonalization`; `stop` records that `break` was
executed. -/
structure LanczosState (K : Type _) (n : Nat) where
  V : Rows K n
  r : Fin n → K
  alpha : Array K
  beta : Array K
  size : Nat
  stop : Bool

/-- "Normalize r and copy to the j-th column of V", c_lanczos_tridiagonalization.cpp:171-181. -/
def lanczosNormalize (bufferSize : Nat) (initialBeta : K) (j : Nat) (s : LanczosState K n) :
    Except Fault (Rows K n) :=
  if j = 0 then store s.V (j % bufferSize) (divide s.r initialBeta)
  else do store s.V (j % bufferSize) (divide s.r (← rd s.beta (j - 1)))

/-- "Subtract V[:,j-1] * beta[j] from r", c_lanczos_tridiagonalization.cpp:194-199. -/
def lanczosSubtractPrevious (bufferSize : Nat) (V : Rows K n) (beta : Array K) (j : Nat)
    (r : Fin n → K) : Except Fault (Fin n → K) :=
  if j > 0 then do
    let vp ← load V ((j - 1) % bufferSize)
    .ok (r - (← rd beta (j - 1)) • vp)
  else .ok r

/-- The re-orthogonalisation block, c_lanczos_tridiagonalization.cpp:201-217. -/
def lanczosReorthogonalize (sqrt : K → K) (eps : K) (orthogonalize : Int) (bufferSize : Nat)
    (V : Rows K n) (j : Nat) (r : Fin n → K) : Except Fault (Fin n → K) :=
  if orthogonalize ≠ 0 then
    let numOrtho : Nat := if j < bufferSize then j + 1 else bufferSize
    gramSchmidt sqrt eps V bufferSize (j % bufferSize) numOrtho r
  else .ok r

/-- The loop body for index `j`, c_lanczos_tridiagonalization.cpp:165-229. -/
def lanczosBody (sqrt : K → K) (eps : K) (dot : (Fin n → K) → Except Fault (Fin n → K))
    (tol : K) (orthogonalize : Int) (bufferSize : Nat) (initialBeta : K)
    (j : Nat) (s : LanczosState K n) : Except Fault (LanczosState K n) := do
  let V ← lanczosNormalize bufferSize initialBeta j s
  let vj ← load V (j % bufferSize)
  let r ← dot vj
  let alpha ← wr s.alpha j (vj ⬝ᵥ r)
  let r ← lanczosSubtractPrevious bufferSize V s.beta j (r - (vj ⬝ᵥ r) • vj)
  let r ← lanczosReorthogonalize sqrt eps orthogonalize bufferSize V j r
  let beta ← wr s.beta j (norm sqrt r)
  .ok ⟨V, r, alpha, beta, s.size + 1, decide (norm sqrt r < tol * sqrt n)⟩

/-- Result of a bidiagonalisation or tridiagonalisation: the size and the two output arrays. -/
structure Coefficients (K : Type _) where
  size : Nat
  alpha : Array K
  beta : Array K

/-- `c_lanczos_tridiagonalization`, c_lanczos_tridiagonalization.cpp:116-236.  `alpha`, `beta` are
the caller's arrays of length `m` with arbitrary contents. -/
def lanczos (sqrt : K → K) (eps : K) (dot : (Fin n → K) → Except Fault (Fin n → K))
    (v : Fin n → K) (m : Nat) (tol : K) (orthogonalize : Int) (alpha beta : Array K) :
    Except Fault (Coefficients K) := do
  let bufferSize := lanczosBufferSize m orthogonalize
  let initialBeta := norm sqrt v
  let s ← forRange 0 m (fun j s =>
      if s.stop then .ok s
      else lanczosBody sqrt eps dot tol orthogonalize bufferSize initialBeta j s)
    ⟨Array.replicate bufferSize none, v, alpha, beta, 0, false⟩
  .ok ⟨s.size, s.alpha, s.beta⟩

/-! ### Golub-Kahn -/

/-- Buffer size, c_golub_kahn_bidiagonalization.cpp:121-140. -/
def golubKahnBufferSize (m : Nat) (orthogonalize : Int) : Nat :=
  if orthogonalize = 0 then 2
  else if orthogonalize < 0 ∨ orthogonalize > (m : Int) - 1 then m
  else orthogonalize.toNat + 1

/-- Local variables and outputs of `c_golub_kahn_bidiagonalization`. -/
structure GKState (K : Type _) (n : Nat) where
  U : Rows K n
  V : Rows K n
  alpha : Array K
  beta : Array K
  size : Nat
  stop : Bool

/-- `subtract_scaled_vector(&V[i*n], n, scale, &V[k*n])` inside one buffer (the two rows may
coincide), c_vector_operations.cpp:134-166. -/
def subtractIn (V : Rows K n) (i : Nat) (scale : K) (k : Nat) : Except Fault (Rows K n) := do
  let x ← load V i
  let y ← load V k
  store V k (some (y - scale • x))

/-- `normalize_vector_in_place(&V[k*n], n)`: returns the norm, c_vector_operations.cpp:337-370. -/
def normalizeIn (sqrt : K → K) (V : Rows K n) (k : Nat) : Except Fault (Rows K n × K) := do
  let x ← load V k
  .ok (← store V k (divide x (norm sqrt x)), norm sqrt x)

/-- "u_new[i] = u_new[i] - beta[j] * u_old[i]", c_golub_kahn_bidiagonalization.cpp:165-171. -/
def gkSubtractPrevious (bufferSize : Nat) (U : Rows K n) (beta : Array K) (j : Nat) :
    Except Fault (Rows K n) :=
  if j > 0 then do
    subtractIn U ((j - 1) % bufferSize) (← rd beta (j - 1)) (j % bufferSize)
  else .ok U

/-- Window length, c_golub_kahn_bidiagonalization.cpp:176-184. -/
def gkNumOrtho (bufferSize j : Nat) : Nat := if j < bufferSize then j else bufferSize - 1

/-- "orthogonalize u_new against previous vectors", c_golub_kahn_bidiagonalization.cpp:173-193. -/
def gkReorthogonalizeU (sqrt : K → K) (eps : K) (orthogonalize : Int) (bufferSize : Nat)
    (U : Rows K n) (j : Nat) : Except Fault (Rows K n) :=
  if orthogonalize ≠ 0 ∧ j > 0 then
    gramSchmidtIn sqrt eps U bufferSize ((j - 1) % bufferSize) (gkNumOrtho bufferSize j)
      (j % bufferSize)
  else .ok U

/-- "orthogonalize v_new against previous vectors", c_golub_kahn_bidiagonalization.cpp:207-213. -/
def gkReorthogonalizeV (sqrt : K → K) (eps : K) (orthogonalize : Int) (bufferSize : Nat)
    (V : Rows K n) (j : Nat) : Except Fault (Rows K n) :=
  if orthogonalize ≠ 0 then
    gramSchmidtIn sqrt eps V bufferSize (j % bufferSize) (gkNumOrtho bufferSize j)
      ((j + 1) % bufferSize)
  else .ok V

/-- The loop body for index `j`, c_golub_kahn_bidiagonalization.cpp:156-225. -/
def golubKahnBody (sqrt : K → K) (eps : K)
    (dot transposeDot : (Fin n → K) → Except Fault (Fin n → K))
    (tol : K) (orthogonalize : Int) (bufferSize : Nat) (j : Nat) (s : GKState K n) :
    Except Fault (GKState K n) := do
  let vj ← load s.V (j % bufferSize)
  let U ← store s.U (j % bufferSize) (some (← dot vj))
  let U ← gkSubtractPrevious bufferSize U s.beta j
  let U ← gkReorthogonalizeU sqrt eps orthogonalize bufferSize U j
  let (U, a) ← normalizeIn sqrt U (j % bufferSize)
  let alpha ← wr s.alpha j a
  let uj ← load U (j % bufferSize)
  let V ← store s.V ((j + 1) % bufferSize) (some (← transposeDot uj))
  let V ← subtractIn V (j % bufferSize) a ((j + 1) % bufferSize)
  let V ← gkReorthogonalizeV sqrt eps orthogonalize bufferSize V j
  let (V, b) ← normalizeIn sqrt V ((j + 1) % bufferSize)
  let beta ← wr s.beta j b
  .ok ⟨U, V, alpha, beta, s.size + 1, decide (b < tol * sqrt n)⟩

/-- `c_golub_kahn_bidiagonalization`, c_golub_kahn_bidiagonalization.cpp:110-232. -/
def golubKahn (sqrt : K → K) (eps : K) (dot transposeDot : (Fin n → K) → Except Fault (Fin n → K))
    (v : Fin n → K) (m : Nat) (tol : K) (orthogonalize : Int) (alpha beta : Array K) :
    Except Fault (Coefficients K) := do
  let bufferSize := golubKahnBufferSize m orthogonalize
  let V ← store (Array.replicate bufferSize none) 0 (divide v (norm sqrt v))
  let s ← forRange 0 m (fun j s =>
      if s.stop then .ok s
      else golubKahnBody sqrt eps dot transposeDot tol orthogonalize bufferSize j s)
    ⟨Array.replicate bufferSize none, V, alpha, beta, 0, false⟩
  .ok ⟨s.size, s.alpha, s.beta⟩

end Imate.Lanczos
