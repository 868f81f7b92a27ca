import Verif.Model.Random
import Verif.Model.Lanczos

/-!
# Model of the random vectors of the Hutchinson method

* `imate/_linear_algebra/orthogonalization.pyx` (`orthogonalize_vectors`).  The C++ function of the same
  name, c_orthogonalization.cpp:268-374, has the same loops with another `epsilon`, but takes no seed and
  keeps one clock-seeded generator for all regenerations.  `orthogonalizeVectors` covers both, since
  `epsilon` and the regenerated vectors are parameters; `regenerated` and everything that uses it is the
  Cython version only.
* `imate/_linear_algebra/random_vectors.pyx`
* `imate/_random_generator/py_random_array_generator.pyx`

Simplifications.  Arithmetic is exact; `sqrt` and `epsilon` are parameters.  The coalesced array of
`num_vectors` vectors of length `n` is an array of `num_vectors` rows, row `j` being
`&vectors[j*vector_size]`.
-/

namespace Imate.Columns

open Imate.Random Imate.Lanczos

variable {K : Type} [Field K] [LinearOrder K] {n : Nat}

/-- State of the loops of `orthogonalize_vectors`: the vectors, how often new random vectors have been
generated, and the flag `success`. -/
structure OrthoState (K : Type) (n : Nat) where
  V : Array (Fin n → K)
  calls : Nat
  success : Bool

/-- One iteration of the loop over `j`, orthogonalization.pyx:247-289.  After the `break` of line 289
(`success = 0`) nothing is executed.  `regen k` is what the `k`-th call of
`py_generate_random_array` writes. -/
def orthoStep (sqrt : K → K) (eps : K) (regen : Nat → Fin n → K) (i j : Nat) (s : OrthoState K n) :
    Except Fault (OrthoState K n) :=
  if !s.success then .ok s
  else do
    let vj ← rd s.V j
    if norm sqrt vj < eps * sqrt n then .ok s
    else do
      let vi ← rd s.V i
      let scale := (vi ⬝ᵥ vj) / norm sqrt vj ^ 2
      if norm sqrt (vi - scale • vj) < eps * sqrt n then do
        let V ← wr s.V i (regen s.calls)
        .ok ⟨V, s.calls + 1, false⟩
      else do
        let V ← wr s.V i (vi - scale • vj)
        .ok ⟨V, s.calls, true⟩

/-- `start_j`, orthogonalization.pyx:240-244. -/
def startJ (n i : Nat) : Nat := if n < i then i - n else 0

/-- One pass of the `while` loop for vector `i`, orthogonalization.pyx:237-289. -/
def orthoPass (sqrt : K → K) (eps : K) (regen : Nat → Fin n → K) (i : Nat) (s : OrthoState K n) :
    Except Fault (OrthoState K n) :=
  forRange (startJ n i) i (orthoStep sqrt eps regen i) { s with success := true }

/-- The passes of the `while` loop for vector `i`, orthogonalization.pyx:230-295; `left` is
`max_num_trials - num_trials`.  When it reaches zero the next test (lines 232-235) calls `abort()`. -/
def orthoVector (sqrt : K → K) (eps : K) (regen : Nat → Fin n → K) (i : Nat) :
    (left : Nat) → OrthoState K n → Except Fault (OrthoState K n)
  | 0, _ => .error .abort
  | left + 1, s => do
    let s ← orthoPass sqrt eps regen i s
    if s.success then .ok s else orthoVector sqrt eps regen i left s

/-- `orthogonalize_vectors`, orthogonalization.pyx:168-295: `i` only advances after a successful pass,
when the trial counter is reset. -/
def orthogonalizeVectors (sqrt : K → K) (eps : K) (regen : Nat → Fin n → K) (V : Array (Fin n → K))
    (numVectors : Nat) : Except Fault (Array (Fin n → K)) :=
  if numVectors < 2 then .ok V
  else do
    let s ← forRange 0 numVectors (fun i s => orthoVector sqrt eps regen i 20 s) ⟨V, 0, true⟩
    .ok s.V

/-- `py_generate_random_array` with one thread, py_random_array_generator.pyx:24-51: a new generator is
made from the seed on every call. -/
def pyGenerateRandomArray (clock : Nat → BitVec 64) (seed : BitVec 64) (array : Array K) (size : Nat) :
    Except Fault (Array K) := do
  let gens ← initGenerators 1 clock seed
  let r ← generateArray (fun g => generatorNext g 0) gens array size
  .ok r.1

/-- row `j` of a coalesced array -/
def rowOf (n : Nat) (a : Array K) (j : Nat) : Fin n → K := fun k => a.getD (j * n + k) 0

/-- The vector written by a regeneration, orthogonalization.pyx:281-283 (the call always succeeds, so
the error branch is not reachable). -/
def regenerated (clock : Nat → BitVec 64) (seed : BitVec 64) (n : Nat) : Fin n → K :=
  match pyGenerateRandomArray clock seed (Array.replicate n (0 : K)) n with
  | .ok a => rowOf n a 0
  | .error _ => 0

/-- `normalize_vector_in_place` of row `j`, random_vectors.pyx:79-82; a zero vector gives `nan`. -/
def normalizeRow (sqrt : K → K) (j : Nat) (V : Array (Fin n → K)) :
    Except Fault (Array (Fin n → K)) := do
  let v ← rd V j
  match divide v (norm sqrt v) with
  | some v => wr V j v
  | none => .error .invalid

/-- `generate_random_column_vectors` with one thread, random_vectors.pyx:26-82.  `clock c t` is what the
generator of thread `t` made by call number `c` reads. -/
def generateColumnVectors (sqrt : K → K) (eps : K) (clock : Nat → Nat → BitVec 64)
    (seed : BitVec 64) (n numVectors : Nat) (orthogonalize : Bool) :
    Except Fault (Array (Fin n → K)) := do
  let flat ← pyGenerateRandomArray (clock 0) seed (Array.replicate (n * numVectors) (0 : K))
    (n * numVectors)
  let V := Array.ofFn (fun j : Fin numVectors => rowOf n flat j)
  let V ← if orthogonalize then
      orthogonalizeVectors sqrt eps (fun k => regenerated (clock (k + 1)) seed n) V numVectors
    else .ok V
  forRange 0 numVectors (fun j V => normalizeRow sqrt j V) V

end Imate.Columns
