import Verif.Model.RoundedLanczos

/-!
# The Golub-Kahn iteration with rounding

`c_golub_kahn_bidiagonalization.cpp` for `orthogonalize = 0` (the default of the package), in the notation of
`Model/RoundedLanczos.lean`.  A row of a buffer is a vector with a flag that is false after a division by zero, when the row
contains NaN and infinities; to read such a row is the error `Fault.invalid`, to overwrite it is not.
-/

namespace Imate.Rounded

variable (flD flE flL : ℝ → ℝ)

/-- A row of a buffer, and whether it can be read. -/
abbrev Row := Array ℝ × Bool

/-- Reading row `i` (simplification: see above). -/
def load (rows : Array Row) (i : Nat) : Except Fault (Array ℝ) := do
  let row ← rd rows i
  if row.2 then .ok row.1 else .error .invalid

/-- `normalize_vector_in_place`, c_vector_operations.cpp:337-370 (branch 357-367): returns the vector and the norm. -/
noncomputable def normalizeInPlace (v : Array ℝ) (n : Nat) : Except Fault (Row × ℝ) := do
  let norm ← euclideanNorm flD flL v n
  let v' ← forRange 0 n (fun i v => do wr v i (flD ((← rd v i) / norm))) v
  .ok ((v', decide (norm ≠ 0)), norm)

/-- Local variables and outputs; `U` and `V` are the buffers with two rows, `stop` records that `break` was executed. -/
structure GolubKahnState where
  U : Array Row
  V : Array Row
  alpha : Array ℝ
  beta : Array ℝ
  size : Nat
  stop : Bool

/-- `u_new[i] = u_new[i] - beta[j-1] * u_old[i]`, c_golub_kahn_bidiagonalization.cpp:164-170. -/
noncomputable def subtractOld (n j : Nat) (U : Array Row) (beta u : Array ℝ) : Except Fault (Array ℝ) :=
  if j > 0 then do
    subtractScaledVector flD (← load U ((j - 1) % 2)) n (← rd beta (j - 1)) u
  else .ok u

/-- The loop body for index `j`, c_golub_kahn_bidiagonalization.cpp:156-225. -/
noncomputable def golubKahnBody (dot transposeDot : Array ℝ → Array ℝ → Except Fault (Array ℝ)) (n : Nat) (tol : ℝ)
    (j : Nat) (s : GolubKahnState) : Except Fault GolubKahnState := do
  let vj ← load s.V (j % 2)
  let u ← dot vj (← rd s.U (j % 2)).1
  let u ← subtractOld flD n j s.U s.beta u
  let (row, a) ← normalizeInPlace flD flL u n
  let U ← wr s.U (j % 2) row
  let alpha ← wr s.alpha j a
  let uj ← load U (j % 2)
  let v ← transposeDot uj (← rd s.V ((j + 1) % 2)).1
  let v ← subtractScaledVector flD vj n a v
  let (row, b) ← normalizeInPlace flD flL v n
  let V ← wr s.V ((j + 1) % 2) row
  let beta ← wr s.beta j b
  .ok ⟨U, V, alpha, beta, s.size + 1, decide (b < flE (tol * flE (Real.sqrt n)))⟩

/-- `c_golub_kahn_bidiagonalization`, c_golub_kahn_bidiagonalization.cpp:110-232.  `U0` and `V0` are the contents of the
allocated memory, `alpha` and `beta` the arrays of the caller. -/
noncomputable def golubKahn (dot transposeDot : Array ℝ → Array ℝ → Except Fault (Array ℝ)) (n : Nat) (v : Array ℝ)
    (m : Nat) (tol : ℝ) (U0 V0 : Array Row) (alpha beta : Array ℝ) : Except Fault (Nat × Array ℝ × Array ℝ) := do
  let first ← normalizeAndCopy flD flL v n (← rd V0 0).1
  let V ← wr V0 0 (first.1, decide (first.2 ≠ 0))
  let s ← forRange 0 m (fun j s =>
      if s.stop then .ok s else golubKahnBody flD flE flL dot transposeDot n tol j s)
    ⟨U0, V, alpha, beta, 0, false⟩
  .ok (s.size, s.alpha, s.beta)

end Imate.Rounded
