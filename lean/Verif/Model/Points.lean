import Mathlib.Data.Real.Basic

/-!
# Model of `imate/sample_matrices/_generate_points.pyx`

A coordinate is a `double`: `some x` for a number, `none` for `nan`.  Arithmetic is exact and the integers do not
overflow.
-/

namespace Imate.Sample

/-- A point: its coordinates. -/
abbrev Point := List (Option ℝ)

/-- The body of the loop over the points, with the flag `shift_next_dim`: the coordinates of a point from those of
the point before it (_generate_points.pyx:105-126). -/
noncomputable def nextPoint (gridSize : ℕ) : Bool → List ℝ → List ℝ
  | _, [] => []
  | true, c :: cs =>
    if c ≥ (gridSize : ℝ) - 1 then 0 :: nextPoint gridSize true cs else (c + 1) :: nextPoint gridSize false cs
  | false, c :: cs => c :: nextPoint gridSize false cs

/-- The point with the number `point_id`, before it is scaled (_generate_points.pyx:96-126). -/
noncomputable def latticePoint (gridSize dimension : ℕ) : ℕ → List ℝ
  | 0 => List.replicate dimension 0
  | k + 1 => nextPoint gridSize true (latticePoint gridSize dimension k)

/-- `coords[point_id][dim] * dx` with `dx = 1.0 / (grid_size - 1.0)` (_generate_points.pyx:129-132).  Cython is told
to divide as C does (`cdivision`, setup.py:1415), so `dx` is infinite when there is one point in each direction; its
coordinates are zero, and zero times infinity is `nan`. -/
noncomputable def scaleCoord (gridSize : ℕ) (c : ℝ) : Option ℝ :=
  if gridSize = 1 then none else some (c * (1 / ((gridSize : ℝ) - 1)))

/-- `_generate_grid_points` (_generate_points.pyx:66-132). -/
noncomputable def gridPoints (gridSize dimension : ℕ) : List Point :=
  (List.range (gridSize ^ dimension)).map fun p =>
    (latticePoint gridSize dimension p).map (scaleCoord gridSize)

/-- `_generate_random_points` (_generate_points.pyx:139-172): `rand k` is the result of the `k`-th call of `rand()`
and `randMax` is `RAND_MAX`. -/
noncomputable def randomPoints (rand : ℕ → ℕ) (randMax : ℕ) (size dimension : ℕ) : List Point :=
  (List.range size).map fun p => (List.range dimension).map fun d => some ((rand (p * dimension + d) : ℝ) / randMax)

/-- `generate_points` (_generate_points.pyx:49-59). -/
noncomputable def generatePoints (rand : ℕ → ℕ) (randMax : ℕ) (size dimension : ℕ) (grid : Bool) : List Point :=
  if grid then gridPoints size dimension else randomPoints rand randMax size dimension

end Imate.Sample
