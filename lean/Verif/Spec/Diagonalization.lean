import Verif.Model.Diagonalization
import Verif.Spec.Lapack
import Verif.Spec.Rounding

/-! # Specification: what LAPACK documents of `?stev` and `?bdsdc`, with the error codes -/

namespace Imate.Spec

open Imate.Diagonalization

/-- The documented contract of `?stev` for arguments of the documented sizes: the arrays are changed in place, and if
`info` is zero they hold the eigenvalues and eigenvectors.  Nothing is promised about them otherwise. -/
def StevContract (stev : StevRoutine ℝ) : Prop :=
  ∀ (n : Nat) (d e z work : Array ℝ), 1 ≤ n → n ≤ d.size → n ≤ e.size + 1 → n * n ≤ z.size → 2 * n - 2 ≤ work.size →
    (stev n d e z work).d.size = d.size ∧ (stev n d e z work).z.size = z.size ∧
    ((stev n d e z work).info = 0 →
      Spectral (tridiagonal n (fun i => d.getD i 0) (fun i => e.getD i 0))
        (fun i j => (stev n d e z work).z.getD (i.1 + j.1 * n) 0)
        (fun i => (stev n d e z work).d.getD i.1 0))

/-- The documented contract of `?bdsdc` for arguments of the documented sizes: the arrays are changed in place, and if
`info` is zero they hold the singular values and vectors of the upper bidiagonal matrix.  Nothing is promised otherwise. -/
def BdsdcContract (bdsdc : BdsdcRoutine ℝ) : Prop :=
  ∀ (n : Nat) (d e u vt work : Array ℝ) (iwork : Array Int), 1 ≤ n → n ≤ d.size → n ≤ e.size + 1 → n * n ≤ u.size →
    n * n ≤ vt.size → 3 * n * n + 4 * n ≤ work.size → 8 * n ≤ iwork.size →
    (bdsdc n d e u vt work iwork).d.size = d.size ∧ (bdsdc n d e u vt work iwork).vt.size = vt.size ∧
    ((bdsdc n d e u vt work iwork).info = 0 →
      SingularValues (bidiagonal n (fun i => d.getD i 0) (fun i => e.getD i 0))
        (fun i j => (bdsdc n d e u vt work iwork).u.getD (i.1 + j.1 * n) 0)
        (fun i j => (bdsdc n d e u vt work iwork).vt.getD (j.1 + i.1 * n) 0)
        (fun i => (bdsdc n d e u vt work iwork).d.getD i.1 0))

/-- A routine for `double`: it makes `double`s of `double`s. -/
def DoubleRoutine (stev : StevRoutine ℝ) : Prop :=
  ∀ (n : Nat) (d e z work : Array ℝ), (∀ x ∈ d, Representable 53 x) → (∀ x ∈ e, Representable 53 x) →
    (∀ x ∈ z, Representable 53 x) → (∀ x ∈ work, Representable 53 x) →
    (∀ x ∈ (stev n d e z work).d, Representable 53 x) ∧ (∀ x ∈ (stev n d e z work).z, Representable 53 x)

/-- The documented behaviour of `?stev` for a matrix with one element: it is the eigenvalue, and the eigenvector is 1. -/
def QuickReturn (stev : StevRoutine ℝ) : Prop :=
  ∀ (d e z work : Array ℝ), 1 ≤ d.size → 1 ≤ z.size →
    (stev 1 d e z work).d = d ∧ (stev 1 d e z work).z.size = z.size ∧ (stev 1 d e z work).z[0]? = some 1 ∧
    (stev 1 d e z work).info = 0

end Imate.Spec
