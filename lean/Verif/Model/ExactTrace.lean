import Verif.Model.Arrays

/-!
# Model of `imate/trace/_exact_method.py`

The argument `gram` is a Boolean and `p` an integer or a finite float; other types are not modelled here.
-/

namespace Imate.Direct

open Imate.Hutchinson

variable {K : Type} [Field K]

/-- The case `p == 1`, trace/_exact_method.py:260-271.  The Frobenius norm of a sparse array is computed from
the entries it stores. -/
def exactOne (A : Array2 K) (gram : Bool) : K :=
  if gram then
    match A with
    | .sparse _ _ entries => (entries.map fun e => e.2.2 ^ 2).sum
    | .dense M => frobeniusSq M
  else diagSum A.value

/-- The trace of the square of `Ap`, trace/_exact_method.py:302-314.  A product of sparse arrays stores every
position once, so the sum of the squares of its entries is its squared Frobenius norm. -/
def exactEvenSum (Ap : Mat K) (gram : Bool) : Except PyExc K :=
  if gram then .ok (frobeniusSq Ap) else sumMulTranspose Ap

/-- The case of an even `p`, trace/_exact_method.py:273-314; also returns `p`, which is overwritten. -/
def exactEven (A : Array2 K) (gram : Bool) (p : Exponent) : Except PyExc (K × Exponent) :=
  if p.val = 2 then do
    let t ← exactEvenSum (base A.value gram) gram
    .ok (t, p)
  else do
    let p := expHalf (expAbs p)
    let Ap ← powerLoop (base A.value gram) (base A.value gram) p
    let t ← exactEvenSum Ap gram
    .ok (t, p)

/-- The case of an odd `p`, trace/_exact_method.py:316-333. -/
def exactOdd (A : Array2 K) (gram : Bool) (p : Exponent) : Except PyExc (K × Exponent) := do
  let Ap ← powerLoop (base A.value gram) (base A.value gram) (expAbs p)
  .ok (diagSum Ap, p)

/-- `exact_method`, trace/_exact_method.py:251-373: the trace and the exponent reported in `info`.  The checks
of `p` (408-416) build exceptions without raising them. -/
def traceExact (A : Array2 K) (gram : Bool) (p : Exponent) : Except PyExc (K × Exponent) := do
  let _ ← checkSquare A gram
  if p.val = 0 then .ok ((min A.value.rows A.value.cols : ℕ), p)
  else if p.val = 1 then .ok (exactOne A gram, p)
  else if expEven p then exactEven A gram p
  else exactOdd A gram p

end Imate.Direct
