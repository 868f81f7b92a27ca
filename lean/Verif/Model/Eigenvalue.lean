import Verif.Model.Arrays
import Mathlib.Analysis.SpecialFunctions.Pow.Real
import Mathlib.Analysis.SpecialFunctions.Pow.Complex
import Mathlib.Analysis.SpecialFunctions.Complex.Log
import Mathlib.Analysis.SpecialFunctions.Complex.Arg

/-!
# Model of the eigenvalue methods

`imate/{trace,traceinv,trexp,trlinfrac,eigencount,density,logdet}/_eigenvalue_method.py`.  Arithmetic is exact;
`none` stands for a number that is not finite.  The routines of LAPACK and ARPACK are the fields of `Lib`.
-/

namespace Imate.Eigen

open Imate.Direct Imate.Hutchinson Matrix

/-- The argument `which` of ARPACK. -/
inductive Which where
  | largest
  | smallest
  | bothEnds

/-- The external routines. -/
structure Lib where
  /-- `scipy.linalg.eig(A)[0]` -/
  eig : (n : ℕ) → Matrix (Fin n) (Fin n) ℝ → List ℂ
  /-- `scipy.linalg.eigh(A, eigvals_only=True)` -/
  eigh : (n : ℕ) → Matrix (Fin n) (Fin n) ℝ → List ℝ
  /-- `numpy.linalg.svd(A, compute_uv=False)`, `scipy.linalg.svdvals(A)` -/
  svd : (m n : ℕ) → Matrix (Fin m) (Fin n) ℝ → List ℝ
  /-- `numpy.linalg.svd(A, compute_uv=False, hermitian=True)` -/
  svdh : (n : ℕ) → Matrix (Fin n) (Fin n) ℝ → List ℝ
  /-- `scipy.sparse.linalg.eigs(A, k, which=…)` -/
  eigs : Which → (k n : ℕ) → Matrix (Fin n) (Fin n) ℝ → Except PyExc (List ℂ)
  /-- `scipy.sparse.linalg.eigsh(A, k, which=…)` -/
  eigsh : Which → (k n : ℕ) → Matrix (Fin n) (Fin n) ℝ → Except PyExc (List ℝ)
  /-- `scipy.sparse.linalg.svds(A, k, which=…)` -/
  svds : Which → (k m n : ℕ) → Matrix (Fin m) (Fin n) ℝ → Except PyExc (List ℝ)

/-- An array of eigenvalues of type `float64` or `complex128`; `none` is `nan`. -/
inductive Eigs where
  | real (l : List (Option ℝ))
  | cplx (l : List (Option ℂ))

/-- `eigenvalues.size` -/
def Eigs.size : Eigs → ℕ
  | .real l => l.length
  | .cplx l => l.length

/-- `eigenvalues**2` -/
noncomputable def Eigs.sq : Eigs → Eigs
  | .real l => .real (l.map (Option.map (· ^ 2)))
  | .cplx l => .cplx (l.map (Option.map (· ^ 2)))

/-- The settings of an eigenvalue method; `sym` is `assume_matrix == 'sym'`. -/
structure Settings where
  gram : Bool
  sym : Bool
  fraction : ℚ

/-- `num_none_zero_eig = int(n*non_zero_eig_fraction)` (trace/_eigenvalue_method.py:505, 534;
logdet/_eigenvalue_method.py:520, 585). -/
def numNonZero (n : ℕ) (fraction : ℚ) : ℕ := ⌊(n : ℚ) * fraction⌋.toNat

/-- An array of `n` times `nan` whose first entries are replaced (trace/_eigenvalue_method.py:501-502, 512,
530-531, 537, 543). -/
def padded {α : Type} (n : ℕ) (l : List α) : List (Option α) :=
  l.map some ++ List.replicate (n - l.length) none

/-- A routine that needs a square matrix. -/
def withSquare {α : Type} (M : Mat ℝ) (f : (n : ℕ) → Matrix (Fin n) (Fin n) ℝ → Except PyExc α) :
    Except PyExc α :=
  if h : M.rows = M.cols then f M.rows (M.val.submatrix id (Fin.cast h)) else .error .valueError

/-- The singular values of a dense matrix (trace/_eigenvalue_method.py:516-521). -/
noncomputable def denseSingular (lib : Lib) (sym : Bool) (M : Mat ℝ) : Except PyExc (List ℝ) :=
  if sym then withSquare M fun n A => .ok (lib.svdh n A) else .ok (lib.svd M.rows M.cols M.val)

/-- The branch `gram` of `compute_eigenvalues` (trace/_eigenvalue_method.py:495-522). -/
noncomputable def gramEigenvalues (lib : Lib) (which : Which) (A : Array2 ℝ) (st : Settings) :
    Except PyExc Eigs :=
  if A.isSparse then do
    let s ← lib.svds which (numNonZero A.value.rows st.fraction) A.value.rows A.value.cols A.value.val
    .ok (.real (padded A.value.rows (s.map (· ^ 2))))
  else do
    let s ← denseSingular lib st.sym A.value
    .ok (.real (s.map fun x => some (x ^ 2)))

/-- The other branch of `compute_eigenvalues` (trace/_eigenvalue_method.py:524-557). -/
noncomputable def plainEigenvalues (lib : Lib) (which : Which) (A : Array2 ℝ) (st : Settings) :
    Except PyExc Eigs :=
  if A.isSparse then
    if st.sym then do
      let l ← withSquare A.value (lib.eigsh which (numNonZero A.value.rows st.fraction))
      .ok (.real (padded A.value.rows l))
    else do
      let l ← withSquare A.value (lib.eigs which (numNonZero A.value.rows st.fraction))
      .ok (.cplx (padded A.value.rows l))
  else
    if st.sym then withSquare A.value fun n A => .ok (.real ((lib.eigh n A).map some))
    else withSquare A.value fun n A => .ok (.cplx ((lib.eig n A).map some))

/-- `compute_eigenvalues` (trace/_eigenvalue_method.py:479-557; the same text in
traceinv/_eigenvalue_method.py:481-559, trexp/_eigenvalue_method.py:463-541,
trlinfrac/_eigenvalue_method.py:488-566, eigencount/_eigenvalue_method.py:463-541 and
density/_eigenvalue_method.py:492-570). -/
noncomputable def computeEigenvalues (lib : Lib) (which : Which) (A : Array2 ℝ) (st : Settings) :
    Except PyExc Eigs :=
  if st.gram then gramEigenvalues lib which A st else plainEigenvalues lib which A st

/-- The checks of the sizes (trace/_eigenvalue_method.py:418-423, 426-441). -/
noncomputable def checkSizes (A : Array2 ℝ) (user : Option Eigs) (gram : Bool) : Except PyExc Unit :=
  match user with
  | none => checkSquare A gram
  | some l => if l.size ≠ A.value.rows then .error .valueError else checkSquare A gram

/-- The check of `non_zero_eig_fraction` (trace/_eigenvalue_method.py:464-472). -/
def checkFraction (fraction : ℚ) : Except PyExc Unit :=
  if fraction ≤ 0 ∨ 1 ≤ fraction then .error .valueError else .ok ()

/-- The eigenvalues that are used (trace/_eigenvalue_method.py:303-322). -/
noncomputable def chooseEigenvalues (lib : Lib) (which : Which) (A : Array2 ℝ) (user : Option Eigs)
    (st : Settings) : Except PyExc Eigs :=
  match user with
  | none => computeEigenvalues lib which A st
  | some l => .ok (if st.gram then l.sq else l)

/-! ### Scalar functions -/

/-- A power of a real number in floating-point arithmetic. -/
inductive Power where
  | fin (x : ℝ)
  | inf
  | nan

/-- `x**p` for a `float64` `x` other than `-0.0`: `nan` for a negative base and an exponent that is not an
integer, infinite for zero and a negative exponent. -/
noncomputable def powR (x p : ℝ) : Power :=
  open Classical in
  if 0 < x then .fin (x ^ p)
  else if x = 0 then (if 0 < p then .fin 0 else if p = 0 then .fin 1 else .inf)
  else if h : ∃ k : ℤ, p = k then .fin (x ^ h.choose) else .nan

/-- `z**p` for a `complex128` `z`: the principal power; not finite for zero and a negative exponent. -/
noncomputable def powC (z : ℂ) (p : ℝ) : Option ℂ :=
  open Classical in
  if z = 0 then (if 0 < p then some 0 else if p = 0 then some 1 else none) else some (z ^ (p : ℂ))

/-- A scalar function, for an array of real and for one of complex eigenvalues. -/
structure Scalar where
  onReal : ℝ → Option ℝ
  onComplex : ℂ → Option ℂ

/-- `eigenvalues**p` (trace/_eigenvalue_method.py:326). -/
noncomputable def traceScalar (p : ℝ) : Scalar where
  onReal x := match powR x p with
    | .fin y => some y
    | _ => none
  onComplex z := powC z p

/-- `1.0 / (eigenvalues**p)` (traceinv/_eigenvalue_method.py:330). -/
noncomputable def traceinvScalar (p : ℝ) : Scalar where
  onReal x := match powR x p with
    | .fin y => open Classical in if y = 0 then none else some (1 / y)
    | .inf => some 0
    | .nan => none
  onComplex z := (powC z p).bind fun y => open Classical in if y = 0 then none else some (1 / y)

/-- `numpy.exp(coeff * eigenvalues**p)` (trexp/_eigenvalue_method.py:310). -/
noncomputable def trexpScalar (coeff p : ℝ) : Scalar where
  onReal x := match powR x p with
    | .fin y => some (Real.exp (coeff * y))
    | .inf => open Classical in if coeff < 0 then some 0 else none
    | .nan => none
  onComplex z := (powC z p).map fun y => Complex.exp (coeff * y)

/-- `(a * lambda_ + b) / (c * lambda_ + d)` (trlinfrac/_eigenvalue_method.py:319-324); not modelled: the value at
an infinite `lambda_`. -/
noncomputable def trlinfracScalar (a b c d p : ℝ) : Scalar where
  onReal x := match powR x p with
    | .fin y => open Classical in if c * y + d = 0 then none else some ((a * y + b) / (c * y + d))
    | _ => none
  onComplex z := (powC z p).bind fun y =>
    open Classical in if c * y + d = 0 then none else some ((a * y + b) / (c * y + d))

/-- `numpy.sum` -/
def sumOpt {α : Type} [Add α] [Zero α] : List (Option α) → Option α
  | [] => some 0
  | none :: _ => none
  | some x :: l => (sumOpt l).map (x + ·)

/-- `numpy.mod(x, numpy.pi)` -/
noncomputable def modPi (x : ℝ) : ℝ := x - Real.pi * ⌊x / Real.pi⌋

/-- `angle_rtol` (trace/_eigenvalue_method.py:329-337). -/
noncomputable def angleTol (sparse sym : Bool) : ℝ := if sparse && !sym then 1e-2 else 1e-8

/-- The real part of the sum, if its angle is small (trace/_eigenvalue_method.py:345-351). -/
noncomputable def realPart (tol : ℝ) (rows : ℕ) : Option ℂ → Except PyExc (Option ℝ)
  | none => .ok none
  | some z =>
    open Classical in
    if tol * rows < |modPi (abs (Complex.arg z))| then .error .runtimeError else .ok (some z.re)

/-- The sum of the scalar function over the eigenvalues that are not `nan`
(trace/_eigenvalue_method.py:325-351). -/
noncomputable def sumScalar (f : Scalar) (tol : ℝ) (rows : ℕ) : Eigs → Except PyExc (Option ℝ)
  | .real l => .ok (sumOpt ((l.filterMap id).map f.onReal))
  | .cplx l => realPart tol rows (sumOpt ((l.filterMap id).map f.onComplex))

/-- `eigenvalue_method` of `trace` (trace/_eigenvalue_method.py:296-351), of `traceinv`
(traceinv/_eigenvalue_method.py:297-355), of `trexp` (trexp/_eigenvalue_method.py:280-335) and of `trlinfrac`
(trlinfrac/_eigenvalue_method.py:289-350), which differ in the scalar function and in `which`. -/
noncomputable def eigenTrace (lib : Lib) (f : Scalar) (which : Which) (A : Array2 ℝ) (user : Option Eigs)
    (st : Settings) : Except PyExc (Option ℝ) := do
  let _ ← checkSizes A user st.gram
  let _ ← checkFraction st.fraction
  let l ← chooseEigenvalues lib which A user st
  sumScalar f (angleTol A.isSparse st.sym) A.value.rows l

/-- `which_eigenvalues` (trace/_eigenvalue_method.py:307-312, trexp/_eigenvalue_method.py:291-296). -/
noncomputable def whichFor (p : ℝ) : Which := open Classical in if 0 ≤ p then .largest else .smallest

/-- `which_eigenvalues` of `traceinv` (traceinv/_eigenvalue_method.py:308-316). -/
noncomputable def whichForInverse (p : ℝ) : Which := open Classical in if 0 ≤ p then .smallest else .largest

/-- `trace(A, method='eigenvalue')` -/
noncomputable def traceEigenvalue (lib : Lib) (A : Array2 ℝ) (p : ℝ) (user : Option Eigs) (st : Settings) :
    Except PyExc (Option ℝ) :=
  eigenTrace lib (traceScalar p) (whichFor p) A user st

/-- `traceinv(A, method='eigenvalue')` -/
noncomputable def traceinvEigenvalue (lib : Lib) (A : Array2 ℝ) (p : ℝ) (user : Option Eigs)
    (st : Settings) : Except PyExc (Option ℝ) :=
  eigenTrace lib (traceinvScalar p) (whichForInverse p) A user st

/-- `trexp(A, method='eigenvalue')` -/
noncomputable def trexpEigenvalue (lib : Lib) (A : Array2 ℝ) (coeff p : ℝ) (user : Option Eigs)
    (st : Settings) : Except PyExc (Option ℝ) :=
  eigenTrace lib (trexpScalar coeff p) (whichFor (coeff * p)) A user st

/-- `trlinfrac(A, method='eigenvalue')` -/
noncomputable def trlinfracEigenvalue (lib : Lib) (A : Array2 ℝ) (a b c d p : ℝ) (user : Option Eigs)
    (st : Settings) : Except PyExc (Option ℝ) :=
  eigenTrace lib (trlinfracScalar a b c d p) (whichFor p) A user st

/-! ### Counts -/

/-- A number of type `float64` or `complex128`. -/
inductive Num where
  | real (x : ℝ)
  | cplx (z : ℂ)

/-- The indicator of a real `lambda_` (eigencount/_eigenvalue_method.py:322-327); a comparison with `nan` is
false. -/
noncomputable def indicatorR (lo hi : ℝ) : Power → ℝ
  | .fin y => open Classical in if y < lo ∨ hi < y then 0 else 1
  | .inf => 0
  | .nan => 1

/-- NumPy's order of complex numbers. -/
def ltC (z w : ℂ) : Prop := z.re < w.re ∨ z.re = w.re ∧ z.im < w.im

/-- The indicator of a complex `lambda_`. -/
noncomputable def indicatorC (lo hi : ℝ) : Option ℂ → ℂ
  | some y => open Classical in if ltC y lo ∨ ltC hi y then 0 else 1
  | none => 1

/-- The sum of the indicator (eigencount/_eigenvalue_method.py:321-328). -/
noncomputable def countEigs (lo hi p : ℝ) : Eigs → Num
  | .real l => .real (((l.filterMap id).map fun x => indicatorR lo hi (powR x p)).sum)
  | .cplx l => .cplx (((l.filterMap id).map fun z => indicatorC lo hi (powC z p)).sum)

/-- `eigencount(A, method='eigenvalue')` (eigencount/_eigenvalue_method.py:292-328). -/
noncomputable def eigencountEigenvalue (lib : Lib) (A : Array2 ℝ) (lo hi p : ℝ) (user : Option Eigs)
    (st : Settings) : Except PyExc Num := do
  let _ ← checkSizes A user st.gram
  let _ ← checkFraction st.fraction
  let l ← chooseEigenvalues lib (whichFor p) A user st
  .ok (countEigs lo hi p l)

/-! ### Density -/

/-- The Gaussian of a real `lambda_` (density/_eigenvalue_method.py:340-342). -/
noncomputable def gaussR (mu sigma : ℝ) : Power → Option ℝ
  | .fin y => some (1 / (Real.sqrt (2 * Real.pi) * sigma) * Real.exp (-(1 / 2) * ((y - mu) / sigma) ^ 2))
  | .inf => some 0
  | .nan => none

/-- The Gaussian of a complex `lambda_`. -/
noncomputable def gaussC (mu sigma : ℝ) : Option ℂ → Option ℂ
  | some y => some (1 / (Real.sqrt (2 * Real.pi) * sigma) * Complex.exp (-(1 / 2) * ((y - mu) / sigma) ^ 2))
  | none => none

/-- The sum at one centre (density/_eigenvalue_method.py:340-343).  The assignment to a real array discards the
imaginary part. -/
noncomputable def densityAt (mu sigma p : ℝ) : Eigs → Option ℝ
  | .real l => sumOpt ((l.filterMap id).map fun x => gaussR mu sigma (powR x p))
  | .cplx l => (sumOpt ((l.filterMap id).map fun z => gaussC mu sigma (powC z p))).map Complex.re

/-- The argument `mu`: integers or floats. -/
inductive Mu where
  | ints (l : List ℤ)
  | floats (l : List ℝ)

/-- The conversion of a float to an integer, which rounds towards zero. -/
noncomputable def truncate (x : ℝ) : ℤ := if 0 ≤ x then ⌊x⌋ else ⌈x⌉

/-- The loop over the centres; `trace_ = numpy.zeros_like(mu_)` has the type of `mu`
(density/_eigenvalue_method.py:325-343).  A scalar `mu` is a list with one element. -/
noncomputable def densityLoop (sigma p : ℝ) (l : Eigs) : Mu → List (Option ℝ)
  | .ints mus => mus.map fun mu : ℤ => (densityAt (mu : ℝ) sigma p l).map fun x => (truncate x : ℝ)
  | .floats mus => mus.map fun mu => densityAt mu sigma p l

/-- `density(A, method='eigenvalue')` (density/_eigenvalue_method.py:297-349); `sigma` is positive by the check of
the arguments. -/
noncomputable def densityEigenvalue (lib : Lib) (A : Array2 ℝ) (mu : Mu) (sigma p : ℝ) (user : Option Eigs)
    (st : Settings) : Except PyExc (List (Option ℝ)) := do
  let _ ← checkSizes A user st.gram
  let _ ← checkFraction st.fraction
  let l ← chooseEigenvalues lib (whichFor p) A user st
  .ok (densityLoop sigma p l mu)

/-! ### Log-determinant -/

/-- `compute_eigenvalues` of `logdet` (logdet/_eigenvalue_method.py:498-563). -/
noncomputable def logdetEigenvalues (lib : Lib) (A : Array2 ℝ) (st : Settings) : Except PyExc Eigs :=
  if A.isSparse then
    if st.sym then do
      let l ← withSquare A.value (lib.eigsh .bothEnds (numNonZero A.value.rows st.fraction))
      .ok (.real (padded A.value.rows l))
    else do
      let large ← withSquare A.value (lib.eigs .largest (numNonZero A.value.rows st.fraction / 2))
      let small ← withSquare A.value (lib.eigs .smallest (numNonZero A.value.rows st.fraction / 2))
      .ok (.cplx (padded A.value.rows (large ++ small)))
  else
    if st.sym then withSquare A.value fun n A => .ok (.real ((lib.eigh n A).map some))
    else withSquare A.value fun n A => .ok (.cplx ((lib.eig n A).map some))

/-- `compute_singularvalues` (logdet/_eigenvalue_method.py:570-607), squared
(logdet/_eigenvalue_method.py:311). -/
noncomputable def logdetSingular (lib : Lib) (A : Array2 ℝ) (st : Settings) : Except PyExc Eigs :=
  if A.isSparse then do
    let k := numNonZero (min A.value.rows A.value.cols) st.fraction / 2
    let large ← lib.svds .largest k A.value.rows A.value.cols A.value.val
    let small ← lib.svds .smallest k A.value.rows A.value.cols A.value.val
    .ok (.real (padded (min A.value.rows A.value.cols) ((large ++ small).map (· ^ 2))))
  else .ok (.real ((lib.svd A.value.rows A.value.cols A.value.val).map fun x => some (x ^ 2)))

/-- The eigenvalues that are used (logdet/_eigenvalue_method.py:295-311). -/
noncomputable def logdetChoose (lib : Lib) (A : Array2 ℝ) (user : Option Eigs) (st : Settings) :
    Except PyExc Eigs :=
  match user with
  | some l => .ok l
  | none => if A.value.rows = A.value.cols then logdetEigenvalues lib A st else logdetSingular lib A st

/-- `eig_A.astype(numpy.complex128)` without the entries that are `nan`
(logdet/_eigenvalue_method.py:317-319). -/
noncomputable def toComplex : Eigs → List ℂ
  | .real l => (l.filterMap id).map fun x : ℝ => (x : ℂ)
  | .cplx l => l.filterMap id

/-- `numpy.log` of a complex number; `none` is the infinite logarithm of zero. -/
noncomputable def logC (z : ℂ) : Option ℂ := open Classical in if z = 0 then none else some (Complex.log z)

/-- `imag_atol`, `imag_rtol` (logdet/_eigenvalue_method.py:322-332); `none` is infinite. -/
noncomputable def imagTol (sparse sym : Bool) : Option ℝ := if sparse && !sym then none else some 1e-8

/-- `imag`, the imaginary part modulo π, rounded to zero (logdet/_eigenvalue_method.py:343-346). -/
noncomputable def imagMod (tol : ℝ) (x : ℝ) : ℝ :=
  open Classical in
  if |modPi x| < tol ∨ |modPi x - Real.pi| < tol then 0 else modPi x

/-- Whether the determinant passes as real (logdet/_eigenvalue_method.py:343-347). -/
def isReal (tol : Option ℝ) (rows : ℕ) (x : ℝ) : Prop :=
  match tol with
  | none => True
  | some tol => imagMod tol x ≤ tol * rows

/-- `quotient` (logdet/_eigenvalue_method.py:353). -/
noncomputable def quotient (x : ℝ) : ℕ := ⌊|x| / Real.pi + 1 / 2⌋₊

/-- The logarithm of the determinant, with `iπ` for an odd quotient (logdet/_eigenvalue_method.py:340-359). -/
noncomputable def roundImag (tol : Option ℝ) (rows : ℕ) (z : ℂ) : Except PyExc Num :=
  open Classical in
  if ¬ isReal tol rows z.im then .error .runtimeError
  else if quotient z.im / 2 = ⌊(quotient z.im : ℝ) / 2 + 1 / 2⌋₊ then .ok (.real z.re)
  else .ok (.cplx (z.re + Real.pi * Complex.I))

/-- `*=` with a real number. -/
noncomputable def Num.scale (c : ℝ) : Num → Num
  | .real x => .real (x * c)
  | .cplx z => .cplx (z * c)

/-- The factors `p` and 2 (logdet/_eigenvalue_method.py:362-368). -/
noncomputable def applyExponent (p : ℝ) (twice : Bool) (x : Num) : Num :=
  if twice then (x.scale p).scale 2 else x.scale p

/-- What follows the sum of the logarithms; `none` is an infinite sum. -/
noncomputable def finishLogdet (A : Array2 ℝ) (p : ℝ) (st : Settings) : Option ℂ → Except PyExc (Option Num)
  | none => .ok none
  | some z => do
    let x ← roundImag (imagTol A.isSparse st.sym) A.value.rows z
    .ok (some (applyExponent p (st.gram && decide (A.value.rows = A.value.cols)) x))

/-- The branches of the exponent (logdet/_eigenvalue_method.py:314-368). -/
noncomputable def logdetBranch (A : Array2 ℝ) (p : ℝ) (st : Settings) (l : Eigs) :
    Except PyExc (Option Num) :=
  open Classical in
  if p = 0 then .ok (some (.real 0)) else finishLogdet A p st (sumOpt ((toComplex l).map logC))

/-- `eigenvalue_method` of `logdet` (logdet/_eigenvalue_method.py:288-368).  `none` is an infinite result, which
is what a zero eigenvalue gives. -/
noncomputable def logdetEigenvalue (lib : Lib) (A : Array2 ℝ) (p : ℝ) (user : Option Eigs) (st : Settings) :
    Except PyExc (Option Num) := do
  let _ ← checkSizes A user st.gram
  let _ ← checkFraction st.fraction
  let l ← logdetChoose lib A user st
  logdetBranch A p st l

end Imate.Eigen
