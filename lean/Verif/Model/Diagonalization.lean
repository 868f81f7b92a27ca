import Verif.Model.Slq

/-!
# Model of the decomposition step of a sample

`imate/_c_trace_estimator/diagonalization.cpp` and `imate/_c_trace_estimator/lapack_api.cpp`: the calls of LAPACK's
`?stev` and `?bdsdc`, their work arrays, their `info` and the detour through `double` for `long double`.

Simplifications.  The LAPACK routines are parameters: functions of the arrays they are given, which return the arrays
they leave and `info`.  What an array contains before it is written is given by a parameter `junk`.  `IndexType` is
signed.  The arguments `jobz`, `uplo`, `compq`, `q` and `iq` have one value only and are left out, and so are the leading
dimensions, which are always `matrix_size`.
-/

namespace Imate.Diagonalization

variable {K : Type _}

/-- The arrays `?stev` leaves. -/
structure Stev (K : Type _) where
  d : Array K
  e : Array K
  z : Array K
  info : Int

/-- The arrays `?bdsdc` leaves. -/
structure Bdsdc (K : Type _) where
  d : Array K
  e : Array K
  u : Array K
  vt : Array K
  info : Int

/-- `?stev(jobz, n, d, e, z, ldz, work, info)`. -/
abbrev StevRoutine (K : Type _) := (n : Nat) → (d e z work : Array K) → Stev K

/-- `?bdsdc(uplo, compq, n, d, e, u, ldu, vt, ldvt, q, iq, work, iwork, info)`. -/
abbrev BdsdcRoutine (K : Type _) := (n : Nat) → (d e u vt work : Array K) → (iwork : Array Int) → Bdsdc K

/-- `new T[k]`; a negative length throws `std::bad_array_new_length`. -/
def newArray {T : Type _} (junk : Nat → T) (k : Int) : Except Fault (Array T) :=
  if k < 0 then .error .abort else .ok (Array.ofFn (fun i : Fin k.toNat => junk i.1))

/-- The value of `(condition, "message")` as a truth value: the comma operator drops the condition, and the address of a
string is not null. -/
def comma (_condition : Bool) (_message : String) : Bool := true

/-- `assert(value)`. -/
def assertion (value : Bool) : Except Fault Unit := if value then .ok () else .error .abort

/-- `lapack_xstev<float>` and `lapack_xstev<double>`, lapack_api.cpp:28-51. -/
def directStev (stev : StevRoutine K) (n : Nat) (d e z work : Array K) : Except Fault (Stev K) :=
  .ok (stev n d e z work)

/-- `for (int i=0; i < count; ++i) target[i] = static_cast<T>(source[i]);`, lapack_api.cpp:76-79, 83-86, 96-99,
102-105. -/
def castLoop (cast : K → K) (count : Nat) (source target : Array K) : Except Fault (Array K) :=
  forRange 0 count (fun i t => do wr t i (cast (← rd source i))) target

/-- `lapack_xstev<long double>`, lapack_api.cpp:66-112.  `toDouble` rounds to `double`; the way back is exact. -/
def longStev (toDouble : K → K) (junk : Nat → K) (dstev : StevRoutine K) (n : Nat) (d e z _work : Array K) :
    Except Fault (Stev K) := do
  let d_ ← newArray junk n
  let d_ ← castLoop toDouble n d d_
  let e_ ← newArray junk (n - 1)
  let e_ ← castLoop toDouble (n - 1) e e_
  let z_ ← newArray junk (n * n)
  let work_ ← newArray junk (2 * n - 2)
  let r := dstev n d_ e_ z_ work_
  let d ← castLoop id n r.d d
  let z ← castLoop id (n * n) r.z z
  .ok ⟨d, e, z, r.info⟩

/-- `Diagonalization::eigh_tridiagonal`, diagonalization.cpp:88-118; `xstev` is `lapack_xstev`. -/
def eighTridiagonal (junk : Nat → K) (xstev : Nat → Array K → Array K → Array K → Array K → Except Fault (Stev K))
    (diagonals subdiagonals eigenvectors : Array K) (n : Nat) : Except Fault (Stev K) := do
  let work ← newArray junk (2 * n - 2)
  let r ← xstev n diagonals subdiagonals eigenvectors work
  assertion (comma (r.info == 0) "?stev subroutine returned non-zero status.")
  .ok r

/-- `lapack_xbdsdc<float>` and `lapack_xbdsdc<double>`, lapack_api.cpp:123-149. -/
def directBdsdc (bdsdc : BdsdcRoutine K) (n : Nat) (d e u vt work : Array K) (iwork : Array Int) :
    Except Fault (Bdsdc K) :=
  .ok (bdsdc n d e u vt work iwork)

/-- `lapack_xbdsdc<long double>`, lapack_api.cpp:165-225. -/
def longBdsdc (toDouble : K → K) (junk : Nat → K) (dbdsdc : BdsdcRoutine K) (n : Nat) (d e u vt _work : Array K)
    (iwork : Array Int) : Except Fault (Bdsdc K) := do
  let d_ ← newArray junk n
  let d_ ← castLoop toDouble n d d_
  let e_ ← newArray junk (n - 1)
  let e_ ← castLoop toDouble (n - 1) e e_
  let u_ ← newArray junk (n * n)
  let vt_ ← newArray junk (n * n)
  let work_ ← newArray junk (3 * n * n + 4 * n)
  let r := dbdsdc n d_ e_ u_ vt_ work_ iwork
  let d ← castLoop id n r.d d
  let u ← castLoop id (n * n) r.u u
  let vt ← castLoop id (n * n) r.vt vt
  .ok ⟨d, e, u, vt, r.info⟩

/-- `Diagonalization::svd_bidiagonal`, diagonalization.cpp:189-231. -/
def svdBidiagonal (junk : Nat → K) (junkInt : Nat → Int)
    (xbdsdc : Nat → Array K → Array K → Array K → Array K → Array K → Array Int → Except Fault (Bdsdc K))
    (diagonals supdiagonals u vt : Array K) (n : Nat) : Except Fault (Bdsdc K) := do
  let work ← newArray junk (3 * n * n + 4 * n)
  let iwork ← newArray junkInt (8 * n)
  let r ← xbdsdc n diagonals supdiagonals u vt work iwork
  assertion (comma (r.info == 0) "?stev subroutine returned non-zero status.")
  .ok r

/-- What the sample makes of `eigh_tridiagonal`: the returned `info` is dropped, and the eigenvectors are stored in a new
array, c_trace_estimator.cpp:543-548.  An exception is rendered by arrays without elements: the first access of the sample
to them is a fault. -/
def eigh (junk : Nat → K) (xstev : Nat → Array K → Array K → Array K → Array K → Except Fault (Stev K))
    (k : Nat) (alpha beta : Array K) : Array K × Array K :=
  match eighTridiagonal junk xstev alpha beta (Array.ofFn (fun i : Fin (k * k) => junk i.1)) k with
  | .ok r => (r.d, r.z)
  | .error _ => (#[], #[])

/-- What the sample makes of `svd_bidiagonal`, c_trace_estimator.cpp:518-527. -/
def svd (junk : Nat → K) (junkInt : Nat → Int)
    (xbdsdc : Nat → Array K → Array K → Array K → Array K → Array K → Array Int → Except Fault (Bdsdc K))
    (k : Nat) (alpha beta : Array K) : Array K × Array K :=
  match svdBidiagonal junk junkInt xbdsdc alpha beta (Array.ofFn (fun i : Fin (k * k) => junk i.1))
      (Array.ofFn (fun i : Fin (k * k) => junk i.1)) k with
  | .ok r => (r.d, r.vt)
  | .error _ => (#[], #[])

/-- A sample of `float` or `double` with LAPACK's routines. -/
def direct (ext : Lanczos.External K) (junk : Nat → K) (junkInt : Nat → Int) (stev : StevRoutine K)
    (bdsdc : BdsdcRoutine K) : Lanczos.External K :=
  { ext with eigh := eigh junk (directStev stev), svd := svd junk junkInt (directBdsdc bdsdc) }

/-- A sample of `long double` with LAPACK's routines for `double`. -/
def long (ext : Lanczos.External K) (toDouble : K → K) (junk : Nat → K) (junkInt : Nat → Int) (dstev : StevRoutine K)
    (dbdsdc : BdsdcRoutine K) : Lanczos.External K :=
  { ext with
    eigh := eigh junk (longStev toDouble junk dstev), svd := svd junk junkInt (longBdsdc toDouble junk dbdsdc) }

end Imate.Diagonalization
