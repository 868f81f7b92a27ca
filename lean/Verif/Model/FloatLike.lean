import Mathlib.Algebra.Order.Field.Basic

/-!
# Number types of the convergence code

`FloatLike V` lists the operations the convergence code applies to its template parameter
`DataType`.  No law is assumed: a theorem stated for every `FloatLike V` holds for IEEE arithmetic
with rounding.  `XR K` is exact arithmetic over a field `K` extended with the IEEE special values
`+inf`, `-inf`, `nan` (signed zeros are not modelled); it is used where a law of arithmetic is
needed.
-/

namespace Imate

class FloatLike (V : Type) where
  add : V → V → V
  sub : V → V → V
  mul : V → V → V
  div : V → V → V
  sqrt : V → V
  abs : V → V
  /-- `a < b` -/
  lt : V → V → Bool
  ofNat : Nat → V
  inf : V
  nan : V

namespace FloatLike
variable {V : Type} [FloatLike V]

/-- `std::max(a, b)`: `(a < b) ? b : a`. -/
def max (a b : V) : V := if lt a b then b else a

end FloatLike

/-- Exact numbers with the IEEE special values. -/
inductive XR (K : Type) where
  | fin (x : K)
  | pinf
  | ninf
  | nan
  deriving DecidableEq, Repr

/-- Square root on the exact numbers. -/
class HasSqrt (K : Type) where
  sqrt : K → K

namespace XR
variable {K : Type} [Field K] [LinearOrder K] [HasSqrt K]

def add : XR K → XR K → XR K
  | nan, _ => nan
  | _, nan => nan
  | fin x, fin y => fin (x + y)
  | fin _, pinf => pinf
  | fin _, ninf => ninf
  | pinf, fin _ => pinf
  | ninf, fin _ => ninf
  | pinf, pinf => pinf
  | ninf, ninf => ninf
  | pinf, ninf => nan
  | ninf, pinf => nan

def neg : XR K → XR K
  | fin x => fin (-x)
  | pinf => ninf
  | ninf => pinf
  | nan => nan

/-- `inf` with the sign of `x` (`nan` for `x = 0`) -/
def signedInf (x : K) : XR K := if 0 < x then pinf else if x < 0 then ninf else nan

def mul : XR K → XR K → XR K
  | nan, _ => nan
  | _, nan => nan
  | fin x, fin y => fin (x * y)
  | fin x, pinf => signedInf x
  | fin x, ninf => signedInf (-x)
  | pinf, fin y => signedInf y
  | ninf, fin y => signedInf (-y)
  | pinf, pinf => pinf
  | ninf, ninf => pinf
  | pinf, ninf => ninf
  | ninf, pinf => ninf

/-- division; a zero divisor is `+0` -/
def div : XR K → XR K → XR K
  | nan, _ => nan
  | _, nan => nan
  | fin x, fin y => if y = 0 then signedInf x else fin (x / y)
  | fin _, pinf => fin 0
  | fin _, ninf => fin 0
  | pinf, fin y => if y < 0 then ninf else pinf
  | ninf, fin y => if y < 0 then pinf else ninf
  | _, _ => nan

def sqrt : XR K → XR K
  | fin x => if x < 0 then nan else fin (HasSqrt.sqrt x)
  | pinf => pinf
  | _ => nan

def abs : XR K → XR K
  | fin x => fin |x|
  | pinf => pinf
  | ninf => pinf
  | nan => nan

def lt : XR K → XR K → Bool
  | nan, _ => false
  | _, nan => false
  | fin x, fin y => decide (x < y)
  | fin _, pinf => true
  | fin _, ninf => false
  | pinf, _ => false
  | ninf, ninf => false
  | ninf, _ => true

instance : FloatLike (XR K) where
  add := add
  sub a b := add a (neg b)
  mul := mul
  div := div
  sqrt := sqrt
  abs := abs
  lt := lt
  ofNat n := fin (n : K)
  inf := pinf
  nan := nan

end XR
end Imate
