import Mathlib.Analysis.Real.Sqrt
import Mathlib.Algebra.Order.Floor.Semiring
import Verif.Model.Random

/-!
# Model of `imate/_random_generator/highres_time_stamp.cpp`

The seed of a generator when none is given.  `fl` rounds to `double`.
-/

namespace Imate.Random

/-- `struct timespec`: seconds and nanoseconds. -/
structure Timespec where
  sec : Nat
  nsec : Nat
  deriving DecidableEq

/-- `clock.tv_sec * 1e9 + clock.tv_nsec` converted to `uint64_t`, highres_time_stamp.cpp:105: the factor is a
`double`, so both operations are.  Simplified: times before 1970 are left out. -/
noncomputable def stampOf (fl : ℝ → ℝ) (c : Timespec) : BitVec 64 :=
  BitVec.ofNat 64 ⌊fl (fl (fl c.sec * 10 ^ 9) + fl c.nsec)⌋₊

/-- `get_highres_time_stamp` with POSIX timers, highres_time_stamp.cpp:88-105.  `reading` is `none` if
`clock_gettime` fails, and `junk` what the variable `clock` contains before the call. -/
noncomputable def timeStamp (fl : ℝ → ℝ) (reading : Option Timespec) (junk : Timespec) : BitVec 64 :=
  let timeStamp := 0#64
  let (_timeStamp, clock) := match reading with
    | some c => (timeStamp, c)
    | none => (1#64, junk)
  stampOf fl clock

/-- `get_highres_time_stamp` on Windows, highres_time_stamp.cpp:107-118. -/
def timeStampWindows (ticks : Option (BitVec 64)) : BitVec 64 :=
  match ticks with
  | some t => t
  | none => 1#64

end Imate.Random
