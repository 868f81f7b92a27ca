import Verif.Model.Random

/-!
# Specification vocabulary for the random generator

`stateAfter x k` is the state of a generator after `k` calls of `next`, `draw x k` the value
returned by call number `k` (from 0).
-/

namespace Imate.Spec
open Imate.Random

def stateAfter (x : Xoshiro) : Nat → Xoshiro
  | 0 => x
  | k + 1 => (stateAfter x k).next.2

def draw (x : Xoshiro) (k : Nat) : BitVec 64 := (stateAfter x k).next.1

end Imate.Spec
