import Verif.Lemmas.RandomGF2
import Verif.Lemmas.Primes
set_option linter.unusedSectionVars false

/-! Kernel evaluation of powers of the indeterminate modulo `P`. -/

namespace Imate.Random
namespace GF2
open Xoshiro

/-- period of the generator -/
def N : ℕ := 2 ^ 256 - 1

set_option maxRecDepth 100000

theorem pow_N : powLoop (2 ^ 256 - 1) 256 1 = 1 := by
  have : Nat.beq (powLoop (2 ^ 256 - 1) 256 1) 1 = true := by decide +kernel
  exact Nat.eq_of_beq_eq_true this

/-- the residue of `x^(N/q)`, evaluated, is not the base state -/
def notOne (q : ℕ) : Bool :=
  force (powLoop ((2 ^ 256 - 1) / q) 256 1) fun r =>
    !(decide (evalLoop 257 r 0 0 0 0 1 0 0 0 = (1, 0, 0, 0)))

theorem notOne_factors : Primes.factors.all notOne = true := by decide +kernel

theorem pow_jump : powLoop (2 ^ 128) 129 1 =
    0x39abdc4529b1661ca9582618e03fc9aad5a61266f0c9392c180ec6d33cfd0aba := by
  have : Nat.beq (powLoop (2 ^ 128) 129 1)
    0x39abdc4529b1661ca9582618e03fc9aad5a61266f0c9392c180ec6d33cfd0aba = true := by decide +kernel
  exact Nat.eq_of_beq_eq_true this

theorem pow_longJump : powLoop (2 ^ 192) 193 1 =
    0x39109bb02acbe63577710069854ee241c5004e441c522fb376e15d3efefdcbbf := by
  have : Nat.beq (powLoop (2 ^ 192) 193 1)
    0x39109bb02acbe63577710069854ee241c5004e441c522fb376e15d3efefdcbbf = true := by decide +kernel
  exact Nat.eq_of_beq_eq_true this

end GF2
end Imate.Random
