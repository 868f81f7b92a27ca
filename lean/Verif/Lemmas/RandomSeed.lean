import Verif.Lemmas.RandomPeriod
set_option linter.unusedSectionVars false

/-! Seeding is injective, never all-zero; four outputs determine the state. -/

namespace Imate.Random
namespace GF2
open Xoshiro Function

theorem xorshift_injective (k : ℕ) (hk : 0 < k) : Injective (fun x : BitVec 64 => x ^^^ (x >>> k)) := by
  intro x y h
  have key : ∀ n i, 64 ≤ i + n → x.getLsbD i = y.getLsbD i := by
    intro n
    induction n with
    | zero => intro i hi; rw [BitVec.getLsbD_of_ge _ _ (by omega), BitVec.getLsbD_of_ge _ _ (by omega)]
    | succ n ih =>
      intro i hi
      have hb := congrArg (fun v => BitVec.getLsbD v i) h
      simp only [BitVec.getLsbD_xor, BitVec.getLsbD_ushiftRight] at hb
      rw [ih (k + i) (by omega)] at hb
      revert hb
      cases x.getLsbD i <;> cases y.getLsbD i <;> cases y.getLsbD (k + i) <;> simp
  exact BitVec.eq_of_getLsbD_eq (fun i hi => key 64 i (by omega))

theorem mul_injective (c d : BitVec 64) (h : c * d = 1) : Injective (fun x : BitVec 64 => x * c) := by
  intro x y hxy
  have : (x * c) * d = (y * c) * d := by rw [show x * c = y * c from hxy]
  rw [BitVec.mul_assoc, BitVec.mul_assoc, h] at this
  simpa using this

theorem splitMixOut_injective : Injective splitMixOut := by
  have h1 := mul_injective 0xbf58476d1ce4e5b9#64 0x96de1b173f119089#64 (by decide +kernel)
  have h2 := mul_injective 0x94d049bb133111eb#64 0x319642b2d24d8ec3#64 (by decide +kernel)
  have e : splitMixOut = (fun x : BitVec 64 => x ^^^ (x >>> 31)) ∘
      (fun x : BitVec 64 => x * 0x94d049bb133111eb#64) ∘ (fun x : BitVec 64 => x ^^^ (x >>> 27)) ∘
      (fun x : BitVec 64 => x * 0xbf58476d1ce4e5b9#64) ∘ (fun x : BitVec 64 => x ^^^ (x >>> 30)) := rfl
  rw [e]
  exact (xorshift_injective 31 (by omega)).comp (h2.comp ((xorshift_injective 27 (by omega)).comp
    (h1.comp (xorshift_injective 30 (by omega)))))

theorem construct_ne_zero (clock seed : BitVec 64) : construct clock seed ≠ zero := by
  intro h
  have h0 : splitMixOut (splitMixInit clock seed + 0x9e3779b97f4a7c15#64) = 0 := congrArg s0 h
  have h1 : splitMixOut (splitMixInit clock seed + 0x9e3779b97f4a7c15#64 + 0x9e3779b97f4a7c15#64)
      = 0 := congrArg s1 h
  have := splitMixOut_injective (h0.trans h1.symm)
  have h2 : (0x9e3779b97f4a7c15#64 : BitVec 64) = 0 := by
    have := congrArg (fun v => v - (splitMixInit clock seed + 0x9e3779b97f4a7c15#64)) this
    simpa [BitVec.add_comm, BitVec.add_sub_cancel] using this.symm
  exact absurd h2 (by decide)

theorem construct_injective_init {c1 c2 s1 s2 : BitVec 64}
    (h : construct c1 s1 = construct c2 s2) : splitMixInit c1 s1 = splitMixInit c2 s2 := by
  have h0 : splitMixOut (splitMixInit c1 s1 + 0x9e3779b97f4a7c15#64) =
    splitMixOut (splitMixInit c2 s2 + 0x9e3779b97f4a7c15#64) := congrArg s0 h
  have := splitMixOut_injective h0
  exact (BitVec.add_left_inj _).1 this

theorem rotationLeft7_injective : Injective (fun x : BitVec 64 => rotationLeft x 7) := by
  intro x y h
  apply BitVec.eq_of_getLsbD_eq
  intro i hi
  have hb : ∀ j, (rotationLeft x 7).getLsbD j = (rotationLeft y 7).getLsbD j := by
    intro j; exact congrArg (fun v => BitVec.getLsbD v j) h
  simp only [rotationLeft, BitVec.getLsbD_or, BitVec.getLsbD_shiftLeft,
    BitVec.getLsbD_ushiftRight] at hb
  by_cases hi' : i < 57
  · have := hb (i + 7)
    have h1 : i + 7 < 64 := by omega
    have h2 : 64 ≤ 64 - 7 + (i + 7) := by omega
    rw [BitVec.getLsbD_of_ge x _ h2, BitVec.getLsbD_of_ge y _ h2] at this
    simpa [h1] using this
  · have := hb (i - 57)
    have h1 : 64 - 7 + (i - 57) = i := by omega
    have h2 : i - 57 < 7 := by omega
    rw [h1] at this
    simpa [h2] using this

/-- the output function is injective in the word `s1` -/
theorem output_injective {x y : Xoshiro} (h : x.output = y.output) : x.s1 = y.s1 := by
  have h1 := mul_injective 5#64 0xcccccccccccccccd#64 (by decide +kernel)
  have h2 := mul_injective 9#64 0x8e38e38e38e38e39#64 (by decide +kernel)
  exact h1 (rotationLeft7_injective (h2 h))

theorem observable_zero (x : Xoshiro) (h : ∀ i < 4, (step^[i] x).s1 = 0) : x = zero := by
  have h0 := h 0 (by omega)
  have h1 := h 1 (by omega)
  have h2 := h 2 (by omega)
  have h3 := h 3 (by omega)
  obtain ⟨a, b, c, d⟩ := x
  simp only [iterate_zero, id, iterate_succ_apply] at h0 h1 h2 h3
  simp only [step] at h1 h2 h3
  subst h0
  have hc : c = a := by
    have : c ^^^ a = 0 := by simpa using h1
    exact BitVec.xor_eq_zero_iff.1 this
  subst hc
  have hd : c = d := by
    have : c ^^^ d = 0 := by simpa using h2
    exact BitVec.xor_eq_zero_iff.1 this
  subst hd
  have h4 : rotationLeft c 45 = 0 := by simpa using h3
  have := rotationLeft_eq_zero c h4
  subst this
  rfl

/-- four consecutive outputs determine the state -/
theorem observable {x y : Xoshiro} (h : ∀ i < 4, (step^[i] x).output = (step^[i] y).output) :
    x = y := by
  rw [← xor_eq_zero_iff]
  apply observable_zero
  intro i hi
  have := output_injective (h i hi)
  rw [iter_xor]
  show (step^[i] x).s1 ^^^ (step^[i] y).s1 = 0
  rw [this, BitVec.xor_self]; rfl

theorem step_iter_injective (n : ℕ) : Injective (step^[n]) := step_injective.iterate n

end GF2
end Imate.Random
