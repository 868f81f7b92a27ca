import Verif.Lemmas.RandomLinear
set_option linter.unusedSectionVars false

/-!
Arithmetic modulo the annihilating polynomial `P` of the xoshiro256** state update, arranged so
that the kernel can evaluate it, and its meaning for powers of the update map.
-/

namespace Imate.Random
namespace GF2

/-- Evaluate `x` to a literal before passing it on. -/
def force {α : Type} (x : Nat) (f : Nat → α) : α :=
  Nat.rec (motive := fun _ => α) (f 0) (fun n _ => f (Nat.succ n)) x

theorem force_eq {α : Type} (x : Nat) (f : Nat → α) : force x f = f x := by
  cases x <;> rfl

/-- Characteristic polynomial of the update map (bits are coefficients). -/
def P : Nat := 0x10003c03c3f3ecb1904b4edcf26259f850280002bcefd1a5e9d116f2bb0f0f001

/-- multiplication by the indeterminate, reduced -/
def xtimes (acc : Nat) : Nat :=
  Nat.xor (Nat.shiftLeft acc 1) (Nat.mul (Nat.shiftRight acc 255) P)

def mulStep (a b k acc : Nat) : Nat :=
  Nat.xor (xtimes acc) (Nat.mul (Nat.land (Nat.shiftRight a k) 1) b)

/-- Horner loop over the bits `n-1, …, 0` of `a` -/
def mulLoop (a b : Nat) : Nat → Nat → Nat
  | 0, acc => acc
  | k + 1, acc => force (mulStep a b k acc) (mulLoop a b k)

def mulmod (a b : Nat) : Nat := mulLoop a b 256 0

/-- left-to-right square and multiply: `acc = x^(e >> n)` on entry, `x^e` on exit -/
def powLoop (e : Nat) : Nat → Nat → Nat
  | 0, acc => acc
  | n + 1, acc =>
    force (mulmod acc acc) fun s =>
      force (bif Nat.beq (Nat.land (Nat.shiftRight e n) 1) 0 then s else xtimes s) (powLoop e n)

/-- The base state `(1,0,0,0)`. -/
def v0 : Xoshiro := ⟨1, 0, 0, 0⟩

/-- Evaluation of a residue at the update map, applied to the base state. -/
def E (r : Nat) : Xoshiro := Xoshiro.polyAct r 257 v0

open Xoshiro

theorem bit_eq (a k : Nat) : Nat.land (Nat.shiftRight a k) 1 = (a.testBit k).toNat := by
  have h : (a >>> k) &&& 1 = (a.testBit k).toNat := by
    rw [Nat.and_comm, Nat.one_and_eq_mod_two, Nat.shiftRight_eq_div_pow,
      Nat.testBit_eq_decide_div_mod_eq]
    rcases Nat.mod_two_eq_zero_or_one (a / 2 ^ k) with h | h <;> simp [h]
  exact h

theorem top_bit {acc : Nat} (h : acc < 2 ^ 256) : acc >>> 255 = (acc.testBit 255).toNat := by
  rw [Nat.shiftRight_eq_div_pow, Nat.testBit_eq_decide_div_mod_eq]
  have : acc / 2 ^ 255 < 2 := by
    rw [Nat.div_lt_iff_lt_mul (Nat.two_pow_pos 255)]
    exact h
  have h' : acc / 2 ^ 255 = 0 ∨ acc / 2 ^ 255 = 1 := by omega
  rcases h' with h' | h' <;> simp [h']

theorem xtimes_lt {acc : Nat} (h : acc < 2 ^ 256) : xtimes acc < 2 ^ 256 := by
  have e : xtimes acc = (acc <<< 1) ^^^ ((acc >>> 255) * P) := rfl
  rw [e, top_bit h]
  have hP : P < 2 ^ 257 := by decide
  have hP256 : P.testBit 256 = true := by decide
  have hs : acc <<< 1 < 2 ^ 257 := by
    rw [Nat.shiftLeft_eq]; omega
  apply Nat.lt_pow_two_of_testBit
  intro i hi
  have hi' : i = 256 ∨ 257 ≤ i := by omega
  cases hb : acc.testBit 255
  · have hlt : acc < 2 ^ 255 := by
      apply Nat.lt_pow_two_of_testBit
      intro j hj
      rcases Nat.eq_or_lt_of_le hj with rfl | hj
      · exact hb
      · exact Nat.testBit_lt_two_pow (Nat.lt_of_lt_of_le h (Nat.pow_le_pow_right (by omega) hj))
    have : acc <<< 1 < 2 ^ 256 := by rw [Nat.shiftLeft_eq]; omega
    simp [Nat.testBit_lt_two_pow (Nat.lt_of_lt_of_le this (Nat.pow_le_pow_right (by omega) hi))]
  · rcases hi' with rfl | hi'
    · simp [Nat.testBit_xor, Nat.testBit_shiftLeft, hb, hP256]
    · have hle : 2 ^ 257 ≤ 2 ^ i := Nat.pow_le_pow_right (by omega) hi'
      simp only [Bool.toNat_true, Nat.one_mul, Nat.testBit_xor]
      rw [Nat.testBit_lt_two_pow (Nat.lt_of_lt_of_le hs hle),
        Nat.testBit_lt_two_pow (Nat.lt_of_lt_of_le hP hle)]
      rfl

theorem mulStep_lt {a b k acc : Nat} (hb : b < 2 ^ 256) (h : acc < 2 ^ 256) :
    mulStep a b k acc < 2 ^ 256 := by
  have e : mulStep a b k acc = xtimes acc ^^^ ((a.testBit k).toNat * b) := by
    rw [← bit_eq]; rfl
  rw [e]
  refine Nat.xor_lt_two_pow (xtimes_lt h) ?_
  cases a.testBit k <;> simp [hb]

theorem mulLoop_lt {a b : Nat} (hb : b < 2 ^ 256) (n : Nat) {acc : Nat} (h : acc < 2 ^ 256) :
    mulLoop a b n acc < 2 ^ 256 := by
  induction n generalizing acc with
  | zero => exact h
  | succ n ih => rw [mulLoop, force_eq]; exact ih (mulStep_lt hb h)

theorem mulmod_lt {a b : Nat} (hb : b < 2 ^ 256) : mulmod a b < 2 ^ 256 :=
  mulLoop_lt hb 256 (Nat.two_pow_pos 256)

/-! ### A kernel-friendly evaluator of `polyAct` -/

/-- `(a0..a3)` accumulates, `(c0..c3)` is the current state; words are naturals below `2^64`. -/
def evalLoop : (n p a0 a1 a2 a3 c0 c1 c2 c3 : Nat) → Nat × Nat × Nat × Nat
  | 0, _, a0, a1, a2, a3, _, _, _, _ => (a0, a1, a2, a3)
  | n + 1, p, a0, a1, a2, a3, c0, c1, c2, c3 =>
    force (Nat.land p 1) fun b =>
    force (Nat.xor a0 (Nat.mul b c0)) fun a0 =>
    force (Nat.xor a1 (Nat.mul b c1)) fun a1 =>
    force (Nat.xor a2 (Nat.mul b c2)) fun a2 =>
    force (Nat.xor a3 (Nat.mul b c3)) fun a3 =>
    force (Nat.xor c2 c0) fun d2 =>
    force (Nat.xor c3 c1) fun d3 =>
    force (Nat.xor c0 d3) fun e0 =>
    force (Nat.xor c1 d2) fun e1 =>
    force (Nat.xor d2 (Nat.mod (Nat.shiftLeft c1 17) 18446744073709551616)) fun e2 =>
    force (Nat.lor (Nat.mod (Nat.shiftLeft d3 45) 18446744073709551616) (Nat.shiftRight d3 19))
      fun e3 =>
    force (Nat.shiftRight p 1) fun p =>
    evalLoop n p a0 a1 a2 a3 e0 e1 e2 e3

theorem polyAct_succ' (p k : Nat) (x : Xoshiro) :
    polyAct p (k + 1) x = (if p.testBit 0 then x else zero).xor (polyAct (p >>> 1) k x.step) := by
  induction k with
  | zero => simp [polyAct]
  | succ k ih =>
    rw [polyAct, ih, polyAct, Xoshiro.xor_assoc]
    congr 2
    simp [Nat.testBit_shiftRight, Nat.add_comm 1 k]

def toNats (x : Xoshiro) : Nat × Nat × Nat × Nat := (x.s0.toNat, x.s1.toNat, x.s2.toNat, x.s3.toNat)

theorem toNats_injective {x y : Xoshiro} (h : toNats x = toNats y) : x = y := by
  simp only [toNats, Prod.mk.injEq, BitVec.toNat_inj] at h
  exact ext' h.1 h.2.1 h.2.2.1 h.2.2.2

theorem evalLoop_eq (n p : Nat) (a c : Xoshiro) :
    evalLoop n p a.s0.toNat a.s1.toNat a.s2.toNat a.s3.toNat
      c.s0.toNat c.s1.toNat c.s2.toNat c.s3.toNat = toNats (a.xor (polyAct p n c)) := by
  induction n generalizing p a c with
  | zero => simp [evalLoop, polyAct, toNats]
  | succ n ih =>
    rw [polyAct_succ', ← Xoshiro.xor_assoc, ← ih]
    simp only [evalLoop, force_eq]
    have hb : Nat.land p 1 = (p.testBit 0).toNat := by
      have := bit_eq p 0
      simpa using this
    rw [hb]
    have hacc : ∀ u w : BitVec 64, Nat.xor u.toNat (Nat.mul (p.testBit 0).toNat w.toNat) =
        (u ^^^ (if p.testBit 0 then w else 0)).toNat := by
      intro u w
      rw [BitVec.toNat_xor]
      cases p.testBit 0
      · show u.toNat ^^^ (0 * w.toNat) = _
        simp
      · show u.toNat ^^^ (1 * w.toNat) = _
        simp
    have hx : ∀ u w : BitVec 64, Nat.xor u.toNat w.toNat = (u ^^^ w).toNat := fun u w =>
      (BitVec.toNat_xor u w).symm
    have hs : ∀ (u : BitVec 64) (k : Nat), Nat.mod (Nat.shiftLeft u.toNat k) 18446744073709551616 =
        (u <<< k).toNat := fun u k => (BitVec.toNat_shiftLeft (x := u) (n := k)).symm
    have hr : ∀ (u : BitVec 64) (k : Nat), Nat.shiftRight u.toNat k = (u >>> k).toNat :=
      fun u k => (BitVec.toNat_ushiftRight u k).symm
    have ho : ∀ u w : BitVec 64, Nat.lor u.toNat w.toNat = (u ||| w).toNat := fun u w =>
      (BitVec.toNat_or u w).symm
    simp only [hacc, hx, hs, hr, ho]
    have hif : a.xor (if p.testBit 0 then c else zero) =
        ⟨a.s0 ^^^ (if p.testBit 0 then c.s0 else 0), a.s1 ^^^ (if p.testBit 0 then c.s1 else 0),
         a.s2 ^^^ (if p.testBit 0 then c.s2 else 0), a.s3 ^^^ (if p.testBit 0 then c.s3 else 0)⟩ := by
      cases p.testBit 0 <;> rfl
    rw [hif]
    rfl

theorem E_eq_evalLoop (r : Nat) : toNats (E r) = evalLoop 257 r 0 0 0 0 1 0 0 0 := by
  have := evalLoop_eq 257 r zero v0
  rw [Xoshiro.zero_xor] at this
  exact this.symm

set_option maxRecDepth 100000 in
theorem E_P : E P = zero := by
  apply toNats_injective
  rw [E_eq_evalLoop]
  decide +kernel

/-! ### Meaning of the modular arithmetic -/

theorem E_xor (a b : Nat) : E (a ^^^ b) = (E a).xor (E b) := polyAct_xor _ _ _ _

theorem E_xtimes {acc : Nat} (h : acc < 2 ^ 256) : E (xtimes acc) = (E acc).step := by
  have e : xtimes acc = (acc <<< 1) ^^^ ((acc >>> 255) * P) := rfl
  have h1 : E (acc <<< 1) = (E acc).step := by
    unfold E
    rw [polyAct_shift, polyAct_of_lt h 257 (by omega)]
  rw [e, E_xor, h1, top_bit h]
  have hE0 : E 0 = zero := polyAct_zero_left _ _
  cases acc.testBit 255 <;> simp [hE0, E_P]

theorem E_mulLoop {a b : Nat} (hb : b < 2 ^ 256) (n : Nat) {acc : Nat} (h : acc < 2 ^ 256) :
    E (mulLoop a b n acc) = (step^[n] (E acc)).xor (polyAct a n (E b)) := by
  induction n generalizing acc with
  | zero => simp [mulLoop, polyAct]
  | succ n ih =>
    rw [mulLoop, force_eq, ih (mulStep_lt hb h)]
    have e : mulStep a b n acc = xtimes acc ^^^ ((a.testBit n).toNat * b) := by
      rw [← bit_eq]; rfl
    rw [e, E_xor, E_xtimes h, iter_xor, Function.iterate_succ_apply, polyAct]
    have hE0 : E 0 = zero := polyAct_zero_left _ _
    cases a.testBit n
    · simp [hE0]
    · simp only [Bool.toNat_true, Nat.one_mul, if_true]
      ac_rfl

theorem E_mulmod {a b : Nat} (hb : b < 2 ^ 256) : E (mulmod a b) = polyAct a 256 (E b) := by
  have hE0 : E 0 = zero := polyAct_zero_left _ _
  rw [mulmod, E_mulLoop hb 256 (Nat.two_pow_pos 256), hE0, iter_zero, Xoshiro.zero_xor]

/-- `r` is a residue standing for the `e`-th power of the update map. -/
def Rep (e r : Nat) : Prop := r < 2 ^ 256 ∧ step^[e] v0 = E r

theorem rep_zero : Rep 0 1 := by
  refine ⟨by decide, ?_⟩
  apply toNats_injective
  rw [E_eq_evalLoop]
  decide +kernel

theorem Rep.mul {e f r s : Nat} (h1 : Rep e r) (h2 : Rep f s) : Rep (e + f) (mulmod r s) := by
  refine ⟨mulmod_lt h2.1, ?_⟩
  rw [E_mulmod h2.1, ← h2.2, polyAct_iter, ← polyAct_of_lt h1.1 257 (by omega)]
  change _ = step^[f] (E r)
  rw [← h1.2, Nat.add_comm e f, Function.iterate_add_apply]

theorem Rep.succ {e r : Nat} (h : Rep e r) : Rep (e + 1) (xtimes r) :=
  ⟨xtimes_lt h.1, by rw [E_xtimes h.1, ← h.2, Function.iterate_succ_apply']⟩

theorem Rep.powLoop (e n : Nat) {acc : Nat} (h : Rep (e >>> n) acc) : Rep e (powLoop e n acc) := by
  induction n generalizing acc with
  | zero => exact h
  | succ n ih =>
    rw [GF2.powLoop, force_eq, force_eq]
    apply ih
    have hs := h.mul h
    have hexp : e >>> n = (e >>> (n + 1) + e >>> (n + 1)) + (e.testBit n).toNat := by
      rw [← bit_eq]
      change e >>> n = _ + ((e >>> n) &&& 1)
      rw [Nat.shiftRight_succ, Nat.and_one_is_mod]
      omega
    rw [hexp, bit_eq]
    cases e.testBit n
    · exact hs
    · exact hs.succ

theorem rep_powLoop (e n : Nat) (h : e < 2 ^ n) : Rep e (powLoop e n 1) := by
  apply Rep.powLoop
  rw [Nat.shiftRight_eq_div_pow, Nat.div_eq_of_lt h]
  exact rep_zero

end GF2
end Imate.Random
