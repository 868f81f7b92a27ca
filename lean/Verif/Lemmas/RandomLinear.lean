import Verif.Model.Random
import Mathlib.Logic.Function.Iterate
import Mathlib.Tactic.Common
set_option linter.unusedSectionVars false

/-! The state update of xoshiro256** is an injective linear map over GF(2). -/

namespace Imate.Random

namespace Xoshiro

theorem ext' {x y : Xoshiro} (h0 : x.s0 = y.s0) (h1 : x.s1 = y.s1) (h2 : x.s2 = y.s2)
    (h3 : x.s3 = y.s3) : x = y := by
  cases x; cases y; simp_all

theorem xor_assoc (x y z : Xoshiro) : (x.xor y).xor z = x.xor (y.xor z) := by
  simp [Xoshiro.xor, BitVec.xor_assoc]

theorem xor_comm (x y : Xoshiro) : x.xor y = y.xor x := by
  simp [Xoshiro.xor, BitVec.xor_comm]

instance : Std.Associative Xoshiro.xor := ⟨xor_assoc⟩
instance : Std.Commutative Xoshiro.xor := ⟨xor_comm⟩

@[simp] theorem xor_self (x : Xoshiro) : x.xor x = zero := by
  simp [Xoshiro.xor, zero]

@[simp] theorem xor_zero (x : Xoshiro) : x.xor zero = x := by
  cases x; simp [Xoshiro.xor, zero]

@[simp] theorem zero_xor (x : Xoshiro) : zero.xor x = x := by
  cases x; simp [Xoshiro.xor, zero]

theorem xor_eq_zero_iff (x y : Xoshiro) : x.xor y = zero ↔ x = y := by
  constructor
  · intro h
    have : (x.xor y).xor y = y := by rw [h, zero_xor]
    rwa [xor_assoc, xor_self, xor_zero] at this
  · rintro rfl; exact xor_self x

theorem rotationLeft_xor (x y : BitVec 64) :
    rotationLeft (x ^^^ y) 45 = rotationLeft x 45 ^^^ rotationLeft y 45 := by
  ext i hi
  simp only [rotationLeft, BitVec.getElem_or, BitVec.getElem_shiftLeft, BitVec.getElem_xor,
    BitVec.getElem_ushiftRight]
  by_cases h : i < 45
  · simp [h]
  · have hge : 64 ≤ 64 - 45 + i := by omega
    simp [h, BitVec.getLsbD_of_ge _ _ hge]

theorem step_xor (x y : Xoshiro) : (x.xor y).step = x.step.xor y.step := by
  obtain ⟨x0, x1, x2, x3⟩ := x
  obtain ⟨y0, y1, y2, y3⟩ := y
  simp only [step, Xoshiro.xor, Xoshiro.mk.injEq]
  refine ⟨?_, ?_, ?_, ?_⟩
  · ext i hi
    simp only [BitVec.getElem_xor]
    cases x0[i] <;> cases x1[i] <;> cases x3[i] <;> simp
  · ext i hi
    simp only [BitVec.getElem_xor]
    cases x0[i] <;> cases x1[i] <;> cases x2[i] <;> simp
  · rw [BitVec.shiftLeft_xor_distrib]
    generalize x1 <<< 17 = a
    generalize y1 <<< 17 = b
    ext i hi
    simp only [BitVec.getElem_xor]
    cases x0[i] <;> cases a[i] <;> cases x2[i] <;> simp
  · rw [← rotationLeft_xor]
    congr 1
    ext i hi
    simp only [BitVec.getElem_xor]
    cases x1[i] <;> cases x3[i] <;> simp

@[simp] theorem step_zero : zero.step = zero := by decide

theorem eq_zero_of_eq_shift (x : BitVec 64) (h : x = x <<< 17) : x = 0 := by
  have key : ∀ n : Nat, ∀ i, i < n → x.getLsbD i = false := by
    intro n
    induction n with
    | zero => intro i hi; omega
    | succ n ih =>
      intro i hi
      rw [h, BitVec.getLsbD_shiftLeft]
      by_cases h17 : i < 17
      · simp [h17]
      · simp [ih (i - 17) (by omega)]
  apply BitVec.eq_of_getLsbD_eq
  intro i hi
  simp [key (i + 1) i (by omega)]

theorem rotationLeft_eq_zero (x : BitVec 64) (h : rotationLeft x 45 = 0) : x = 0 := by
  apply BitVec.eq_of_getLsbD_eq
  intro i hi
  have hb : ∀ j, (rotationLeft x 45).getLsbD j = false := by intro j; rw [h]; simp
  simp only [rotationLeft, BitVec.getLsbD_or, BitVec.getLsbD_shiftLeft,
    BitVec.getLsbD_ushiftRight] at hb
  by_cases hi' : i < 19
  · have := hb (i + 45)
    have h1 : i + 45 < 64 := by omega
    simp [h1] at this
    simp [this.1]
  · have := hb (i - 19)
    have h1 : 19 + (i - 19) = i := by omega
    simp [h1] at this
    simp [this.2]

theorem step_eq_zero (x : Xoshiro) (h : x.step = zero) : x = zero := by
  obtain ⟨s0, s1, s2, s3⟩ := x
  simp only [step, zero, Xoshiro.mk.injEq] at h ⊢
  obtain ⟨h0, h1, h2, h3⟩ := h
  have e3 : s3 = s1 := by simpa using rotationLeft_eq_zero _ h3
  subst e3
  have e0 : s0 = 0 := by simpa using h0
  subst e0
  have e1 : s3 = s2 := by simpa using h1
  subst e1
  have e2 : s3 = s3 <<< 17 := by simpa using h2
  have := eq_zero_of_eq_shift _ e2
  subst this
  simp

theorem step_injective : Function.Injective step := by
  intro x y h
  rw [← xor_eq_zero_iff] at h ⊢
  rw [← step_xor] at h
  exact step_eq_zero _ h

theorem iter_xor (n : Nat) (x y : Xoshiro) :
    step^[n] (x.xor y) = (step^[n] x).xor (step^[n] y) := by
  induction n generalizing x y with
  | zero => rfl
  | succ n ih => simp only [Function.iterate_succ, Function.comp, step_xor, ih]

@[simp] theorem iter_zero (n : Nat) : step^[n] zero = zero := by
  induction n with
  | zero => rfl
  | succ n ih => simp only [Function.iterate_succ, Function.comp, step_zero, ih]

theorem iter_eq_zero (n : Nat) (x : Xoshiro) (h : step^[n] x = zero) : x = zero := by
  induction n generalizing x with
  | zero => exact h
  | succ n ih => exact step_eq_zero _ (ih _ (by simpa using h))

/-- `Σ_{j<k} p_j T^j x` : the polynomial with bits `p` applied to `x`. -/
def polyAct (p : Nat) : Nat → Xoshiro → Xoshiro
  | 0, _ => zero
  | k + 1, x => (polyAct p k x).xor (if p.testBit k then step^[k] x else zero)

theorem polyAct_add (p k : Nat) (x y : Xoshiro) :
    polyAct p k (x.xor y) = (polyAct p k x).xor (polyAct p k y) := by
  induction k with
  | zero => simp [polyAct]
  | succ k ih =>
    simp only [polyAct, ih]
    split
    · rw [iter_xor]; ac_rfl
    · simp

@[simp] theorem polyAct_zero_right (p k : Nat) : polyAct p k zero = zero := by
  induction k with
  | zero => rfl
  | succ k ih => simp [polyAct, ih]

@[simp] theorem polyAct_zero_left (k : Nat) (x : Xoshiro) : polyAct 0 k x = zero := by
  induction k with
  | zero => rfl
  | succ k ih => simp [polyAct, ih]

theorem polyAct_xor (p q k : Nat) (x : Xoshiro) :
    polyAct (p ^^^ q) k x = (polyAct p k x).xor (polyAct q k x) := by
  induction k with
  | zero => simp [polyAct]
  | succ k ih =>
    simp only [polyAct, ih, Nat.testBit_xor]
    cases p.testBit k <;> cases q.testBit k <;> simp
    · ac_rfl
    · ac_rfl
    · have : ∀ a b c : Xoshiro, (a.xor c).xor (b.xor c) = a.xor b := by
        intro a b c
        have : (a.xor c).xor (b.xor c) = (a.xor b).xor (c.xor c) := by ac_rfl
        rw [this]; simp
      rw [this]

theorem polyAct_step (p k : Nat) (x : Xoshiro) : polyAct p k x.step = (polyAct p k x).step := by
  induction k with
  | zero => simp [polyAct]
  | succ k ih =>
    simp only [polyAct, ih, step_xor]
    congr 1
    split
    · rw [← Function.iterate_succ_apply, Function.iterate_succ_apply']
    · simp

theorem polyAct_iter (p k n : Nat) (x : Xoshiro) :
    polyAct p k (step^[n] x) = step^[n] (polyAct p k x) := by
  induction n generalizing x with
  | zero => rfl
  | succ n ih => rw [Function.iterate_succ_apply, Function.iterate_succ_apply, ih, polyAct_step]

theorem polyAct_shift (p k : Nat) (x : Xoshiro) :
    polyAct (p <<< 1) (k + 1) x = (polyAct p k x).step := by
  induction k with
  | zero => simp [polyAct]
  | succ k ih =>
    rw [polyAct, ih, polyAct, step_xor]
    congr 1
    simp only [Nat.testBit_shiftLeft]
    have : (decide (k + 1 ≥ 1)) = true := by simp
    simp only [this, Bool.true_and, Nat.add_sub_cancel]
    split
    · rw [Function.iterate_succ_apply']
    · simp

theorem polyAct_of_lt {p k : Nat} (h : p < 2 ^ k) (k' : Nat) (hk : k ≤ k') (x : Xoshiro) :
    polyAct p k' x = polyAct p k x := by
  induction k' with
  | zero => have : k = 0 := by omega
            subst this; rfl
  | succ k' ih =>
    rcases Nat.lt_or_ge k' k with h' | h'
    · have : k = k' + 1 := by omega
      subst this; rfl
    · rw [polyAct, ih h']
      have : p.testBit k' = false :=
        Nat.testBit_lt_two_pow (Nat.lt_of_lt_of_le h (Nat.pow_le_pow_right (by omega) h'))
      simp [this]

end Xoshiro
end Imate.Random
