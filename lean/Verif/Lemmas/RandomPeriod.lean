import Verif.Lemmas.RandomEval
import Mathlib.Dynamics.PeriodicPts.Lemmas
import Mathlib.Data.Set.Card
import Mathlib.Data.Fintype.Prod
import Mathlib.Order.Interval.Set.Nat
import Mathlib.Data.Fintype.BigOperators
set_option linter.unusedSectionVars false

/-! The update map of xoshiro256** permutes the nonzero states in one cycle of length `2^256-1`;
`jump` and `long_jump` advance it by `2^128` and `2^192` steps. -/

namespace Imate.Random
namespace GF2
open Xoshiro Function

theorem iter_N_v0 : step^[N] v0 = v0 := by
  have h := rep_powLoop (2 ^ 256 - 1) 256 (by norm_num)
  rw [pow_N] at h
  have h1 := h.2
  rw [← rep_zero.2] at h1
  exact h1

theorem iter_div_ne {q : ℕ} (hq : q ∈ Primes.factors) : step^[N / q] v0 ≠ v0 := by
  intro h
  have hlt : (2 ^ 256 - 1) / q < 2 ^ 256 := lt_of_le_of_lt (Nat.div_le_self _ _) (by norm_num)
  have hrep := rep_powLoop ((2 ^ 256 - 1) / q) 256 hlt
  have h1 := hrep.2
  have hN : N / q = (2 ^ 256 - 1) / q := rfl
  rw [← hN, h] at h1
  have h2 := List.all_eq_true.1 notOne_factors q hq
  rw [notOne, force_eq, ← E_eq_evalLoop, hN.symm, ← h1] at h2
  exact absurd h2 (by decide)

theorem minimalPeriod_v0 : minimalPeriod step v0 = N := by
  have hper : IsPeriodicPt step N v0 := iter_N_v0
  have hdvd := hper.minimalPeriod_dvd
  by_contra hne
  obtain ⟨c, hc⟩ := hdvd
  have hN0 : N ≠ 0 := by norm_num [N]
  have hc1 : c ≠ 1 := by rintro rfl; apply hne; rw [hc, mul_one]
  obtain ⟨q, hq, hqc⟩ := Nat.exists_prime_and_dvd hc1
  obtain ⟨d, rfl⟩ := hqc
  have hqN : q ∣ N := ⟨minimalPeriod step v0 * d, by rw [hc]; ring⟩
  have hmem := Primes.mem_factors_of_prime_dvd hq hqN
  apply iter_div_ne hmem
  have : N / q = minimalPeriod step v0 * d := by
    apply Nat.div_eq_of_eq_mul_right hq.pos
    rw [hc]; ring
  rw [this]
  exact (isPeriodicPt_minimalPeriod step v0).mul_const d

/-- states as 4-tuples of machine words -/
def equivProd : Xoshiro ≃ Fin (2 ^ 64) × Fin (2 ^ 64) × Fin (2 ^ 64) × Fin (2 ^ 64) where
  toFun x := (x.s0.toFin, x.s1.toFin, x.s2.toFin, x.s3.toFin)
  invFun t := ⟨⟨t.1⟩, ⟨t.2.1⟩, ⟨t.2.2.1⟩, ⟨t.2.2.2⟩⟩
  left_inv x := by cases x; rfl
  right_inv t := by rfl

instance : Finite Xoshiro := Finite.of_equiv _ equivProd.symm

theorem card_xoshiro : Nat.card Xoshiro = 2 ^ 256 := by
  rw [Nat.card_congr equivProd]
  simp only [Nat.card_prod, Nat.card_fin]
  norm_num

theorem orbit_eq : (fun i => step^[i] v0) '' Set.Iio N = {x | x ≠ zero} := by
  apply Set.eq_of_subset_of_ncard_le
  · rintro _ ⟨i, -, rfl⟩ h
    exact absurd (iter_eq_zero i v0 h) (by decide)
  · have h1 : ({x : Xoshiro | x ≠ zero}).ncard = N := by
      have : {x : Xoshiro | x ≠ zero} = ({zero} : Set Xoshiro)ᶜ := by ext; simp
      rw [this, Set.ncard_compl, card_xoshiro, Set.ncard_singleton]
      rfl
    rw [h1, Set.InjOn.ncard_image, Set.ncard_Iio_nat]
    · intro i hi j hj h
      have hi' : i < minimalPeriod step v0 := by rw [minimalPeriod_v0]; exact hi
      have hj' : j < minimalPeriod step v0 := by rw [minimalPeriod_v0]; exact hj
      exact (iterate_injOn_Iio_minimalPeriod hi' hj' h)
  · exact Set.toFinite _

/-- every nonzero state is on the orbit of the base state -/
theorem exists_iter_v0 {x : Xoshiro} (hx : x ≠ zero) : ∃ i < N, step^[i] v0 = x := by
  have : x ∈ (fun i => step^[i] v0) '' Set.Iio N := by rw [orbit_eq]; exact hx
  obtain ⟨i, hi, h⟩ := this
  exact ⟨i, hi, h⟩

theorem minimalPeriod_of_ne_zero {x : Xoshiro} (hx : x ≠ zero) : minimalPeriod step x = N := by
  obtain ⟨i, -, rfl⟩ := exists_iter_v0 hx
  rw [minimalPeriod_apply_iterate, minimalPeriod_v0]
  exact ⟨N, by norm_num [N], iter_N_v0⟩

/-- Equal powers on the base state are equal powers everywhere. -/
theorem iter_eq_polyAct {e r : ℕ} (h : Rep e r) (x : Xoshiro) : step^[e] x = polyAct r 256 x := by
  by_cases hx : x = zero
  · subst hx; simp
  · obtain ⟨i, -, rfl⟩ := exists_iter_v0 hx
    rw [← iterate_add_apply, Nat.add_comm, iterate_add_apply, h.2, polyAct_iter, E,
      polyAct_of_lt h.1 257 (by omega)]

/-! ### The jump functions -/

theorem polyAct_split (p a b : ℕ) (x : Xoshiro) :
    polyAct p (a + b) x = (polyAct p a x).xor (polyAct (p >>> a) b (step^[a] x)) := by
  induction b with
  | zero => simp [polyAct]
  | succ b ih =>
    rw [← Nat.add_assoc, polyAct, ih, polyAct, Xoshiro.xor_assoc]
    congr 2
    simp only [Nat.testBit_shiftRight]
    split
    · rw [Nat.add_comm a b, iterate_add_apply]
    · rfl

theorem polyAct_congr {p q k : ℕ} (h : ∀ i < k, p.testBit i = q.testBit i) (x : Xoshiro) :
    polyAct p k x = polyAct q k x := by
  induction k with
  | zero => rfl
  | succ k ih => rw [polyAct, polyAct, ih (fun i hi => h i (by omega)), h k (by omega)]

theorem polyAct_mod (p k : ℕ) (x : Xoshiro) : polyAct (p % 2 ^ k) k x = polyAct p k x :=
  polyAct_congr (fun i hi => by simp [Nat.testBit_mod_two_pow, hi]) x

theorem and_one_shift_ne (w : BitVec 64) (b : ℕ) (hb : b < 64) :
    (w &&& (1#64 <<< b) ≠ 0) ↔ w.getLsbD b = true := by
  constructor
  · intro h
    by_contra hf
    apply h
    apply BitVec.eq_of_getLsbD_eq
    intro i hi
    simp only [BitVec.getLsbD_and, BitVec.getLsbD_shiftLeft]
    by_cases hib : i = b
    · subst hib; simp at hf; simp [hf]
    · by_cases hlt : i < b
      · simp [hlt]
      · have : i - b ≠ 0 := by omega
        simp [this]
  · intro h hz
    have := congrArg (fun v => BitVec.getLsbD v b) hz
    rw [BitVec.getLsbD_eq_getElem hb] at h
    simp [hb, h] at this

theorem jumpWord_eq (w : BitVec 64) (n b : ℕ) (hb : b + n ≤ 64) (acc cur : Xoshiro) :
    jumpWord w n b acc cur = (acc.xor (polyAct (w.toNat >>> b) n cur), step^[n] cur) := by
  induction n generalizing b acc cur with
  | zero => simp [jumpWord, polyAct]
  | succ n ih =>
    rw [jumpWord, ih (b + 1) (by omega), polyAct_succ', ← Xoshiro.xor_assoc,
      ← Function.iterate_succ_apply]
    have hc := and_one_shift_ne w b (by omega)
    have ht : (w.toNat >>> b).testBit 0 = w.getLsbD b := by
      simp [BitVec.getLsbD]
    rw [ht]
    rw [← Nat.shiftRight_add]
    cases hw : w.getLsbD b
    · have : ¬ (w &&& (1#64 <<< b) ≠ 0) := by rw [hc, hw]; simp
      rw [if_neg this]; simp
    · have : (w &&& (1#64 <<< b) ≠ 0) := by rw [hc, hw]
      rw [if_pos this]; simp

/-- the little-endian number held by a table of words -/
def wordsToNat : List (BitVec 64) → ℕ
  | [] => 0
  | w :: ws => w.toNat + 2 ^ 64 * wordsToNat ws

theorem jumpWords_eq (ws : List (BitVec 64)) (acc x : Xoshiro) :
    jumpWords ws acc x = acc.xor (polyAct (wordsToNat ws) (64 * ws.length) x) := by
  induction ws generalizing acc x with
  | nil => simp [jumpWords, polyAct]
  | cons w ws ih =>
    have h1 : wordsToNat (w :: ws) % 2 ^ 64 = w.toNat := by
      rw [wordsToNat, Nat.add_mul_mod_self_left, Nat.mod_eq_of_lt w.isLt]
    have h2 : wordsToNat (w :: ws) >>> 64 = wordsToNat ws := by
      rw [Nat.shiftRight_eq_div_pow, wordsToNat, Nat.add_mul_div_left _ _ (Nat.two_pow_pos 64),
        Nat.div_eq_of_lt w.isLt, Nat.zero_add]
    have h3 : 64 * (w :: ws).length = 64 + 64 * ws.length := by
      rw [List.length_cons]; ring
    rw [h3, polyAct_split, h2, ← polyAct_mod (wordsToNat (w :: ws)) 64, h1, jumpWords,
      jumpWord_eq w 64 0 (Nat.le_refl 64)]
    dsimp only
    rw [ih, Nat.shiftRight_zero, Xoshiro.xor_assoc]

theorem jump_eq (x : Xoshiro) : x.jump = step^[2 ^ 128] x := by
  have h := rep_powLoop (2 ^ 128) 129 (by norm_num)
  rw [pow_jump] at h
  rw [iter_eq_polyAct h, Xoshiro.jump, jumpWords_eq, Xoshiro.zero_xor]
  have hw : wordsToNat jumpTable = 0x39abdc4529b1661ca9582618e03fc9aad5a61266f0c9392c180ec6d33cfd0aba := by decide +kernel
  have hl : 64 * jumpTable.length = 256 := by decide +kernel
  rw [hw, hl]

theorem longJump_eq (x : Xoshiro) : x.longJump = step^[2 ^ 192] x := by
  have h := rep_powLoop (2 ^ 192) 193 (by norm_num)
  rw [pow_longJump] at h
  rw [iter_eq_polyAct h, Xoshiro.longJump, jumpWords_eq, Xoshiro.zero_xor]
  have hw : wordsToNat longJumpTable = 0x39109bb02acbe63577710069854ee241c5004e441c522fb376e15d3efefdcbbf := by decide +kernel
  have hl : 64 * longJumpTable.length = 256 := by decide +kernel
  rw [hw, hl]

theorem jumpTimes_eq (n : ℕ) (x : Xoshiro) : jumpTimes n x = step^[n * 2 ^ 128] x := by
  induction n generalizing x with
  | zero => simp [jumpTimes]
  | succ n ih => rw [jumpTimes, ih, jump_eq, ← iterate_add_apply, Nat.succ_mul]

end GF2
end Imate.Random
