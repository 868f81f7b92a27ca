import Verif.Model.TimeStamp
import Verif.Spec.Rounding
import Mathlib.Tactic.Linarith
import Mathlib.Tactic.Positivity
import Mathlib.Tactic.NormNum
import Mathlib.Algebra.Order.Field.Power
import Mathlib.Algebra.Order.Round

/-! Rounding of times to `double`. -/

namespace Imate.Random

open Imate.Spec

variable {fl : ℝ → ℝ}

theorem fl_of_representable (h : Nearest 53 fl) {x : ℝ} (hx : Representable 53 x) : fl x = x := by
  have := (h x).2 x hx
  simp only [sub_self, abs_zero] at this
  have := abs_nonpos_iff.1 this
  linarith

theorem representable_nat {k : ℕ} (hk : k < 2 ^ 53) (e : ℕ) : Representable 53 ((k : ℝ) * 2 ^ e) := by
  refine ⟨k, e, ?_, by simp⟩
  rw [abs_of_nonneg (by positivity)]
  exact_mod_cast hk

/-- A time between 2006 and 2043 is rounded to a multiple of 256 nanoseconds. -/
theorem fl_grid (h : Nearest 53 fl) {x : ℝ} (h1 : (2 : ℝ) ^ 60 ≤ x) (h2 : x ≤ (2 : ℝ) ^ 61) :
    ∃ m : ℕ, fl x = 256 * m ∧ |fl x - x| ≤ 128 := by
  have hrep := (h x).1
  have hge : (2 : ℝ) ^ 60 ≤ fl x := by
    by_contra hc
    push Not at hc
    have := (h x).2 ((2 : ℝ) ^ 60) (by simpa using representable_nat (k := 1) (by norm_num) 60)
    rw [abs_of_nonpos (by linarith), abs_of_nonpos (by linarith)] at this
    linarith
  obtain ⟨s, e, hs, hy⟩ := hrep
  have hs' : (s : ℝ) < (2 : ℝ) ^ 53 := by
    have : s < 2 ^ 53 := (le_abs_self s).trans_lt hs
    exact_mod_cast this
  have hpe : (0 : ℝ) < (2 : ℝ) ^ e := by positivity
  have hspos : (0 : ℝ) < s := by
    by_contra hc
    push Not at hc
    have : (s : ℝ) * 2 ^ e ≤ 0 := mul_nonpos_of_nonpos_of_nonneg hc hpe.le
    rw [← hy] at this
    have : (0 : ℝ) < 2 ^ 60 := by positivity
    linarith
  have he : 8 ≤ e := by
    by_contra hc
    push Not at hc
    have h7 : (2 : ℝ) ^ e ≤ 2 ^ (7 : ℤ) := zpow_le_zpow_right₀ (by norm_num) (by omega)
    have : (s : ℝ) * 2 ^ e < 2 ^ 53 * 2 ^ (7 : ℤ) :=
      mul_lt_mul'' hs' (lt_of_le_of_ne h7 (by
        intro heq
        rw [hy] at hge
        rw [heq] at hge
        norm_num at hge hs'
        linarith)) hspos.le hpe.le
    rw [← hy] at this
    norm_num at this hge
    linarith
  obtain ⟨k, rfl⟩ : ∃ k : ℕ, e = 8 + k := ⟨(e - 8).toNat, by omega⟩
  refine ⟨(s * 2 ^ k).toNat, ?_, ?_⟩
  · have : ((s * 2 ^ k).toNat : ℝ) = (s : ℝ) * 2 ^ k := by
      have h0 : 0 ≤ s * 2 ^ k := by
        have : 0 < s := by exact_mod_cast hspos
        positivity
      have := Int.toNat_of_nonneg h0
      exact_mod_cast congrArg (Int.cast (R := ℝ)) this
    rw [this, hy, zpow_add₀ (by norm_num), zpow_natCast]
    norm_num
    ring
  · -- the multiple of 256 next to `x` is a candidate
    have hr := abs_sub_round (x / 256)
    set m := round (x / 256) with hm
    have hdist : |256 * (m : ℝ) - x| ≤ 128 := by
      have e : 256 * (m : ℝ) - x = -(256 * (x / 256 - m)) := by ring
      rw [e, abs_neg, abs_mul, abs_of_pos (by norm_num : (0 : ℝ) < 256)]
      linarith
    have hm2 : |m| ≤ 2 ^ 53 := by
      obtain ⟨a1, a2⟩ := abs_le.1 hr
      have b1 : (m : ℝ) ≤ 2 ^ 53 + 1 / 2 := by
        have : x / 256 ≤ 2 ^ 53 := by rw [div_le_iff₀ (by norm_num)]; norm_num at h2 ⊢; linarith
        linarith
      have b2 : (0 : ℝ) - 1 / 2 ≤ m := by
        have : 0 ≤ x / 256 := by
          have : (0 : ℝ) < 2 ^ 60 := by positivity
          positivity
        linarith
      have c1 : m < 2 ^ 53 + 1 := by
        have : (m : ℝ) < ((2 ^ 53 + 1 : ℤ) : ℝ) := by push_cast; linarith
        exact_mod_cast this
      have c2 : -1 < m := by
        have : ((-1 : ℤ) : ℝ) < m := by push_cast; linarith
        exact_mod_cast this
      rw [abs_of_nonneg (by omega)]
      omega
    have hrep : Representable 53 (256 * (m : ℝ)) := by
      by_cases hlt : |m| < 2 ^ 53
      · exact ⟨m, 8, hlt, by norm_num; ring⟩
      · have hmm : |m| = 2 ^ 53 := le_antisymm hm2 (not_lt.1 hlt)
        rcases abs_eq (by norm_num : (0 : ℤ) ≤ 2 ^ 53) |>.1 hmm with h | h
        · exact ⟨1, 61, by norm_num, by rw [h]; norm_num⟩
        · exact ⟨-1, 61, by norm_num, by rw [h]; norm_num⟩
    exact ((h x).2 _ hrep).trans hdist

/-- The nanoseconds since 1970. -/
def Timespec.time (c : Timespec) : ℕ := c.sec * 10 ^ 9 + c.nsec

/-- A time between February 2006 and January 2043. -/
structure Timespec.Modern (c : Timespec) : Prop where
  nsec : c.nsec < 10 ^ 9
  low : 2 ^ 60 ≤ c.time
  high : c.time ≤ 2 ^ 61

theorem Timespec.Modern.sec_lt {c : Timespec} (hc : c.Modern) : c.sec < 2 ^ 32 := by
  have h1 := hc.high
  have h2 : c.time = c.sec * 10 ^ 9 + c.nsec := rfl
  by_contra h
  push Not at h
  have : 2 ^ 32 * 10 ^ 9 ≤ c.sec * 10 ^ 9 := Nat.mul_le_mul_right _ h
  norm_num at this h1
  omega

/-- The product is exact. -/
theorem stamp_inner (h : Nearest 53 fl) {c : Timespec} (hc : c.Modern) :
    fl (fl (fl c.sec * 10 ^ 9) + fl c.nsec) = fl c.time := by
  have h1 := hc.sec_lt
  have h0 : fl c.sec = c.sec := by
    apply fl_of_representable h
    simpa using representable_nat (k := c.sec) (by omega) 0
  have h3 : fl c.nsec = c.nsec := by
    apply fl_of_representable h
    have := hc.nsec
    simpa using representable_nat (k := c.nsec) (by omega) 0
  have h2 : fl ((c.sec : ℝ) * 10 ^ 9) = c.sec * 10 ^ 9 := by
    apply fl_of_representable h
    have hk : c.sec * 1953125 < 2 ^ 53 := by
      have : c.sec * 1953125 < 2 ^ 32 * 1953125 := by omega
      norm_num at this ⊢
      omega
    have := representable_nat hk 9
    push_cast at this
    convert this using 1
    ring
  rw [h0, h2, h3]
  congr 1
  unfold Timespec.time
  push_cast
  ring

/-- The stamp of a modern time: a multiple of 256, at most 128 away. -/
theorem stamp_grid (h : Nearest 53 fl) {c : Timespec} (hc : c.Modern) :
    ∃ m : ℕ, (stampOf fl c).toNat = 256 * m ∧ (c.time : ℤ) - 128 ≤ 256 * m ∧ 256 * (m : ℤ) ≤ c.time + 128 ∧
      fl c.time = 256 * m := by
  obtain ⟨m, hm, hd⟩ := fl_grid h (x := c.time) (by exact_mod_cast hc.low) (by exact_mod_cast hc.high)
  have hd' := abs_le.1 hd
  have b1 : (c.time : ℤ) - 128 ≤ 256 * m := by
    have : ((c.time : ℤ) - 128 : ℝ) ≤ ((256 * m : ℤ) : ℝ) := by push_cast; rw [← hm]; linarith
    exact_mod_cast this
  have b2 : 256 * (m : ℤ) ≤ c.time + 128 := by
    have : ((256 * m : ℤ) : ℝ) ≤ ((c.time + 128 : ℤ) : ℝ) := by push_cast; rw [← hm]; linarith
    exact_mod_cast this
  refine ⟨m, ?_, b1, b2, hm⟩
  unfold stampOf
  rw [stamp_inner h hc, hm]
  have : (256 * (m : ℝ)) = ((256 * m : ℕ) : ℝ) := by push_cast; ring
  rw [this, Nat.floor_natCast, BitVec.toNat_ofNat, Nat.mod_eq_of_lt]
  have := hc.high
  norm_num at this ⊢
  omega

end Imate.Random
