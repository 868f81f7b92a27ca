import Verif.Lemmas.TimeStamp
import Verif.Lemmas.Rounded
import Verif.Props.Random

/-! # C71: seeds taken from the clock

`fl` is any rounding to a nearest `double` (53 bits).  `Timespec.Modern` are the times between 2006 and 2043, in
nanoseconds between `2^60` and `2^61`. -/

namespace Imate.Props

open Imate.Random Imate.Spec

variable {fl : ℝ → ℝ}

/-- The seed argument that asks for the clock. -/
def noSeed : BitVec 64 := BitVec.ofInt 64 (-1)

/-- The low byte of every seed taken from the clock is zero: the time is rounded to 256 nanoseconds. -/
theorem time_stamp_low_byte_zero (h : Nearest 53 fl) {c : Timespec} (hc : c.Modern) (junk : Timespec) :
    (timeStamp fl (some c) junk).toNat % 256 = 0 := by
  obtain ⟨m, hm, -⟩ := stamp_grid h hc
  show (stampOf fl c).toNat % 256 = 0
  omega

/-- **C71 fails.**  All readings in the first 128 nanoseconds of a second give the same seed, so two runs started
there at different times use the same random numbers in every thread. -/
theorem time_seed_collision (h : Nearest 53 fl) (n sec : ℕ) (hlow : 2 ^ 60 ≤ sec * 10 ^ 9)
    (hhigh : sec * 10 ^ 9 + 128 ≤ 2 ^ 61) (a b : ℕ → ℕ) (ha : ∀ t, a t < 128) (hb : ∀ t, b t < 128)
    (junk : Timespec) :
    initGenerators n (fun t => timeStamp fl (some ⟨sec, a t⟩) junk) noSeed =
      initGenerators n (fun t => timeStamp fl (some ⟨sec, b t⟩) junk) noSeed := by
  have key : ∀ k < 128, timeStamp fl (some ⟨sec, k⟩) junk = BitVec.ofNat 64 (sec * 10 ^ 9) := by
    intro k hk
    have hmod : Timespec.Modern ⟨sec, k⟩ := ⟨hk.trans (by norm_num), le_trans hlow (Nat.le_add_right _ _),
      le_trans (Nat.add_le_add_left hk.le _) hhigh⟩
    obtain ⟨m, hm, h1, h2, -⟩ := stamp_grid h hmod
    show stampOf fl ⟨sec, k⟩ = _
    apply BitVec.eq_of_toNat_eq
    have ht : (Timespec.time ⟨sec, k⟩ : ℕ) = sec * 10 ^ 9 + k := rfl
    rw [ht] at h1 h2
    have h3 : 256 * m = sec * 10 ^ 9 := by
      push_cast at h1 h2
      norm_num at h1 h2 ⊢
      omega
    rw [hm, BitVec.toNat_ofNat, Nat.mod_eq_of_lt, h3]
    norm_num at hhigh ⊢
    omega
  simp only [key _ (ha _), key _ (hb _)]

/-- Non-vacuity: the first 128 nanoseconds of 12 September 2025, 00:00. -/
example : 2 ^ 60 ≤ 1757635200 * 10 ^ 9 ∧ 1757635200 * 10 ^ 9 + 128 ≤ 2 ^ 61 ∧
    (fun _ : ℕ => 0) ≠ (fun _ : ℕ => 127) := by
  refine ⟨by norm_num, by norm_num, fun h => ?_⟩
  have := congrFun h 0
  norm_num at this

example : ∃ fl, Nearest 53 fl := ⟨_, Rounded.roundTo_nearest (by norm_num)⟩

theorem init_low {a b : BitVec 64} (h : (a <<< 32) ||| a = (b <<< 32) ||| b) : a.toNat % 2 ^ 32 = b.toNat % 2 ^ 32 := by
  apply Nat.eq_of_testBit_eq
  intro i
  rw [Nat.testBit_mod_two_pow, Nat.testBit_mod_two_pow]
  by_cases h32 : i < 32
  · have := congrArg (fun v => BitVec.getLsbD v i) h
    simp [h32] at this
    simpa [h32, BitVec.getLsbD] using this
  · simp [h32]

/-- Two clocks whose readings of thread `t` differ in the low half give that thread streams that differ within their
first four numbers. -/
theorem seeds_distinct {a b : ℕ → BitVec 64} {n m t : ℕ} {g g' : Array Xoshiro} {x y : Xoshiro}
    (hlow : (a t).toNat % 2 ^ 32 ≠ (b t).toNat % 2 ^ 32)
    (hg : initGenerators n a noSeed = .ok g) (hg' : initGenerators m b noSeed = .ok g')
    (hx : g[t]? = some x) (hy : g'[t]? = some y) : ∃ k < 4, draw x k ≠ draw y k := by
  by_contra hcon
  push Not at hcon
  obtain ⟨-, hsz, hget⟩ := initGenerators_get hg
  obtain ⟨-, hsz', hget'⟩ := initGenerators_get hg'
  have ht : t < n := by
    by_contra hh
    rw [Array.getElem?_eq_none (by omega)] at hx
    simp at hx
  have hu : t < m := by
    by_contra hh
    rw [Array.getElem?_eq_none (by omega)] at hy
    simp at hy
  have hxy : x = y := GF2.observable (fun i hi => by
    have := hcon i hi
    rwa [draw_eq, draw_eq] at this)
  rw [hget t ht, Option.some.injEq] at hx
  rw [hget' t hu, Option.some.injEq] at hy
  rw [← hx, ← hy, stateAfter_eq, stateAfter_eq] at hxy
  have hi := GF2.construct_injective_init (GF2.step_iter_injective _ hxy)
  unfold splitMixInit at hi
  rw [if_neg (by decide), if_neg (by decide)] at hi
  exact hlow (init_low hi)

/-- **C71, the part that holds.**  Two readings more than 256 nanoseconds and less than about four seconds apart give
every thread streams that differ within their first four numbers.  Missing: readings nearer to each other, see
`time_seed_collision`, and further apart, see `time_seed_collision_later`. -/
theorem time_seed_distinct_partial (h : Nearest 53 fl) {c d : ℕ → Timespec} {n m : ℕ} {junk : Timespec}
    {g g' : Array Xoshiro} {t : ℕ} {x y : Xoshiro} (hc : (c t).Modern) (hd : (d t).Modern)
    (hmin : (c t).time + 256 < (d t).time) (hmax : (d t).time + 256 < (c t).time + 2 ^ 32)
    (hg : initGenerators n (fun t => timeStamp fl (some (c t)) junk) noSeed = .ok g)
    (hg' : initGenerators m (fun t => timeStamp fl (some (d t)) junk) noSeed = .ok g')
    (hx : g[t]? = some x) (hy : g'[t]? = some y) : ∃ k < 4, draw x k ≠ draw y k := by
  refine seeds_distinct ?_ hg hg' hx hy
  obtain ⟨k1, e1, a1, a2, -⟩ := stamp_grid h hc
  obtain ⟨k2, e2, b1, b2, -⟩ := stamp_grid h hd
  change (stampOf fl (c t)).toNat % 2 ^ 32 ≠ (stampOf fl (d t)).toNat % 2 ^ 32
  rw [e1, e2]
  omega

/-- Non-vacuity: two readings one microsecond apart. -/
example : Timespec.Modern ⟨1757635200, 5⟩ ∧ Timespec.Modern ⟨1757635200, 1005⟩ ∧
    Timespec.time ⟨1757635200, 5⟩ + 256 < Timespec.time ⟨1757635200, 1005⟩ ∧
    Timespec.time ⟨1757635200, 1005⟩ + 256 < Timespec.time ⟨1757635200, 5⟩ + 2 ^ 32 := by
  refine ⟨⟨?_, ?_, ?_⟩, ⟨?_, ?_, ?_⟩, ?_, ?_⟩ <;> norm_num [Timespec.time]

/-- **C71 fails**: two runs about 18 minutes apart that use the same random numbers in every thread (the upper half of
the seed is mixed into its lower half by an inclusive or). -/
theorem time_seed_collision_later (h : Nearest 53 fl) (n : ℕ) (junk : Timespec) :
    ∃ c d : Timespec, c.Modern ∧ d.Modern ∧ c.time + 2 ^ 40 = d.time ∧
      initGenerators n (fun _ => timeStamp fl (some c) junk) noSeed =
        initGenerators n (fun _ => timeStamp fl (some d) junk) noSeed := by
  have hc : Timespec.Modern ⟨1759218608, 736567040⟩ := by refine ⟨?_, ?_, ?_⟩ <;> norm_num [Timespec.time]
  have hd : Timespec.Modern ⟨1759219708, 248194816⟩ := by refine ⟨?_, ?_, ?_⟩ <;> norm_num [Timespec.time]
  refine ⟨_, _, hc, hd, by norm_num [Timespec.time], ?_⟩
  have key : ∀ c : Timespec, c.Modern → c.time % 256 = 0 → timeStamp fl (some c) junk = BitVec.ofNat 64 c.time := by
    intro c hc h0
    obtain ⟨m, hm, h1, h2, -⟩ := stamp_grid h hc
    show stampOf fl c = _
    apply BitVec.eq_of_toNat_eq
    have h3 : 256 * m = c.time := by omega
    have := hc.high
    rw [hm, BitVec.toNat_ofNat, Nat.mod_eq_of_lt, h3]
    norm_num at this ⊢
    omega
  rw [key _ hc (by norm_num [Timespec.time]), key _ hd (by norm_num [Timespec.time])]
  have : splitMixInit (BitVec.ofNat 64 (Timespec.time ⟨1759218608, 736567040⟩)) noSeed =
      splitMixInit (BitVec.ofNat 64 (Timespec.time ⟨1759219708, 248194816⟩)) noSeed := by decide +kernel
  unfold initGenerators Xoshiro.construct
  simp only [this]

/-- **C71 fails**: if the clock cannot be read, the mark 1 of the error is overwritten: the seed is that of a reading of
whatever the variable happened to contain, and never the mark if that looks like a time. -/
theorem clock_error_overwritten (h : Nearest 53 fl) {junk : Timespec} (hj : junk.Modern) (other : Timespec) :
    timeStamp fl none junk = timeStamp fl (some junk) other ∧ timeStamp fl none junk ≠ 1#64 := by
  refine ⟨rfl, fun e => ?_⟩
  have := time_stamp_low_byte_zero h hj junk
  have e' : timeStamp fl (some junk) junk = 1#64 := e
  rw [e'] at this
  simp at this

/-- **C71 on Windows, the part that holds.**  The counter is used without rounding: two readings of it less than `2^32`
ticks apart give every thread streams that differ within their first four numbers, and so do a failure of the counter
and any reading that is not 1 in its low half.  Missing: readings further apart, see `windows_seed_collision`. -/
theorem windows_seed_distinct_partial {a b : ℕ → Option (BitVec 64)} {n m t : ℕ} {g g' : Array Xoshiro} {x y : Xoshiro}
    (hab : (∃ i j : BitVec 64, a t = some i ∧ b t = some j ∧ i.toNat < j.toNat ∧ j.toNat < i.toNat + 2 ^ 32) ∨
      (a t = none ∧ ∃ j : BitVec 64, b t = some j ∧ j.toNat % 2 ^ 32 ≠ 1))
    (hg : initGenerators n (fun t => timeStampWindows (a t)) noSeed = .ok g)
    (hg' : initGenerators m (fun t => timeStampWindows (b t)) noSeed = .ok g')
    (hx : g[t]? = some x) (hy : g'[t]? = some y) : ∃ k < 4, draw x k ≠ draw y k := by
  refine seeds_distinct ?_ hg hg' hx hy
  rcases hab with ⟨i, j, ha, hb, h1, h2⟩ | ⟨ha, j, hb, hj⟩
  · simp only [ha, hb, timeStampWindows]
    omega
  · simp only [ha, hb, timeStampWindows]
    exact fun h => hj h.symm

/-- Non-vacuity: two readings one tick apart, and a failure beside a reading. -/
example : ((∃ i j : BitVec 64, some 7#64 = some i ∧ some 8#64 = some j ∧ i.toNat < j.toNat ∧
    j.toNat < i.toNat + 2 ^ 32)) ∧ (∃ j : BitVec 64, some 8#64 = some j ∧ j.toNat % 2 ^ 32 ≠ 1) :=
  ⟨⟨_, _, rfl, rfl, by decide, by decide⟩, _, rfl, by decide⟩

/-- **C71 fails on Windows**: two readings of the counter `2^32` ticks apart (seven minutes at ten million ticks a
second) give every thread the same random numbers whenever the bit of the seed that tells them apart is also set by the
low half. -/
theorem windows_seed_collision (n : ℕ) : ∃ i j : BitVec 64, i.toNat + 2 ^ 32 = j.toNat ∧
    initGenerators n (fun _ => timeStampWindows (some i)) noSeed =
      initGenerators n (fun _ => timeStampWindows (some j)) noSeed := by
  refine ⟨1#64, 4294967297#64, by decide, ?_⟩
  have : splitMixInit (timeStampWindows (some 1#64)) noSeed =
      splitMixInit (timeStampWindows (some 4294967297#64)) noSeed := by decide +kernel
  unfold initGenerators Xoshiro.construct
  simp only [this]

/-- **C71 fails on Windows for errors**: a failure of the counter is not noticed: it gives the random numbers of the
reading 1. -/
theorem windows_error_unnoticed (n : ℕ) :
    initGenerators n (fun _ => timeStampWindows none) noSeed =
      initGenerators n (fun _ => timeStampWindows (some 1#64)) noSeed := rfl

end Imate.Props
