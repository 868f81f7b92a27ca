import Verif.Lemmas.RandomArray
import Verif.Spec.Random
set_option linter.unusedSectionVars false

/-!
# Properties C07–C10: random vectors, generator period, thread streams, seeds
-/

namespace Imate.Props
open Imate.Random Imate.Spec Function

theorem stateAfter_eq (x : Xoshiro) (k : ℕ) : stateAfter x k = Xoshiro.step^[k] x := by
  induction k with
  | zero => rfl
  | succ k ih => rw [stateAfter, ih, iterate_succ_apply']; rfl

theorem draw_eq (x : Xoshiro) (k : ℕ) : draw x k = nthDraw x k := by
  rw [draw, stateAfter_eq]; rfl

theorem initGenerators_get {numThreads : ℕ} {clock : ℕ → BitVec 64} {seed : BitVec 64}
    {g : Array Xoshiro} (h : initGenerators numThreads clock seed = .ok g) :
    0 < numThreads ∧ g.size = numThreads ∧ ∀ t < numThreads,
      g[t]? = some (stateAfter (Xoshiro.construct (clock t) seed) ((t + 1) * 2 ^ 128)) := by
  unfold initGenerators at h
  split at h
  · simp at h
  · rename_i h0
    simp only [Except.ok.injEq] at h
    subst h
    refine ⟨by omega, by simp, ?_⟩
    intro t ht
    rw [stateAfter_eq, ← GF2.jumpTimes_eq]
    simp [ht]

/-! ## C07 -/

/-- **C07.** Generating a vector of size `n` with the generator of thread `t` succeeds for every `n`
and every generator state; entry `k < n` is `+1` or `-1` according to bit `k mod 64` of draw
`k / 64`; nothing at or beyond `n` is modified; exactly `n/64 + 1` numbers are consumed, all from
generator `t`. -/
theorem random_vector_rademacher {K : Type} [OfNat K 1] [Neg K] (g : Array Xoshiro) (t : ℕ)
    (x : Xoshiro) (hx : g[t]? = some x) (array : Array K) (n : ℕ) (hn : n ≤ array.size) :
    ∃ a g', generateArray (fun g => generatorNext g t) g array n = .ok (a, g') ∧
      a.size = array.size ∧
      (∀ k < n, a[k]? = some (if (draw x (k / 64)).getLsbD (k % 64) then 1 else -1)) ∧
      (∀ k, n ≤ k → a[k]? = array[k]?) ∧
      (∀ u, g'[u]? = if u = t then some (stateAfter x (n / 64 + 1)) else g[u]?) := by
  obtain ⟨a, g', h1, h2, -, h4, h5⟩ := generateArray_eq (K := K) hx array n hn
  refine ⟨a, g', h1, h2, ?_, ?_, ?_⟩
  · intro k hk
    rw [h4 k, if_pos hk, draw_eq]; rfl
  · intro k hk
    rw [h4 k, if_neg (by omega)]
  · intro u
    rw [h5 u, stateAfter_eq]

example : ∃ x, (#[⟨1, 2, 3, 4⟩] : Array Xoshiro)[0]? = some x ∧ 70 ≤ (Array.replicate 70 (0 : ℤ)).size :=
  ⟨_, rfl, by simp⟩

/-- **C07, parallel form.** For every interleaving of the threads of the parallel region (and every
assignment of chunks to threads), all `n` entries of the vector are `+1` or `-1` and nothing
beyond is modified. -/
theorem random_vector_parallel_rademacher {K : Type} [OfNat K 1] [Neg K] (g : Array Xoshiro)
    (array : Array K) (n numThreads : ℕ) (hg : g.size = numThreads) (hpos : 0 < numThreads)
    (hn : n ≤ array.size) (owner : ℕ → ℕ) (howner : ∀ i < n / 64, owner i < numThreads)
    (events : List GenEvent)
    (hev : Interleaving ((List.range numThreads).map (genProgram owner (n / 64))) events) :
    ∃ a g', generateArrayPar events g array n = .ok (a, g') ∧ a.size = array.size ∧
      (∀ k < n, a[k]? = some 1 ∨ a[k]? = some (-1)) ∧ (∀ k, n ≤ k → a[k]? = array[k]?) := by
  have hes : ∀ e ∈ events, (∀ t, e = .setTid t → t < g.size) ∧
      (∀ i, e = .chunk i → i < n / 64) := by
    intro e he
    obtain ⟨p, hp, hep⟩ := hev.mem_inv e he
    obtain ⟨u, hu, rfl⟩ := List.mem_map.1 hp
    rw [List.mem_range] at hu
    unfold genProgram at hep
    rcases List.mem_cons.1 hep with rfl | hep
    · exact ⟨fun t ht => by cases ht; omega, fun i hi => by cases hi⟩
    · obtain ⟨i, hi, rfl⟩ := List.mem_map.1 hep
      rw [List.mem_filter, List.mem_range] at hi
      exact ⟨fun t ht => (by cases ht), fun j hj => by cases hj; exact hi.1⟩
  obtain ⟨s, h1, h2, h3, h4, h5, h6⟩ := genEvents_ok n events ⟨0, g, array⟩ hn
    (by dsimp only; omega) hes
  dsimp only at h2 h3 h4 h5
  obtain ⟨x, hx⟩ : ∃ x, s.gens[s.tid]? = some x :=
    ⟨s.gens[s.tid]'(by omega), Array.getElem?_eq_getElem (by omega)⟩
  obtain ⟨g', e1, -, -⟩ := generatorNext_ok hx
  obtain ⟨a, c, f1, f2, f3⟩ := fill_tail (K := K) x.output n s.array (by omega)
  refine ⟨a, g', ?_, by omega, ?_, ?_⟩
  · simp only [generateArrayPar]
    rw [h1]
    simp only [Except.ok_bind']
    rw [e1]
    simp only [Except.ok_bind']
    rw [f1]
    rfl
  · intro k hk
    rw [f3 k]
    by_cases hk' : n / 64 * 64 ≤ k
    · rw [if_pos ⟨hk', hk⟩]
      unfold bitSign
      split
      · left; rfl
      · right; rfl
    · rw [if_neg (by omega)]
      have hc : k / 64 < n / 64 := by omega
      obtain ⟨v, hv, hs⟩ := h6 k hk (Or.inl (by
        refine hev.mem (genProgram owner (n / 64) (owner (k / 64))) ?_ _ ?_
        · exact List.mem_map.2 ⟨_, List.mem_range.2 (howner _ hc), rfl⟩
        · unfold genProgram
          refine List.mem_cons_of_mem _ (List.mem_map.2 ⟨k / 64, ?_, rfl⟩)
          rw [List.mem_filter, List.mem_range]
          exact ⟨hc, by simp⟩)) hc
      rw [hv]
      rcases hs with rfl | rfl
      · left; rfl
      · right; rfl
  · intro k hk
    rw [f3 k, if_neg (by omega), h5 k (by omega)]

/-! ## C08 -/

/-- **C08.** Whatever the seed and the clock, no generator of a `RandomNumberGenerator` is ever in
the all-zero state, after any number of draws. -/
theorem generator_state_never_zero (numThreads : ℕ) (clock : ℕ → BitVec 64) (seed : BitVec 64)
    (g : Array Xoshiro) (h : initGenerators numThreads clock seed = .ok g) (t : ℕ) (x : Xoshiro)
    (hx : g[t]? = some x) (k : ℕ) : stateAfter x k ≠ ⟨0, 0, 0, 0⟩ := by
  obtain ⟨-, hsz, hget⟩ := initGenerators_get h
  have ht : t < numThreads := by
    by_contra hh
    rw [Array.getElem?_eq_none (by omega)] at hx
    simp at hx
  rw [hget t ht, Option.some.injEq] at hx
  subst hx
  intro h0
  rw [stateAfter_eq, stateAfter_eq] at h0
  exact GF2.construct_ne_zero _ _ (Xoshiro.iter_eq_zero _ _ (Xoshiro.iter_eq_zero _ _ h0))

/-- **C08.** The state sequence of every generator is purely periodic with period exactly
`2^256 - 1`. -/
theorem generator_state_period (numThreads : ℕ) (clock : ℕ → BitVec 64) (seed : BitVec 64)
    (g : Array Xoshiro) (h : initGenerators numThreads clock seed = .ok g) (t : ℕ) (x : Xoshiro)
    (hx : g[t]? = some x) (k : ℕ) : stateAfter x k = x ↔ 2 ^ 256 - 1 ∣ k := by
  have hne : x ≠ Xoshiro.zero := generator_state_never_zero numThreads clock seed g h t x hx 0
  rw [stateAfter_eq]
  have := isPeriodicPt_iff_minimalPeriod_dvd (f := Xoshiro.step) (x := x) (n := k)
  rw [GF2.minimalPeriod_of_ne_zero hne] at this
  exact this

/-- **C08.** The sequence of numbers drawn has period exactly `2^256 - 1` as well. -/
theorem generator_output_period (numThreads : ℕ) (clock : ℕ → BitVec 64) (seed : BitVec 64)
    (g : Array Xoshiro) (h : initGenerators numThreads clock seed = .ok g) (t : ℕ) (x : Xoshiro)
    (hx : g[t]? = some x) (k : ℕ) :
    (∀ i, draw x (i + k) = draw x i) ↔ 2 ^ 256 - 1 ∣ k := by
  rw [← generator_state_period numThreads clock seed g h t x hx k, stateAfter_eq]
  constructor
  · intro hd
    apply GF2.observable
    intro i _
    have := hd i
    simp only [draw_eq, nthDraw, iterate_add_apply] at this
    exact this
  · intro hp i
    simp only [draw_eq, nthDraw, iterate_add_apply]
    rw [hp]

/-- Every nonzero state is reached from every other: the generator visits all `2^256 - 1` nonzero
states. -/
theorem generator_visits_all (x y : Xoshiro) (hx : x ≠ ⟨0, 0, 0, 0⟩) (hy : y ≠ ⟨0, 0, 0, 0⟩) :
    ∃ k < 2 ^ 256 - 1, stateAfter x k = y := by
  obtain ⟨i, hi, rfl⟩ := GF2.exists_iter_v0 hx
  obtain ⟨j, hj, rfl⟩ := GF2.exists_iter_v0 hy
  simp only [stateAfter_eq]
  refine ⟨(j + (GF2.N - i)) % GF2.N, Nat.mod_lt _ (by norm_num [GF2.N]), ?_⟩
  have hmod : ∀ m, Xoshiro.step^[m % GF2.N] (Xoshiro.step^[i] GF2.v0)
      = Xoshiro.step^[m] (Xoshiro.step^[i] GF2.v0) := by
    intro m
    have hp : IsPeriodicPt Xoshiro.step GF2.N (Xoshiro.step^[i] GF2.v0) :=
      IsPeriodicPt.apply_iterate GF2.iter_N_v0 i
    exact hp.iterate_mod_apply m
  rw [hmod, ← iterate_add_apply]
  have : j + (GF2.N - i) + i = j + GF2.N := by omega
  rw [this, iterate_add_apply, GF2.iter_N_v0]

example : initGenerators 2 (fun _ => 0) 7#64 =
    .ok #[jumpTimes 1 (Xoshiro.construct 0 7#64), jumpTimes 2 (Xoshiro.construct 0 7#64)] := rfl

/-! ## C09 -/

/-- `jump` advances the generator by exactly `2^128` draws, for every state. -/
theorem jump_advances (x : Xoshiro) : x.jump = stateAfter x (2 ^ 128) := by
  rw [GF2.jump_eq, stateAfter_eq]

/-- `long_jump` advances the generator by exactly `2^192` draws, for every state. -/
theorem long_jump_advances (x : Xoshiro) : x.longJump = stateAfter x (2 ^ 192) := by
  rw [GF2.longJump_eq, stateAfter_eq]

/-- **C09.** The generator of thread `t` starts `(t+1)·2^128` draws after the seeded state. -/
theorem thread_start (numThreads : ℕ) (clock : ℕ → BitVec 64) (seed : BitVec 64)
    (g : Array Xoshiro) (h : initGenerators numThreads clock seed = .ok g) (t : ℕ)
    (ht : t < numThreads) :
    g[t]? = some (stateAfter (Xoshiro.construct (clock t) seed) ((t + 1) * 2 ^ 128)) :=
  (initGenerators_get h).2.2 t ht

/-- **C09.** With a non-negative seed, the states visited by two different threads are disjoint as
long as each makes fewer than `2^128` draws. -/
theorem threads_disjoint (numThreads : ℕ) (clock : ℕ → BitVec 64) (seed : BitVec 64)
    (hseed : 0 ≤ seed.toInt) (g : Array Xoshiro)
    (h : initGenerators numThreads clock seed = .ok g) (hT : numThreads < 2 ^ 128 - 1)
    (t u : ℕ) (x y : Xoshiro) (hx : g[t]? = some x) (hy : g[u]? = some y) (htu : t ≠ u)
    (i j : ℕ) (hi : i < 2 ^ 128) (hj : j < 2 ^ 128) : stateAfter x i ≠ stateAfter y j := by
  obtain ⟨-, hsz, hget⟩ := initGenerators_get h
  have ht : t < numThreads := by
    by_contra hh
    rw [Array.getElem?_eq_none (by omega)] at hx
    simp at hx
  have hu : u < numThreads := by
    by_contra hh
    rw [Array.getElem?_eq_none (by omega)] at hy
    simp at hy
  rw [hget t ht, Option.some.injEq] at hx
  rw [hget u hu, Option.some.injEq] at hy
  subst hx hy
  have hc : Xoshiro.construct (clock t) seed = Xoshiro.construct (clock u) seed := by
    unfold Xoshiro.construct splitMixInit
    simp [hseed]
  simp only [stateAfter_eq, hc, ← iterate_add_apply]
  intro he
  set z := Xoshiro.construct (clock u) seed with hz
  have hmp := GF2.minimalPeriod_of_ne_zero (GF2.construct_ne_zero (clock u) seed)
  have hlt : ∀ (a k : ℕ), a < numThreads → k < 2 ^ 128 → k + (a + 1) * 2 ^ 128 < GF2.N := by
    intro a k ha hk
    have h1 : (a + 1 + 1) * 2 ^ 128 ≤ (2 ^ 128 - 1) * 2 ^ 128 := Nat.mul_le_mul_right _ (by omega)
    have h2 : (2 ^ 128 - 1) * 2 ^ 128 < GF2.N := by norm_num [GF2.N]
    have h3 : (a + 1 + 1) * 2 ^ 128 = (a + 1) * 2 ^ 128 + 2 ^ 128 := Nat.succ_mul _ _
    omega
  have := iterate_injOn_Iio_minimalPeriod (f := Xoshiro.step) (x := z)
    (by rw [Set.mem_Iio, hmp]; exact hlt t i ht hi) (by rw [Set.mem_Iio, hmp]; exact hlt u j hu hj) he
  omega

example : (0 : ℤ) ≤ (7#64).toInt ∧ (2 : ℕ) < 2 ^ 128 - 1 := by decide

/-! ## C10 -/

/-- A generator object needs at least one thread. -/
theorem generators_need_thread (clock : ℕ → BitVec 64) (seed : BitVec 64) :
    initGenerators 0 clock seed = .error .abort := rfl

/-- **C10, determinism.** With a non-negative seed the generator of thread `t`, hence all its draws,
does not depend on the clock or on the number of threads. -/
theorem seed_determines_stream (n m : ℕ) (clock clock' : ℕ → BitVec 64) (seed : BitVec 64)
    (hseed : 0 ≤ seed.toInt) (g g' : Array Xoshiro) (h : initGenerators n clock seed = .ok g)
    (h' : initGenerators m clock' seed = .ok g') (t : ℕ) (htn : t < n) (htm : t < m) :
    g[t]? = g'[t]? := by
  rw [(initGenerators_get h).2.2 t htn, (initGenerators_get h').2.2 t htm]
  unfold Xoshiro.construct splitMixInit
  simp [hseed]

theorem init_injective {a b : BitVec 64} (ha : a.toNat < 2 ^ 32) (hb : b.toNat < 2 ^ 32)
    (h : (a <<< 32) ||| a = (b <<< 32) ||| b) : a = b := by
  apply BitVec.eq_of_getLsbD_eq
  intro i hi
  by_cases h32 : i < 32
  · have := congrArg (fun v => BitVec.getLsbD v i) h
    simpa [h32] using this
  · have ha' : a.getLsbD i = false := by
      rw [BitVec.getLsbD]
      exact Nat.testBit_lt_two_pow (lt_of_lt_of_le ha (Nat.pow_le_pow_right (by omega) (by omega)))
    have hb' : b.getLsbD i = false := by
      rw [BitVec.getLsbD]
      exact Nat.testBit_lt_two_pow (lt_of_lt_of_le hb (Nat.pow_le_pow_right (by omega) (by omega)))
    rw [ha', hb']

/-- **C10, distinctness (partial: seeds below `2^32`).** Two different seeds below `2^32` give, for
every thread, streams that already differ within the first four numbers.  Missing: larger seeds,
for which the statement is false, see `seed_collision`. -/
theorem distinct_seeds_partial (n m : ℕ) (clock clock' : ℕ → BitVec 64) (seed seed' : BitVec 64)
    (hs : seed.toNat < 2 ^ 32) (hs' : seed'.toNat < 2 ^ 32) (hne : seed ≠ seed')
    (g g' : Array Xoshiro) (h : initGenerators n clock seed = .ok g)
    (h' : initGenerators m clock' seed' = .ok g') (t : ℕ) (x y : Xoshiro) (hx : g[t]? = some x)
    (hy : g'[t]? = some y) : ∃ k < 4, draw x k ≠ draw y k := by
  by_contra hcon
  push Not at hcon
  obtain ⟨-, hsz, hget⟩ := initGenerators_get h
  obtain ⟨-, hsz', hget'⟩ := initGenerators_get h'
  have ht : t < n := by
    by_contra hh
    rw [Array.getElem?_eq_none (by omega)] at hx
    simp at hx
  have hu : t < m := by
    by_contra hh
    rw [Array.getElem?_eq_none (by omega)] at hy
    simp at hy
  have hxy : x = y := GF2.observable (fun i hi => by
    have := hcon i hi
    rwa [draw_eq, draw_eq] at this)
  rw [hget t ht, Option.some.injEq] at hx
  rw [hget' t hu, Option.some.injEq] at hy
  rw [← hx, ← hy, stateAfter_eq, stateAfter_eq] at hxy
  have hc := GF2.construct_injective_init (GF2.step_iter_injective _ hxy)
  have hpos : ∀ s : BitVec 64, s.toNat < 2 ^ 32 → 0 ≤ s.toInt := by
    intro s hs
    rw [BitVec.toInt_eq_toNat_of_lt (by omega)]
    omega
  unfold splitMixInit at hc
  rw [if_pos (hpos _ hs), if_pos (hpos _ hs')] at hc
  exact hne (init_injective hs hs' hc)

example : (3#64).toNat < 2 ^ 32 ∧ (4#64).toNat < 2 ^ 32 ∧ (3#64) ≠ (4#64) := by decide

/-- **C10 fails for large seeds**: the accepted seeds `1` and `2^32 + 1` give identical streams in
every thread. -/
theorem seed_collision (n : ℕ) (clock clock' : ℕ → BitVec 64) :
    initGenerators n clock 1#64 = initGenerators n clock' 4294967297#64 ∧
      (1#64 : BitVec 64) ≠ 4294967297#64 := by
  refine ⟨?_, by decide⟩
  unfold initGenerators Xoshiro.construct
  have : ∀ c c' : BitVec 64, splitMixInit c 1#64 = splitMixInit c' 4294967297#64 := by
    intro c c'
    unfold splitMixInit
    rw [if_pos (by decide), if_pos (by decide)]
    decide
  simp only [this _ (0 : BitVec 64)]
  have h2 : ∀ c : BitVec 64, splitMixInit c 4294967297#64 = splitMixInit 0 4294967297#64 := by
    intro c
    unfold splitMixInit
    rw [if_pos (by decide), if_pos (by decide)]
  simp only [h2]

set_option maxRecDepth 100000 in
/-- **C10 fails for the multi-threaded vector generator** (used by the Hutchinson method): with seed
`0` and two threads, two interleavings of the parallel region give different vectors, because
`thread_id` is shared by the threads. -/
theorem parallel_vector_depends_on_schedule (clock : ℕ → BitVec 64) :
    ∃ g, initGenerators 2 clock 0#64 = .ok g ∧
    ∃ es es', Interleaving ((List.range 2).map (genProgram (fun _ => 0) (1 / 64))) es ∧
      Interleaving ((List.range 2).map (genProgram (fun _ => 0) (1 / 64))) es' ∧
      (generateArrayPar es g #[(0 : ℤ)] 1).map Prod.fst = .ok #[1] ∧
      (generateArrayPar es' g #[(0 : ℤ)] 1).map Prod.fst = .ok #[-1] := by
  have hclock : initGenerators 2 clock 0#64 = initGenerators 2 (fun _ => 0) 0#64 := rfl
  refine ⟨#[jumpTimes 1 (Xoshiro.construct 0 0#64), jumpTimes 2 (Xoshiro.construct 0 0#64)],
    hclock, [.setTid 0, .setTid 1], [.setTid 1, .setTid 0], ?_, ?_, ?_, ?_⟩
  · refine Interleaving.step (t := 0) rfl (Interleaving.step (t := 1) rfl (Interleaving.done ?_))
    decide
  · refine Interleaving.step (t := 1) rfl (Interleaving.step (t := 0) rfl (Interleaving.done ?_))
    decide
  · decide +kernel
  · decide +kernel

end Imate.Props
