import Verif.Model.SeedPath
import Verif.Props.Random
import Verif.Props.Args

/-!
# C10, from the argument `seed` to the streams of random numbers

The documentation of all methods: `seed` is a non-negative integer; `None` or a negative integer means that the clock is
used.
-/

namespace Imate.Props

open Imate.Args Imate.SeedPath Imate.Random Imate.Spec

/-- The seed a Python value stands for: an integer, or nothing. -/
def seedValue : PyVal → Option (Option ℤ)
  | .none => some none
  | .bool b => some (some (if b then 1 else 0))
  | .int z => some (some z)
  | .npInt z => some (some z)
  | _ => none

/-- C10: which seeds the SLQ methods accept, and which number arrives at the generators. -/
theorem slq_seed_arrives (v : PyVal) :
    slqSeed v = match seedValue v with
      | none => .error .typeError
      | some none => .ok (BitVec.ofInt 64 (-1))
      | some (some z) => if -2 ^ 63 ≤ z ∧ z < 2 ^ 63 then .ok (BitVec.ofInt 64 z) else .error .overflowError := by
  have key : ∀ (z : ℤ) (w : PyVal), w.isInteger = true → w.intValue = z →
      (toCInt 64 w >>= fun s => Except.ok (ε := PyExc) (BitVec.ofInt 64 s)) =
        if -2 ^ 63 ≤ z ∧ z < 2 ^ 63 then .ok (BitVec.ofInt 64 z) else .error .overflowError := by
    intro z w h1 h2
    unfold toCInt
    rw [if_pos h1, h2]
    show (if -2 ^ 63 ≤ z ∧ z < 2 ^ 63 then _ else _ : Except PyExc ℤ) >>= _ = _
    split <;> rfl
  cases v with
  | none => exact key (-1) (.int (-1)) rfl rfl
  | bool b => exact key _ (.bool b) rfl rfl
  | int z => exact key z (.int z) rfl rfl
  | npInt z => exact key z (.npInt z) rfl rfl
  | other s => cases s <;> rfl
  | npBool b => rfl
  | float x => rfl
  | npFloat x => rfl
  | complex => rfl
  | str s => rfl
  | array d n e => rfl
  | list c => rfl
  | tuple n => rfl

/-- C10: which seeds the Hutchinson method accepts, and which number arrives at the generators. -/
theorem hutch_seed_arrives (v : PyVal) :
    hutchSeed v = match seedValue v with
      | none => .error .typeError
      | some none => .ok (BitVec.ofInt 64 (-1))
      | some (some z) => if -2 ^ 31 ≤ z ∧ z < 2 ^ 31 then .ok (BitVec.ofInt 64 z) else .error .overflowError := by
  have ext : ∀ z : ℤ, -2 ^ 31 ≤ z → z < 2 ^ 31 → (BitVec.ofInt 32 z).toInt = z := by
    intro z h1 h2
    rw [BitVec.toInt_ofInt]
    apply Int.bmod_eq_of_le <;> norm_num at * <;> omega
  have key : ∀ (z : ℤ) (w : PyVal), w.isInteger = true → w.intValue = z →
      (toCInt 32 w >>= fun s => Except.ok (ε := PyExc) (BitVec.ofInt 64 (BitVec.ofInt 32 s).toInt)) =
        if -2 ^ 31 ≤ z ∧ z < 2 ^ 31 then .ok (BitVec.ofInt 64 z) else .error .overflowError := by
    intro z w h1 h2
    unfold toCInt
    rw [if_pos h1, h2]
    show (if -2 ^ 31 ≤ z ∧ z < 2 ^ 31 then _ else _ : Except PyExc ℤ) >>= _ = _
    split
    · next h => show Except.ok _ = _; rw [ext z h.1 h.2]
    · rfl
  cases v with
  | none => exact key (-1) (.int (-1)) rfl rfl
  | bool b => exact key _ (.bool b) rfl rfl
  | int z => exact key z (.int z) rfl rfl
  | npInt z => exact key z (.npInt z) rfl rfl
  | other s => cases s <;> rfl
  | npBool b => rfl
  | float x => rfl
  | npFloat x => rfl
  | complex => rfl
  | str s => rfl
  | array d n e => rfl
  | list c => rfl
  | tuple n => rfl

/-- The path of the seed is that of the model of `trace_estimator`. -/
theorem slq_seed_native {maxThreads : ℕ} {A : Operand} {parameters : PyVal} {a : Arguments} {p : Prepared}
    (h : prepare maxThreads A parameters a = .ok p) : slqSeed a.seed = .ok (BitVec.ofInt 64 p.native.seed) := by
  have split : ∀ {α β : Type} {x : Except PyExc α} {f : α → Except PyExc β} {y : β}, (x >>= f) = .ok y →
      ∃ a, x = .ok a ∧ f a = .ok y := by
    intro α β x f y h
    cases x with
    | error e => cases h
    | ok a => exact ⟨a, rfl, h⟩
  unfold prepare at h
  obtain ⟨_, _, h⟩ := split h
  obtain ⟨op, _, h⟩ := split h
  obtain ⟨_, _, h⟩ := split h
  obtain ⟨_, _, h⟩ := split h
  obtain ⟨⟨_, _⟩, hc, h⟩ := split h
  obtain ⟨native, hn, h⟩ := split h
  have hs : checkSeed a.seed = .ok () := by
    unfold checkArguments at hc
    iterate 13 obtain ⟨_, _, hc⟩ := split hc
    obtain ⟨u, hu, _⟩ := split hc
    exact hu
  have ht : toCInt 64 (defaultSeed a.seed) = .ok native.seed := by
    unfold toNative at hn
    iterate 2 obtain ⟨_, _, hn⟩ := split hn
    obtain ⟨z, hz, hn⟩ := split hn
    iterate 10 obtain ⟨_, _, hn⟩ := split hn
    injection hn with hn
    rw [← hn]
    exact hz
  injection h with h
  unfold slqSeed
  rw [hs]
  show (toCInt 64 (defaultSeed a.seed) >>= _) = _
  rw [ht, ← h]
  rfl

/-- C10 refuted: the documentation allows every non-negative integer, but the Hutchinson method raises `OverflowError`
for every seed from `2^31` on, and the SLQ methods for every seed from `2^63` on. -/
theorem large_seed_refused (z : ℤ) :
    (2 ^ 31 ≤ z → hutchSeed (.int z) = .error .overflowError) ∧
    (2 ^ 63 ≤ z → slqSeed (.int z) = .error .overflowError) := by
  rw [slq_seed_arrives, hutch_seed_arrives]
  constructor
  · intro h; simp only [seedValue]; rw [if_neg]; omega
  · intro h; simp only [seedValue]; rw [if_neg]; omega

/-- C10: with a non-negative seed that fits both methods, they give their generators the same number, and the generator
of every thread is the same whatever the clock. -/
theorem same_seed_same_generators {z : ℤ} (h0 : 0 ≤ z) (h1 : z < 2 ^ 31) :
    ∃ s, slqSeed (.int z) = .ok s ∧ hutchSeed (.int z) = .ok s ∧ s.toInt = z ∧
      ∀ (n m : ℕ) (clock clock' : ℕ → BitVec 64) (g g' : Array Xoshiro), initGenerators n clock s = .ok g →
        initGenerators m clock' s = .ok g' → ∀ t, t < n → t < m → g[t]? = g'[t]? := by
  have hz : (BitVec.ofInt 64 z).toInt = z := by
    rw [BitVec.toInt_ofInt]
    apply Int.bmod_eq_of_le <;> norm_num at * <;> omega
  refine ⟨BitVec.ofInt 64 z, ?_, ?_, hz, ?_⟩
  · rw [slq_seed_arrives]; simp only [seedValue]; rw [if_pos]; constructor <;> omega
  · rw [hutch_seed_arrives]; simp only [seedValue]; rw [if_pos]; constructor <;> omega
  · intro n m clock clock' g g' h h' t hn hm
    exact seed_determines_stream n m clock clock' _ (by rw [hz]; exact h0) g g' h h' t hn hm

/-- C10: `None` and every negative seed that is accepted mean the clock. -/
theorem negative_seed_clock {v : PyVal} (hv : seedValue v = some none ∨ ∃ z < 0, seedValue v = some (some z))
    {s : BitVec 64} (h : slqSeed v = .ok s ∨ hutchSeed v = .ok s) (n : ℕ) (clock : ℕ → BitVec 64) :
    initGenerators n clock s = initGenerators n clock (BitVec.ofInt 64 (-1)) := by
  have hneg : s.toInt < 0 := by
    have key : ∀ z : ℤ, -2 ^ 63 ≤ z → z < 0 → (BitVec.ofInt 64 z).toInt < 0 := by
      intro z h1 h2
      rw [BitVec.toInt_ofInt, Int.bmod_eq_of_le] <;> norm_num at * <;> omega
    rw [slq_seed_arrives, hutch_seed_arrives] at h
    rcases hv with hv | ⟨z, hz, hv⟩ <;> rw [hv] at h
    · rcases h with h | h <;> (injection h with h; subst h; exact key _ (by norm_num) (by norm_num))
    · simp only at h
      rcases h with h | h <;> split at h
      · next hb => injection h with h; subst h; exact key z hb.1 hz
      · simp at h
      · next hb => injection h with h; subst h; exact key z (by have := hb.1; omega) hz
      · simp at h
  unfold initGenerators Xoshiro.construct splitMixInit
  have h1 : ¬ 0 ≤ s.toInt := by omega
  have h2 : ¬ 0 ≤ (BitVec.ofInt 64 (-1)).toInt := by decide
  simp only [if_neg h1, if_neg h2]

/-- C10: two different seeds the Hutchinson method accepts give, in every thread, different streams. -/
theorem hutch_distinct_seeds {z z' : ℤ} (h0 : 0 ≤ z) (h0' : 0 ≤ z') (hne : z ≠ z') {s s' : BitVec 64}
    (hs : hutchSeed (.int z) = .ok s) (hs' : hutchSeed (.int z') = .ok s') (n m : ℕ) (clock clock' : ℕ → BitVec 64)
    (g g' : Array Xoshiro) (h : initGenerators n clock s = .ok g) (h' : initGenerators m clock' s' = .ok g') (t : ℕ)
    (x y : Xoshiro) (hx : g[t]? = some x) (hy : g'[t]? = some y) : ∃ k < 4, draw x k ≠ draw y k := by
  have key : ∀ {z : ℤ} {s : BitVec 64}, 0 ≤ z → hutchSeed (.int z) = .ok s → s.toNat < 2 ^ 32 ∧ s.toInt = z := by
    intro z s h0 hs
    rw [hutch_seed_arrives] at hs
    simp only [seedValue] at hs
    split at hs
    · next hb =>
      injection hs with hs
      subst hs
      constructor
      · rw [BitVec.toNat_ofInt]; norm_num at *; omega
      · rw [BitVec.toInt_ofInt]
        apply Int.bmod_eq_of_le <;> norm_num at * <;> omega
    · simp at hs
  obtain ⟨a, b⟩ := key h0 hs
  obtain ⟨a', b'⟩ := key h0' hs'
  refine distinct_seeds_partial n m clock clock' s s' a a' ?_ g g' h h' t x y hx hy
  rintro rfl
  exact hne (b.symm.trans b')

/-- C10: exactly which non-negative seeds give the same generators: those that agree in the low 32 bits and in the
union of the high and the low 32 bits. -/
theorem same_generators_iff (s s' : BitVec 64) (h0 : 0 ≤ s.toInt) (h0' : 0 ≤ s'.toInt) (n : ℕ) (hn : 0 < n)
    (clock clock' : ℕ → BitVec 64) :
    initGenerators n clock s = initGenerators n clock' s' ↔
      s.setWidth 32 = s'.setWidth 32 ∧
        ((s >>> 32).setWidth 32 ||| s.setWidth 32) = ((s' >>> 32).setWidth 32 ||| s'.setWidth 32) := by
  have init : splitMixInit (clock 0) s = splitMixInit (clock' 0) s' ↔
      s.setWidth 32 = s'.setWidth 32 ∧
        ((s >>> 32).setWidth 32 ||| s.setWidth 32) = ((s' >>> 32).setWidth 32 ||| s'.setWidth 32) := by
    unfold splitMixInit
    rw [if_pos h0, if_pos h0']
    constructor
    · intro h
      have bit := fun i => congrArg (fun v => BitVec.getLsbD v i) h
      constructor
      · apply BitVec.eq_of_getLsbD_eq
        intro i hi
        have := bit i
        simp only [BitVec.getLsbD_or, BitVec.getLsbD_shiftLeft] at this
        simp [hi] at this ⊢
        exact this
      · apply BitVec.eq_of_getLsbD_eq
        intro i hi
        have := bit (32 + i)
        simp only [BitVec.getLsbD_or, BitVec.getLsbD_shiftLeft] at this
        have h1 : 32 + i < 64 := by omega
        simp [h1, hi] at this ⊢
        rw [Bool.or_comm, this, Bool.or_comm]
    · rintro ⟨hl, hh⟩
      have low := fun i => congrArg (fun v => BitVec.getLsbD v i) hl
      have high := fun i => congrArg (fun v => BitVec.getLsbD v i) hh
      apply BitVec.eq_of_getLsbD_eq
      intro i hi
      by_cases h32 : i < 32
      · have := low i
        simp [h32] at this ⊢
        exact this
      · obtain ⟨k, rfl⟩ : ∃ k, i = 32 + k := ⟨i - 32, by omega⟩
        have hk : k < 32 := by omega
        have := high k
        have hk' : k < 64 := by omega
        simp [hk, hi, BitVec.getLsbD_eq_getElem, hk'] at this ⊢
        rw [Bool.or_comm, this, Bool.or_comm]
  rw [← init]
  constructor
  · intro h
    obtain ⟨g, hg⟩ : ∃ g, initGenerators n clock s = .ok g := by
      unfold initGenerators; rw [if_neg hn.ne']; exact ⟨_, rfl⟩
    have hg' := h ▸ hg
    have a := (initGenerators_get hg).2.2 0 hn
    have b := (initGenerators_get hg').2.2 0 hn
    rw [a, Option.some.injEq, stateAfter_eq, stateAfter_eq] at b
    exact GF2.construct_injective_init (GF2.step_iter_injective _ b)
  · intro h
    have hc : ∀ t, splitMixInit (clock t) s = splitMixInit (clock' t) s' := by
      intro t
      have e1 : splitMixInit (clock t) s = splitMixInit (clock 0) s := by unfold splitMixInit; rw [if_pos h0, if_pos h0]
      have e2 : splitMixInit (clock' t) s' = splitMixInit (clock' 0) s' := by
        unfold splitMixInit; rw [if_pos h0', if_pos h0']
      rw [e1, e2, h]
    unfold initGenerators Xoshiro.construct
    simp only [hc]

/-- Non-vacuity: the seeds 1 and `2^32 + 1` agree in this sense, 1 and `2^33 + 1` do not. -/
example : (1#64).setWidth 32 = (4294967297#64).setWidth 32 ∧
    ((1#64 >>> 32).setWidth 32 ||| (1#64).setWidth 32 : BitVec 32) =
      ((4294967297#64 >>> 32).setWidth 32 ||| (4294967297#64).setWidth 32) ∧
    ((1#64 >>> 32).setWidth 32 ||| (1#64).setWidth 32 : BitVec 32) ≠
      ((8589934593#64 >>> 32).setWidth 32 ||| (8589934593#64).setWidth 32) := by decide

example : hutchSeed (.int 2147483647) = .ok 2147483647#64 ∧ hutchSeed (.npInt (-5)) = .ok (BitVec.ofInt 64 (-5)) :=
  ⟨by rw [hutch_seed_arrives]; rfl, by rw [hutch_seed_arrives]; rfl⟩

end Imate.Props
