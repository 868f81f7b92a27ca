import Verif.Lemmas.Estimator
import Mathlib.Tactic.Ring
import Mathlib.Tactic.Linarith
set_option linter.unusedSectionVars false
set_option linter.unusedVariables false

/-! Termination of the sampling loop, finished states, and runs with a single thread. -/

namespace Imate.Estimator
open Convergence

variable {V : Type} [FloatLike V]

/-! ### Finished states -/

theorem stepThread_none {cfg : Config V} {s : State V} {th : Thread} (h : stepThread cfg s th = none) :
    th = ⟨[], .ready⟩ ∧ cfg.maxNumSamples ≤ s.next := by
  obtain ⟨todo, pc⟩ := th
  unfold stepThread at h
  cases pc with
  | ready =>
    cases todo with
    | nil =>
      dsimp only at h
      split at h
      · simp at h
      · exact ⟨rfl, by omega⟩
    | cons i rest => dsimp only at h; split at h <;> simp at h
  | test i j seen =>
    dsimp only at h
    split at h
    · split at h <;> simp at h
    · simp at h
  | setParam i j seen => simp at h
  | lanczos i j k own seen => cases k <;> simp at h
  | reset i j seen => dsimp only at h; split at h <;> simp at h
  | quad i j seen =>
    dsimp only at h
    split at h
    · split at h <;> simp at h
    · simp at h
  | critical i => simp at h

theorem Part.finished {cfg : Config V} {s : State V} (h : Part cfg s) (hT : 0 < cfg.numThreads)
    (hf : Finished cfg s) : (s.processed ++ s.skipped).Perm (List.range cfg.maxNumSamples) := by
  have key : ∀ t (ht : t < s.threads.length), s.threads[t] = ⟨[], .ready⟩ ∧ cfg.maxNumSamples ≤ s.next := by
    intro t ht
    have h1 := hf t (by rw [← h.numThreads]; exact ht)
    unfold Estimator.step at h1
    rw [List.getElem?_eq_getElem ht] at h1
    dsimp only at h1
    split at h1
    · rename_i h2; exact stepThread_none h2
    · simp at h1
  have hnext : s.next = cfg.maxNumSamples := by
    have := (key 0 (by rw [h.numThreads]; exact hT)).2
    have := h.next_le
    omega
  have hheld : s.threads.flatMap Thread.held = [] := by
    rw [List.flatMap_eq_nil_iff]
    intro th hth
    obtain ⟨t, ht, rfl⟩ := List.mem_iff_getElem.1 hth
    rw [(key t ht).1]
    rfl
  have hp := h.perm
  rw [hheld, List.append_nil, hnext] at hp
  exact hp

/-! ### Termination -/

def baseCost (cfg : Config V) : ℕ := 2 * cfg.numInquiries + 4

def pcCost (cfg : Config V) : Pc → ℕ
  | .ready => 0
  | .test _ j _ => (cfg.required - j) * (cfg.numProducts + 3) + baseCost cfg
  | .setParam _ j _ => (cfg.required - (j + 1)) * (cfg.numProducts + 3) + cfg.numProducts + 2 + baseCost cfg
  | .lanczos _ j k _ _ => (cfg.required - (j + 1)) * (cfg.numProducts + 3) + k + 1 + baseCost cfg
  | .reset _ j _ => (cfg.numInquiries - j) + cfg.numInquiries + 3
  | .quad _ j _ => (cfg.numInquiries - j) + 2
  | .critical _ => 1

def iterCost (cfg : Config V) : ℕ := cfg.required * (cfg.numProducts + 3) + baseCost cfg + 1

def threadCost (cfg : Config V) (th : Thread) : ℕ := th.todo.length * iterCost cfg + pcCost cfg th.pc

/-- Number of actions still possible, at most. -/
def measure (cfg : Config V) (s : State V) : ℕ :=
  (cfg.maxNumSamples - s.next) * (iterCost cfg + 1) + (s.threads.map (threadCost cfg)).sum

theorem sum_map_set {α : Type} (f : α → ℕ) : ∀ (l : List α) (t : ℕ) (a b : α), l[t]? = some a →
    ((l.set t b).map f).sum + f a = (l.map f).sum + f b
  | [], t, a, b, h => by simp at h
  | x :: l, 0, a, b, h => by
    simp only [List.getElem?_cons_zero, Option.some.injEq] at h
    subst h
    simp only [List.set_cons_zero, List.map_cons, List.sum_cons]; omega
  | x :: l, t + 1, a, b, h => by
    simp only [List.getElem?_cons_succ] at h
    have := sum_map_set f l t a b h
    simp only [List.set_cons_succ, List.map_cons, List.sum_cons]; omega

theorem measure_step {cfg : Config V} {s s' : State V} {t : ℕ} (hs : step cfg s t = some s') :
    measure cfg s' < measure cfg s := by
  unfold step at hs
  split at hs
  · simp at hs
  rename_i th ht
  split at hs
  · simp at hs
  rename_i s1 th1 hst
  simp only [Option.some.injEq] at hs
  subst hs
  have hsum := sum_map_set (threadCost cfg) s.threads t th th1 ht
  suffices hsuff : (cfg.maxNumSamples - s1.next) * (iterCost cfg + 1) + threadCost cfg th1 <
      (cfg.maxNumSamples - s.next) * (iterCost cfg + 1) + threadCost cfg th by
    unfold measure
    dsimp only
    omega
  obtain ⟨todo, pc⟩ := th
  unfold stepThread at hst
  cases pc with
  | ready =>
    dsimp only at hst
    cases todo with
    | nil =>
      dsimp only at hst
      split at hst
      · rename_i hlt
        simp only [Option.some.injEq, Prod.mk.injEq] at hst
        obtain ⟨rfl, rfl⟩ := hst
        simp only [threadCost, pcCost, List.length_range', List.length_nil]
        obtain ⟨k, hk1, hk⟩ : ∃ k, 0 < k ∧ min (s.next + max 1 cfg.chunkSize) cfg.maxNumSamples = s.next + k :=
          ⟨min (s.next + max 1 cfg.chunkSize) cfg.maxNumSamples - s.next, by omega, by omega⟩
        obtain ⟨r, hr⟩ : ∃ r, cfg.maxNumSamples = s.next + k + r :=
          Nat.exists_eq_add_of_le (by omega)
        rw [hk, hr]
        have e1 : s.next + k + r - (s.next + k) = r := by omega
        have e2 : s.next + k - s.next = k := by omega
        have e3 : s.next + k + r - s.next = k + r := by omega
        rw [e1, e2, e3]
        have : (k + r) * (iterCost cfg + 1) = r * (iterCost cfg + 1) + k * iterCost cfg + k := by ring
        omega
      · simp at hst
    | cons i rest =>
      dsimp only at hst
      split at hst <;> simp only [Option.some.injEq, Prod.mk.injEq] at hst <;>
        obtain ⟨rfl, rfl⟩ := hst <;>
        simp only [threadCost, pcCost, List.length_cons, Nat.add_mul, iterCost, Nat.sub_zero] <;> omega
  | test i j seen =>
    dsimp only at hst
    split at hst
    · rename_i hlt
      have hreq : cfg.required - j = cfg.required - (j + 1) + 1 := by omega
      split at hst <;> simp only [Option.some.injEq, Prod.mk.injEq] at hst <;>
        obtain ⟨rfl, rfl⟩ := hst <;>
        simp only [threadCost, pcCost, hreq, Nat.add_mul] <;> omega
    · simp only [Option.some.injEq, Prod.mk.injEq] at hst
      obtain ⟨rfl, rfl⟩ := hst
      unfold afterLanczos
      split <;> simp only [threadCost, pcCost, baseCost] <;> omega
  | setParam i j seen =>
    simp only [Option.some.injEq, Prod.mk.injEq] at hst
    obtain ⟨rfl, rfl⟩ := hst
    simp only [threadCost, pcCost]; omega
  | lanczos i j k own seen =>
    cases k <;> simp only [Option.some.injEq, Prod.mk.injEq] at hst <;>
      obtain ⟨rfl, rfl⟩ := hst <;> simp only [threadCost, pcCost] <;> omega
  | reset i j seen =>
    dsimp only at hst
    split at hst <;> simp only [Option.some.injEq, Prod.mk.injEq] at hst <;>
      obtain ⟨rfl, rfl⟩ := hst <;> simp only [threadCost, pcCost, clearFlag] <;> omega
  | quad i j seen =>
    dsimp only at hst
    split at hst
    · split at hst <;> simp only [Option.some.injEq, Prod.mk.injEq] at hst <;>
        obtain ⟨rfl, rfl⟩ := hst <;> simp only [threadCost, pcCost] <;> omega
    · simp only [Option.some.injEq, Prod.mk.injEq] at hst
      obtain ⟨rfl, rfl⟩ := hst
      simp only [threadCost, pcCost]; omega
  | critical i =>
    simp only [Option.some.injEq, Prod.mk.injEq] at hst
    obtain ⟨rfl, rfl⟩ := hst
    simp only [threadCost, pcCost, criticalSection]; omega

theorem run_length {cfg : Config V} : ∀ (ts : List ℕ) (s s' : State V), run cfg s ts = some s' →
    ts.length + measure cfg s' ≤ measure cfg s
  | [], s, s', h => by
    simp only [run, Option.some.injEq] at h
    subst h; simp
  | t :: ts, s, s', h => by
    simp only [run, Option.bind_eq_some_iff] at h
    obtain ⟨s1, h1, h2⟩ := h
    have := measure_step h1
    have := run_length ts s1 s' h2
    simp only [List.length_cons]; omega

/-- From every state the loop can be run to completion. -/
theorem exists_finish {cfg : Config V} (s : State V) : ∃ ts s', run cfg s ts = some s' ∧ Finished cfg s' := by
  induction hm : measure cfg s using Nat.strong_induction_on generalizing s with
  | _ m ih =>
    by_cases hf : Finished cfg s
    · exact ⟨[], s, rfl, hf⟩
    · unfold Finished at hf
      push Not at hf
      obtain ⟨t, ht, hs⟩ := hf
      obtain ⟨s1, hs1⟩ := Option.ne_none_iff_exists'.1 hs
      have hlt := measure_step hs1
      obtain ⟨ts, s', h1, h2⟩ := ih (measure cfg s1) (by omega) s1 rfl
      exact ⟨t :: ts, s', by simp [run, hs1, h1], h2⟩

/-! ### Own parameter -/

/-- The operator parameter cannot be changed during a Lanczos run. -/
def Exclusive (cfg : Config V) : Prop := cfg.numThreads = 1 ∨ cfg.required ≤ 1

def SeenOwn (seen : List (Option Bool)) : Prop := ∀ k : ℕ, seen[k]? ≠ some (some false)

theorem SeenOwn.snoc {seen : List (Option Bool)} (h : SeenOwn seen) {x : Option Bool}
    (hx : x ≠ some false) : SeenOwn (seen ++ [x]) := by
  intro k hk
  rcases Nat.lt_or_ge k seen.length with hk' | hk'
  · rw [List.getElem?_append_left hk'] at hk; exact h k hk
  · rw [List.getElem?_append_right hk'] at hk
    rcases Nat.lt_or_ge (k - seen.length) 1 with h4 | h4
    · have : k - seen.length = 0 := by omega
      rw [this] at hk; simp at hk; exact hx hk
    · rw [List.getElem?_eq_none (by simpa using h4)] at hk; simp at hk

def PcOwn (cfg : Config V) (s : State V) : Pc → Prop
  | .ready => True
  | .test _ _ seen => SeenOwn seen
  | .setParam _ j seen => SeenOwn seen ∧ j < cfg.required
  | .lanczos _ j _ own seen => SeenOwn seen ∧ own = true ∧ s.param = j ∧ j < cfg.required
  | .reset _ _ seen => SeenOwn seen
  | .quad _ _ seen => SeenOwn seen
  | .critical _ => True

structure OwnInv (cfg : Config V) (s : State V) : Prop where
  numThreads : s.threads.length = cfg.numThreads
  pc : ∀ th ∈ s.threads, PcOwn cfg s th.pc
  samples : ∀ i j, s.samples i j ≠ .computed false

theorem ownInv_init (cfg : Config V) : OwnInv cfg (init cfg) := by
  refine ⟨by simp [init], ?_, by simp [init]⟩
  intro th hth
  simp only [init, List.mem_replicate] at hth
  rw [hth.2]; trivial

theorem quadCell_own {cfg : Config V} {seen : List (Option Bool)} (h : SeenOwn seen) (j : ℕ) :
    quadCell cfg seen j ≠ .computed false := by
  unfold quadCell
  split
  · rename_i own ho
    intro hc
    simp only [Cell.computed.injEq] at hc
    subst hc
    exact h _ ho
  · simp

theorem OwnInv.step {cfg : Config V} (hex : Exclusive cfg) {s : State V} (h : OwnInv cfg s) {t : ℕ}
    {s' : State V} (hs : step cfg s t = some s') : OwnInv cfg s' := by
  unfold Estimator.step at hs
  split at hs
  · simp at hs
  rename_i th ht
  split at hs
  · simp at hs
  rename_i s1 th1 hst
  simp only [Option.some.injEq] at hs
  subst hs
  have hpc := h.pc th (List.mem_of_getElem? ht)
  -- what has to be shown of one action
  suffices hsuff : PcOwn cfg s1 th1.pc ∧ (∀ i j, s1.samples i j ≠ .computed false) ∧
      (s1.param = s.param ∨ (∃ i seen, th.pc = .setParam i s1.param seen)) by
    obtain ⟨h1, h2, h3⟩ := hsuff
    refine ⟨by simpa using h.numThreads, ?_, h2⟩
    intro x hx
    have hconv : ∀ pc, PcOwn cfg s1 pc → PcOwn cfg { s1 with threads := s.threads.set t th1 } pc := by
      intro pc hp; cases pc <;> exact hp
    rcases List.mem_or_eq_of_mem_set hx with hmem | rfl
    · rcases h3 with h3 | ⟨i, seen, h3⟩
      · refine hconv _ ?_
        have := h.pc x hmem
        cases hxpc : x.pc <;> rw [hxpc] at this <;> simp only [PcOwn] at this ⊢ <;>
          first | exact this | (rw [h3]; exact this)
      · rw [h3] at hpc
        rcases hex with hone | hreq
        · -- a single thread: `x` is the thread itself or was replaced
          have hlen : s.threads.length = 1 := by rw [h.numThreads, hone]
          obtain ⟨y, hy⟩ := List.length_eq_one_iff.1 hlen
          rw [hy] at hx ht
          have ht0 : t = 0 := by
            by_contra hne
            rw [List.getElem?_eq_none (by simp; omega)] at ht; simp at ht
          subst ht0
          simp only [List.set_cons_zero, List.mem_singleton] at hx
          subst hx
          exact hconv _ h1
        · refine hconv _ ?_
          have hp := hpc.2
          have := h.pc x hmem
          cases hxpc : x.pc <;> rw [hxpc] at this <;> simp only [PcOwn] at this ⊢ <;>
            first | exact this | (obtain ⟨a, b, c, d⟩ := this; exact ⟨a, b, by omega, d⟩)
    · exact hconv _ h1
  obtain ⟨todo, pc⟩ := th
  unfold stepThread at hst
  cases pc with
  | ready =>
    dsimp only at hst
    cases todo with
    | nil =>
      dsimp only at hst
      split at hst
      · simp only [Option.some.injEq, Prod.mk.injEq] at hst
        obtain ⟨rfl, rfl⟩ := hst
        exact ⟨trivial, h.samples, Or.inl rfl⟩
      · simp at hst
    | cons i rest =>
      dsimp only at hst
      split at hst <;> simp only [Option.some.injEq, Prod.mk.injEq] at hst <;>
        obtain ⟨rfl, rfl⟩ := hst
      · exact ⟨trivial, h.samples, Or.inl rfl⟩
      · exact ⟨fun k hk => by simp at hk, h.samples, Or.inl rfl⟩
  | test i j seen =>
    dsimp only at hst
    split at hst
    · rename_i hlt
      split at hst <;> simp only [Option.some.injEq, Prod.mk.injEq] at hst <;>
        obtain ⟨rfl, rfl⟩ := hst
      · exact ⟨SeenOwn.snoc hpc (by simp), h.samples, Or.inl rfl⟩
      · exact ⟨⟨hpc, hlt⟩, h.samples, Or.inl rfl⟩
    · simp only [Option.some.injEq, Prod.mk.injEq] at hst
      obtain ⟨rfl, rfl⟩ := hst
      refine ⟨?_, h.samples, Or.inl rfl⟩
      unfold afterLanczos
      split <;> exact hpc
  | setParam i j seen =>
    simp only [Option.some.injEq, Prod.mk.injEq] at hst
    obtain ⟨rfl, rfl⟩ := hst
    exact ⟨⟨hpc.1, rfl, rfl, hpc.2⟩, h.samples, Or.inr ⟨i, seen, rfl⟩⟩
  | lanczos i j k own seen =>
    obtain ⟨h1, h2, h3, h4⟩ := hpc
    cases k <;> simp only [Option.some.injEq, Prod.mk.injEq] at hst <;> obtain ⟨rfl, rfl⟩ := hst
    · exact ⟨SeenOwn.snoc h1 (by simp [h2]), h.samples, Or.inl rfl⟩
    · exact ⟨⟨h1, by simp [h2, h3], h3, h4⟩, h.samples, Or.inl rfl⟩
  | reset i j seen =>
    dsimp only at hst
    split at hst <;> simp only [Option.some.injEq, Prod.mk.injEq] at hst <;>
      obtain ⟨rfl, rfl⟩ := hst <;> exact ⟨hpc, h.samples, Or.inl rfl⟩
  | quad i j seen =>
    dsimp only at hst
    split at hst
    · split at hst <;> simp only [Option.some.injEq, Prod.mk.injEq] at hst <;>
        obtain ⟨rfl, rfl⟩ := hst
      · exact ⟨hpc, h.samples, Or.inl rfl⟩
      · refine ⟨hpc, ?_, Or.inl rfl⟩
        intro i' j'
        dsimp only
        split
        · exact quadCell_own hpc j
        · exact h.samples i' j'
    · simp only [Option.some.injEq, Prod.mk.injEq] at hst
      obtain ⟨rfl, rfl⟩ := hst
      exact ⟨trivial, h.samples, Or.inl rfl⟩
  | critical i =>
    simp only [Option.some.injEq, Prod.mk.injEq] at hst
    obtain ⟨rfl, rfl⟩ := hst
    exact ⟨trivial, h.samples, Or.inl rfl⟩

theorem ownInv_run {cfg : Config V} (hex : Exclusive cfg) {ts : List ℕ} {s : State V}
    (h : run cfg (init cfg) ts = some s) : OwnInv cfg s :=
  run_induction (fun _ _ _ hp hs => hp.step hex hs) ts _ s (ownInv_init cfg) h

/-! ### Schedules with one thread -/

/-- With one thread the processed indices followed by the skipped and the held ones are `0, 1, …`. -/
structure SeqInv (cfg : Config V) (s : State V) : Prop where
  order : ∃ th, s.threads = [th] ∧
    s.processed ++ s.skipped ++ th.held = List.range s.next ∧ (s.skipped ≠ [] → th.pc = .ready ∧ s.allConverged = true)

theorem seqInv_init (cfg : Config V) (h1 : cfg.numThreads = 1) : SeqInv cfg (init cfg) :=
  ⟨⟨[], .ready⟩, by simp [init, h1], by simp [init, Thread.held, Pc.inflight], by simp [init]⟩

theorem SeqInv.step {cfg : Config V} {s : State V} (h : SeqInv cfg s) {t : ℕ} {s' : State V}
    (hs : step cfg s t = some s') : SeqInv cfg s' := by
  obtain ⟨th0, hth, hord, hsk⟩ := h.order
  unfold Estimator.step at hs
  split at hs
  · simp at hs
  rename_i th ht
  split at hs
  · simp at hs
  rename_i s1 th1 hst
  simp only [Option.some.injEq] at hs
  subst hs
  rw [hth] at ht
  have ht0 : t = 0 := by
    by_contra hne
    rw [List.getElem?_eq_none (by simp; omega)] at ht; simp at ht
  subst ht0
  simp only [List.getElem?_cons_zero, Option.some.injEq] at ht
  subst ht
  refine ⟨th1, by simp [hth], ?_⟩
  dsimp only
  obtain ⟨todo, pc⟩ := th0
  unfold stepThread at hst
  have nosk : pc ≠ .ready → s.skipped = [] := by
    intro hne
    by_contra hh
    exact hne (hsk hh).1
  cases pc with
  | ready =>
    dsimp only at hst
    cases todo with
    | nil =>
      dsimp only at hst
      split at hst
      · rename_i hlt
        simp only [Option.some.injEq, Prod.mk.injEq] at hst
        obtain ⟨rfl, rfl⟩ := hst
        refine ⟨?_, fun hh => ⟨rfl, (hsk hh).2⟩⟩
        simp only [Thread.held, Pc.inflight, List.nil_append, List.append_nil] at hord ⊢
        rw [hord]
        have hle : s.next ≤ min (s.next + max 1 cfg.chunkSize) cfg.maxNumSamples := by omega
        obtain ⟨k, hk⟩ := Nat.exists_eq_add_of_le hle
        rw [hk, Nat.add_sub_cancel_left, List.range_eq_range', List.range_eq_range']
        have := @List.range'_append 0 s.next k 1
        simpa only [Nat.zero_add, Nat.one_mul] using this
      · simp at hst
    | cons i rest =>
      dsimp only at hst
      split at hst <;> simp only [Option.some.injEq, Prod.mk.injEq] at hst <;>
        obtain ⟨rfl, rfl⟩ := hst
      · rename_i hall
        refine ⟨?_, fun _ => ⟨rfl, hall⟩⟩
        simpa [Thread.held, Pc.inflight] using hord
      · rename_i hall
        refine ⟨?_, fun hh => absurd (hsk hh).2 hall⟩
        simpa [Thread.held, Pc.inflight] using hord
  | test i j seen =>
    have hsk0 := nosk (by simp)
    dsimp only at hst
    split at hst
    · split at hst <;> simp only [Option.some.injEq, Prod.mk.injEq] at hst <;>
        obtain ⟨rfl, rfl⟩ := hst <;>
        exact ⟨by simpa [Thread.held, Pc.inflight] using hord, fun hh => absurd hsk0 hh⟩
    · simp only [Option.some.injEq, Prod.mk.injEq] at hst
      obtain ⟨rfl, rfl⟩ := hst
      refine ⟨?_, fun hh => absurd hsk0 hh⟩
      unfold afterLanczos
      split <;> simpa [Thread.held, Pc.inflight] using hord
  | setParam i j seen =>
    have hsk0 := nosk (by simp)
    simp only [Option.some.injEq, Prod.mk.injEq] at hst
    obtain ⟨rfl, rfl⟩ := hst
    exact ⟨by simpa [Thread.held, Pc.inflight] using hord, fun hh => absurd hsk0 hh⟩
  | lanczos i j k own seen =>
    have hsk0 := nosk (by simp)
    cases k <;> simp only [Option.some.injEq, Prod.mk.injEq] at hst <;>
      obtain ⟨rfl, rfl⟩ := hst <;>
      exact ⟨by simpa [Thread.held, Pc.inflight] using hord, fun hh => absurd hsk0 hh⟩
  | reset i j seen =>
    have hsk0 := nosk (by simp)
    dsimp only at hst
    split at hst <;> simp only [Option.some.injEq, Prod.mk.injEq] at hst <;>
      obtain ⟨rfl, rfl⟩ := hst <;>
      exact ⟨by simpa [Thread.held, Pc.inflight, clearFlag] using hord, fun hh => absurd hsk0 hh⟩
  | quad i j seen =>
    have hsk0 := nosk (by simp)
    dsimp only at hst
    split at hst
    · split at hst <;> simp only [Option.some.injEq, Prod.mk.injEq] at hst <;>
        obtain ⟨rfl, rfl⟩ := hst <;>
        exact ⟨by simpa [Thread.held, Pc.inflight] using hord, fun hh => absurd hsk0 hh⟩
    · simp only [Option.some.injEq, Prod.mk.injEq] at hst
      obtain ⟨rfl, rfl⟩ := hst
      exact ⟨by simpa [Thread.held, Pc.inflight] using hord, fun hh => absurd hsk0 hh⟩
  | critical i =>
    have hsk0 := nosk (by simp)
    simp only [Option.some.injEq, Prod.mk.injEq] at hst
    obtain ⟨rfl, rfl⟩ := hst
    refine ⟨?_, fun hh => absurd hsk0 hh⟩
    simpa [Thread.held, Pc.inflight, criticalSection, hsk0] using hord

theorem seqInv_run {cfg : Config V} (h1 : cfg.numThreads = 1) {ts : List ℕ} {s : State V}
    (h : run cfg (init cfg) ts = some s) : SeqInv cfg s :=
  run_induction (fun _ _ _ hp hs => hp.step hs) ts _ s (seqInv_init cfg h1) h

end Imate.Estimator
