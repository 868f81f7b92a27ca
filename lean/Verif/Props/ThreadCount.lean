import Verif.Spec.ThreadCount
import Mathlib.Tactic.Common
import Mathlib.Tactic.Linarith

/-!
# C96: the number of threads of a call over a history of calls
-/

namespace Imate.Props.ThreadCount

open Imate.ThreadCount Imate.ThreadCount.Spec

theorem set_self (τ k : ℕ) (s : State) : setNumThreads τ k s τ = max k 1 := by simp [setNumThreads]

theorem set_other {τ σ : ℕ} (h : σ ≠ τ) (k : ℕ) (s : State) : setNumThreads τ k s σ = s σ := by simp [setNumThreads, h]

theorem max_one {k : ℕ} (h : 0 < k) : max k 1 = k := by omega

theorem orthogonalize_other {τ σ : ℕ} (h : σ ≠ τ) (n : ℕ) (s : State) : (orthogonalizeVectors τ n s).2 σ = s σ := by
  induction n generalizing s with
  | zero => rfl
  | succ n ih => simp [orthogonalizeVectors, generateRandomArray, ih, set_other h]

theorem tries_other (m : Machine) {τ σ : ℕ} (h : σ ≠ τ) (n : ℕ) (s : State) : (correlationTries m τ n s).2 σ = s σ := by
  induction n generalizing s with
  | zero => rfl
  | succ n ih => simp [correlationTries, ih, set_other h]

theorem tries_self (m : Machine) (τ n : ℕ) (s : State) (hs : s τ = max m.cpuCount 1) :
    (correlationTries m τ n s).2 τ = max m.cpuCount 1 := by
  induction n generalizing s with
  | zero => exact hs
  | succ n ih => simp [correlationTries, ih, set_self]

theorem tries_teams (m : Machine) (τ n : ℕ) (s : State) :
    (correlationTries m τ n s).1 = List.replicate n (max m.cpuCount 1) := by
  induction n generalizing s with
  | zero => rfl
  | succ n ih => simp [correlationTries, ih, region, set_self, List.replicate_succ]

theorem orthogonalize_teams (τ n : ℕ) (s : State) : (orthogonalizeVectors τ n s).1 = List.replicate n 1 := by
  induction n generalizing s with
  | zero => rfl
  | succ n ih => simp [orthogonalizeVectors, generateRandomArray, ih, region, set_self, List.replicate_succ]

theorem vectors_self (τ k : ℕ) (o : Bool) (r : ℕ) (s : State) :
    (generateRandomColumnVectors τ k o r s).2 τ = max k 1 := by
  simp [generateRandomColumnVectors, set_self]

theorem vectors_other {τ σ : ℕ} (h : σ ≠ τ) (k : ℕ) (o : Bool) (r : ℕ) (s : State) :
    (generateRandomColumnVectors τ k o r s).2 σ = s σ := by
  cases o <;> simp [generateRandomColumnVectors, generateRandomArray, set_other h, orthogonalize_other h]

theorem vectors_teams (τ k : ℕ) (o : Bool) (r : ℕ) (s : State) :
    (generateRandomColumnVectors τ k o r s).1 =
      max k 1 :: ((if o then List.replicate r 1 else []) ++ [max k 1]) := by
  cases o <;> simp [generateRandomColumnVectors, generateRandomArray, region, set_self, orthogonalize_teams]

theorem call_other (m : Machine) {τ σ : ℕ} (h : σ ≠ τ) (c : Call) (s : State) : (call m τ c s).2 σ = s σ := by
  cases c with
  | slq c =>
    simp only [call, slq]
    cases c.refused with
    | some e => rfl
    | none =>
      simp only
      split
      · split
        · rfl
        · cases c.cached <;> cases c.temporary <;> simp [set_other h]
      · simp [set_other h]
  | hutchinson c =>
    simp only [call, hutchinson]
    cases c.refused with
    | some e => rfl
    | none => simp [vectors_other h]
  | correlation r n =>
    cases r with
    | some e => rfl
    | none => simp [call, correlation, tries_other m h]
  | direct o => cases o <;> rfl
  | release g => simp [call, set_other h]

theorem call_local (m : Machine) (τ : ℕ) (c : Call) {s t : State} (h : s τ = t τ) :
    (call m τ c s).1 = (call m τ c t).1 ∧ (call m τ c s).2 τ = (call m τ c t).2 τ := by
  cases c with
  | slq c =>
    simp only [call, slq, getMaxThreads, h]
    cases c.refused with
    | some e => exact ⟨rfl, h⟩
    | none =>
      simp only
      split
      · split
        · exact ⟨rfl, h⟩
        · cases c.cached <;> cases c.temporary <;> simp [region, set_self]
      · simp [region, set_self]
  | hutchinson c =>
    simp only [call, hutchinson]
    cases c.refused with
    | some e => exact ⟨rfl, h⟩
    | none => simp [vectors_teams, vectors_self]
  | correlation r n =>
    cases r with
    | some e => exact ⟨rfl, h⟩
    | none =>
      refine ⟨by simp [call, correlation, tries_teams], ?_⟩
      simp only [call, correlation, correlationTries]
      rw [tries_self _ _ _ _ (set_self ..), tries_self _ _ _ _ (set_self ..)]
  | direct o => cases o <;> exact ⟨rfl, h⟩
  | release g => simp [call, set_self]

/-- A sound call leaves its thread a number of threads, which is positive. -/
theorem call_leaves (m : Machine) (τ : ℕ) (c : Call) (s : State) (hc : 0 < m.cpuCount) (hd : 0 < m.devices)
    (hr : ∀ g, c = .release g → 0 < g) (hs : 0 < s τ) :
    Leaves m c (s τ) ((call m τ c s).2 τ) ∧ 0 < (call m τ c s).2 τ := by
  cases c with
  | slq c =>
    simp only [call, slq, getMaxThreads]
    cases hf : c.refused with
    | some e => exact ⟨.neutral (by simp [Neutral, hf]), hs⟩
    | none =>
      simp only
      cases hg : c.gpu with
      | true =>
        simp only [if_true]
        split
        case isTrue h => exact ⟨.neutral (by simp [Neutral, hg, h]), hs⟩
        case isFalse h =>
          have e : (if c.temporary then setNumThreads τ (if c.numGpuDevices = 0 then m.devices else c.numGpuDevices)
              (setNumThreads τ (if c.numGpuDevices = 0 then m.devices else c.numGpuDevices)
                (if c.cached then s else setNumThreads τ (if c.numGpuDevices = 0 then m.devices else c.numGpuDevices) s))
              else (setNumThreads τ (if c.numGpuDevices = 0 then m.devices else c.numGpuDevices)
                (if c.cached then s else setNumThreads τ (if c.numGpuDevices = 0 then m.devices else c.numGpuDevices) s))) τ
              = if c.numGpuDevices = 0 then m.devices else c.numGpuDevices := by
            have : 0 < (if c.numGpuDevices = 0 then m.devices else c.numGpuDevices) := by split <;> omega
            cases c.temporary <;> simp [set_self, max_one this]
          simp only [e]
          split
          case isTrue h0 => exact ⟨.gpuAll hf hg h0, hd⟩
          case isFalse h0 => exact ⟨.gpu hf hg (by omega) (by omega), by omega⟩
      | false =>
        simp only [Bool.false_eq_true, if_false, set_self]
        split
        case isTrue h =>
          rw [max_one hs]
          exact ⟨.neutral (by simp [Neutral, hg, h]), hs⟩
        case isFalse h =>
          rw [max_one (by omega)]
          exact ⟨.slq hf hg (by omega), by omega⟩
  | hutchinson c =>
    simp only [call, hutchinson]
    cases hf : c.refused with
    | some e => exact ⟨.neutral (by simp [Neutral, hf]), hs⟩
    | none =>
      simp only [vectors_self]
      split
      case isTrue h => rw [max_one hc]; exact ⟨.hutchinsonAll hf h, hc⟩
      case isFalse h => rw [max_one (by omega)]; exact ⟨.hutchinson hf (by omega), by omega⟩
  | correlation r n =>
    cases r with
    | some e => exact ⟨.neutral (by simp [Neutral]), hs⟩
    | none =>
      simp only [call, correlation, correlationTries]
      rw [tries_self _ _ _ _ (set_self ..), max_one hc]
      exact ⟨.correlation, hc⟩
  | direct o => cases o <;> exact ⟨.neutral trivial, hs⟩
  | release g =>
    have := hr g rfl
    simp only [call, set_self, max_one this]
    exact ⟨.release, this⟩

theorem after_append (m : Machine) (h k : List (ℕ × Call)) :
    after m (h ++ k) = k.foldl (fun s c => (call m c.1 c.2 s).2) (after m h) := by
  simp [after, List.foldl_append]

theorem fold_leaves (m : Machine) (τ : ℕ) (h : List (ℕ × Call)) (hc : 0 < m.cpuCount) (hd : 0 < m.devices)
    (hr : ∀ g, (τ, Call.release g) ∈ h → 0 < g) (s : State) (hs : 0 < s τ) :
    LeavesAll m (ownCalls τ h) (s τ) (h.foldl (fun s c => (call m c.1 c.2 s).2) s τ) ∧
      0 < h.foldl (fun s c => (call m c.1 c.2 s).2) s τ := by
  induction h generalizing s with
  | nil => exact ⟨.nil, hs⟩
  | cons c h ih =>
    obtain ⟨σ, c⟩ := c
    have hr' : ∀ g, (τ, Call.release g) ∈ h → 0 < g := fun g hg => hr g (List.mem_cons_of_mem _ hg)
    by_cases e : σ = τ
    · subst e
      obtain ⟨l, p⟩ := call_leaves m σ c s hc hd (fun g hg => hr g (by simp [hg])) hs
      obtain ⟨l', p'⟩ := ih hr' _ p
      refine ⟨?_, p'⟩
      simpa [ownCalls] using LeavesAll.cons l l'
    · have o : (call m σ c s).2 τ = s τ := call_other m (Ne.symm e) c s
      obtain ⟨l', p'⟩ := ih hr' (call m σ c s).2 (o ▸ hs)
      refine ⟨?_, p'⟩
      rw [o] at l'
      simpa [ownCalls, e] using l'

/-- The number of threads set after any history is the one that the calls of this thread left. -/
theorem after_leaves {m : Machine} {h : List (ℕ × Call)} (ok : Sound m h) (τ : ℕ) :
    LeavesAll m (ownCalls τ h) m.initial (after m h τ) ∧ 0 < after m h τ :=
  fold_leaves m τ h ok.cpu ok.devices (fun g => ok.released τ g) (start m) ok.initial

theorem Leaves.functional {m : Machine} {c : Call} {n k l : ℕ} (h : Leaves m c n k) (h' : Leaves m c n l) : k = l := by
  cases h <;> cases h' <;> simp_all [Neutral] <;> omega

theorem LeavesAll.functional {m : Machine} {cs : List Call} {n k l : ℕ} (h : LeavesAll m cs n k)
    (h' : LeavesAll m cs n l) : k = l := by
  induction h with
  | nil => cases h'; rfl
  | cons a _ ih =>
    cases h' with
    | cons b r =>
      obtain rfl := Leaves.functional a b
      exact ih r

/-! ### Calls with a number -/

/-- With `num_threads = k ≥ 1` the SLQ method on the CPU uses and reports `k` threads, after any history. -/
theorem explicit_threads (m : Machine) (h : List (ℕ × Call)) (τ : ℕ) (c : Slq) (k : ℕ) (hk : 1 ≤ k)
    (hn : c.numThreads = k) (hg : c.gpu = false) (hr : c.refused = none) :
    result m h τ (.slq c) = .ok ⟨k, [k]⟩ := by
  have : ¬ ((k : ℤ) < 1) := by omega
  simp [result, call, slq, hn, hg, hr, this, region, set_self, max_one hk]

example : result ⟨4, 4, 1⟩ [(0, slqCall 3), (1, slqCall 0)] 0 (slqCall 2) = .ok ⟨2, [2]⟩ := by decide +kernel

/-- Hutchinson's method reports, and uses for drawing and for normalizing the vectors, `num_threads` threads, or as many as
the machine has processors, after any history; vectors drawn again are drawn by one. -/
theorem hutchinson_threads (m : Machine) (hm : 0 < m.cpuCount) (h : List (ℕ × Call)) (τ : ℕ) (c : Hutchinson)
    (hr : c.refused = none) : ∃ k : ℕ, (k : ℤ) = (if c.numThreads < 1 then (m.cpuCount : ℤ) else c.numThreads) ∧
      result m h τ (.hutchinson c) =
        .ok ⟨k, k :: ((if c.orthogonalize then List.replicate c.redrawn 1 else []) ++ [k])⟩ := by
  refine ⟨if c.numThreads < 1 then m.cpuCount else c.numThreads.toNat, by split <;> omega, ?_⟩
  have : 0 < (if c.numThreads < 1 then m.cpuCount else c.numThreads.toNat) := by split <;> omega
  simp [result, call, hutchinson, hr, vectors_teams, max_one this]

example : result ⟨4, 2, 1⟩ [(0, slqCall 3)] 0 (.hutchinson ⟨0, none, true, 2⟩) = .ok ⟨4, [4, 1, 1, 4]⟩ := by
  decide +kernel

/-- `correlation_matrix` uses as many threads as the machine has processors, after any history. -/
theorem correlation_threads (m : Machine) (hm : 0 < m.cpuCount) (h : List (ℕ × Call)) (τ n : ℕ) :
    result m h τ (.correlation none n) = .ok ⟨m.cpuCount, List.replicate (n + 1) m.cpuCount⟩ := by
  simp only [result, call, correlation, tries_teams, max_one hm]

/-! ### Calls without a number -/

/-- With `num_threads` zero (or negative) the SLQ method on the CPU uses and reports exactly the number of threads that the
earlier calls of the same thread left, whatever other threads did. -/
theorem default_threads {m : Machine} {h : List (ℕ × Call)} (ok : Sound m h) (τ : ℕ) (c : Slq)
    (hn : c.numThreads < 1) (hg : c.gpu = false) (hr : c.refused = none) (k : ℕ) :
    result m h τ (.slq c) = .ok ⟨k, [k]⟩ ↔ LeavesAll m (ownCalls τ h) m.initial k := by
  obtain ⟨l, p⟩ := after_leaves ok τ
  have : result m h τ (.slq c) = .ok ⟨after m h τ, [after m h τ]⟩ := by
    simp [result, call, slq, hn, hg, hr, region, set_self, getMaxThreads, max_one p]
  rw [this]
  constructor
  · intro e
    simp only [Except.ok.injEq, Seen.mk.injEq] at e
    exact e.1 ▸ l
  · intro l'
    rw [LeavesAll.functional l' l]

theorem leaves_neutral {m : Machine} {cs : List Call} (hn : ∀ c ∈ cs, Neutral m c) (n : ℕ) : LeavesAll m cs n n := by
  induction cs with
  | nil => exact .nil
  | cons c cs ih => exact .cons (.neutral (hn c (by simp))) (ih fun d hd => hn d (List.mem_cons_of_mem _ hd))

/-- The documented number: with `num_threads = k` not larger than the available number, the SLQ method on the CPU uses the
documented number of threads and reports it, if the earlier calls in this thread gave no number of threads, were not
`correlation_matrix`, Hutchinson's method or on the GPU.  Missing: other histories (negations below), larger numbers
(`more_than_available`). -/
theorem documented_threads_partial {m : Machine} {h : List (ℕ × Call)} (ok : Sound m h) (τ : ℕ) (c : Slq)
    (hg : c.gpu = false) (hr : c.refused = none) (hk : c.numThreads ≤ m.initial)
    (hh : ∀ d, (τ, d) ∈ h → Neutral m d) :
    result m h τ (.slq c) =
      .ok ⟨documented m.initial c.numThreads, [documented m.initial c.numThreads]⟩ := by
  by_cases hn : c.numThreads < 1
  · have e : documented m.initial c.numThreads = m.initial := by simp [documented, hn]
    rw [e, default_threads ok τ c hn hg hr]
    refine leaves_neutral ?_ _
    intro d hd
    simp only [ownCalls, List.mem_map, List.mem_filter, decide_eq_true_eq] at hd
    obtain ⟨⟨σ, d'⟩, ⟨hm, rfl⟩, rfl⟩ := hd
    exact hh d' hm
  · have e : documented m.initial c.numThreads = c.numThreads.toNat := by
      simp only [documented]; rw [if_neg (by omega)]
    rw [e]
    exact explicit_threads m h τ c _ (by omega) (by omega) hg hr

example : Sound ⟨4, 4, 1⟩ [(0, slqCall 0), (1, slqCall 2), (0, .direct (.ok ()))] ∧
    (∀ d, (0, d) ∈ [(0, slqCall 0), (1, slqCall 2), (0, .direct (.ok ()))] → Neutral ⟨4, 4, 1⟩ d) := by
  refine ⟨⟨by decide, by decide, by decide, by simp [slqCall]⟩, ?_⟩
  intro d hd
  simp [slqCall] at hd
  rcases hd with rfl | rfl <;> simp [Neutral]

/-- A call depends on the earlier calls of its own thread only. -/
theorem other_threads (m : Machine) (h : List (ℕ × Call)) (τ : ℕ) (c : Call) :
    result m h τ c = result m (h.filter (fun d => d.1 = τ)) τ c := by
  refine (call_local m τ c ?_).1
  have : ∀ (h : List (ℕ × Call)) (s t : State), s τ = t τ →
      h.foldl (fun s c => (call m c.1 c.2 s).2) s τ =
        (h.filter (fun d => d.1 = τ)).foldl (fun s c => (call m c.1 c.2 s).2) t τ := by
    intro h
    induction h with
    | nil => exact fun s t e => e
    | cons d h ih =>
      intro s t e
      by_cases hd : d.1 = τ
      · simp only [List.filter_cons, hd, decide_true, if_true, List.foldl_cons]
        exact ih _ _ (call_local m τ d.2 e).2
      · simp only [List.filter_cons, hd, decide_false, Bool.false_eq_true, if_false, List.foldl_cons]
        exact ih _ _ ((call_other m (Ne.symm hd) d.2 s).trans e)
  exact this h _ _ rfl

/-- A call leaves the number of threads of all other threads, and one that raises or is a direct method or an SLQ call with
the default leaves that of its own. -/
theorem setting_kept_partial {m : Machine} {h : List (ℕ × Call)} (ok : Sound m h) (τ σ : ℕ) (c : Call)
    (hc : σ ≠ τ ∨ Neutral m c) : after m (h ++ [(τ, c)]) σ = after m h σ := by
  rw [after_append]
  by_cases e : σ = τ
  · subst e
    have n : Neutral m c := hc.resolve_left (fun h => h rfl)
    obtain ⟨_, p⟩ := after_leaves ok σ
    have l := (call_leaves m σ c (after m h) ok.cpu ok.devices (by rintro g rfl; exact n.elim) p).1
    exact Leaves.functional l (.neutral n)
  · exact call_other m e c _

/-! ### Violations -/

/-- After a call with `num_threads = k` the default is `k`, not all threads: the number of a call is the default of all later
calls of the thread, until another call sets it. -/
theorem default_after_explicit {m : Machine} {h : List (ℕ × Call)} (ok : Sound m h) (τ k : ℕ) (hk : 1 ≤ k)
    (g : List Call) (hg : ∀ c ∈ g, Neutral m c) :
    result m (h ++ (τ, slqCall k) :: g.map (τ, ·)) τ (slqCall 0) = .ok ⟨k, [k]⟩ := by
  have ok' : Sound m (h ++ (τ, slqCall k) :: g.map (τ, ·)) := by
    refine ⟨ok.cpu, ok.initial, ok.devices, ?_⟩
    intro σ d hd
    simp only [List.mem_append, List.mem_cons, List.mem_map, Prod.mk.injEq] at hd
    rcases hd with hd | hd | ⟨c, hc, -, rfl⟩
    · exact ok.released σ d hd
    · simp [slqCall] at hd
    · exact (hg _ hc).elim
  obtain ⟨l, p⟩ := after_leaves ok' τ
  have e : after m (h ++ (τ, slqCall k) :: g.map (τ, ·)) τ = k := by
    have e1 : ∀ (g : List Call) (s : State), (∀ c ∈ g, Neutral m c) → 0 < s τ →
        (g.map (τ, ·)).foldl (fun s c => (call m c.1 c.2 s).2) s τ = s τ := by
      intro g
      induction g with
      | nil => exact fun _ _ _ => rfl
      | cons c g ih =>
        intro s hg hs
        have l := (call_leaves m τ c s ok.cpu ok.devices (by rintro d rfl; exact (hg (.release d) (by simp)).elim) hs).1
        have e := Leaves.functional l (.neutral (hg c (by simp)))
        simp only [List.map_cons, List.foldl_cons]
        rw [ih _ (fun d hd => hg d (by simp [hd])) (e ▸ hs), e]
    have e0 : (call m τ (slqCall k) (after m h)).2 τ = k := by
      have : ¬ ((k : ℤ) < 1) := by omega
      simp [call, slqCall, slq, this, set_self, max_one hk]
    rw [after_append, List.foldl_cons, e1 g _ hg (by simp only [e0]; omega)]
    exact e0
  have : result m (h ++ (τ, slqCall k) :: g.map (τ, ·)) τ (slqCall 0) =
      .ok ⟨after m (h ++ (τ, slqCall k) :: g.map (τ, ·)) τ, [after m (h ++ (τ, slqCall k) :: g.map (τ, ·)) τ]⟩ := by
    simp [result, call, slqCall, slq, region, set_self, getMaxThreads] at p ⊢
    omega
  rw [this, e]

/-- `trace(A, num_threads=1)` and then `trace(A)` on eight processors: one thread. -/
theorem default_is_not_all :
    result ⟨8, 8, 1⟩ [(0, slqCall 1)] 0 (slqCall 0) = .ok ⟨1, [1]⟩ ∧ documented 8 0 = 8 := by decide +kernel

/-- After a call on the GPU, or the release of an operator on the GPU, the default on the CPU is the number of devices. -/
theorem default_after_gpu :
    result ⟨8, 8, 2⟩ [(0, .slq ⟨0, true, 0, none, false, true⟩)] 0 (slqCall 0) = .ok ⟨2, [2]⟩ ∧
    result ⟨8, 8, 2⟩ [(0, slqCall 8), (0, .release 1)] 0 (slqCall 0) = .ok ⟨1, [1]⟩ := by decide +kernel

/-- A process limited to two of eight processors: the default is two, and eight after `correlation_matrix` or Hutchinson's
method. -/
theorem default_after_correlation :
    result ⟨8, 2, 1⟩ [] 0 (slqCall 0) = .ok ⟨2, [2]⟩ ∧
    result ⟨8, 2, 1⟩ [(0, .correlation none 0)] 0 (slqCall 0) = .ok ⟨8, [8]⟩ ∧
    result ⟨8, 2, 1⟩ [(0, .hutchinson ⟨0, none, true, 0⟩)] 0 (slqCall 0) = .ok ⟨8, [8]⟩ := by decide +kernel

/-- The two stochastic methods have different defaults in a process limited to two of eight processors. -/
theorem defaults_differ (h : List (ℕ × Call)) (τ : ℕ) :
    result ⟨8, 2, 1⟩ h τ (.hutchinson ⟨0, none, false, 0⟩) = .ok ⟨8, [8, 8]⟩ ∧
    (∀ g : List (ℕ × Call), (∀ d, (τ, d) ∈ g → Neutral ⟨8, 2, 1⟩ d) → (∀ σ k, (σ, Call.release k) ∉ g) →
      result ⟨8, 2, 1⟩ g τ (slqCall 0) = .ok ⟨2, [2]⟩) := by
  constructor
  · obtain ⟨k, hk, e⟩ := hutchinson_threads ⟨8, 2, 1⟩ (by decide) h τ ⟨0, none, false, 0⟩ rfl
    have : k = 8 := by simp at hk; omega
    subst this
    simpa using e
  · intro g hg hr
    have := documented_threads_partial (m := ⟨8, 2, 1⟩) (h := g)
      ⟨by decide, by decide, by decide, fun σ k hk => (hr σ k hk).elim⟩ τ ⟨0, false, 0, none, false, true⟩ rfl rfl
      (by decide) hg
    simpa [documented, slqCall] using this

/-- A number larger than the available one is used as it is, after any history. -/
theorem more_than_available (m : Machine) (h : List (ℕ × Call)) (τ k : ℕ) (hm : 0 < m.initial) (hk : m.initial < k) :
    result m h τ (slqCall k) = .ok ⟨k, [k]⟩ ∧ documented m.initial k ≠ k := by
  refine ⟨explicit_threads m h τ _ k (by omega) rfl rfl rfl, ?_⟩
  simp only [documented]
  rw [if_pos (Or.inr (by exact_mod_cast hk))]
  omega

/-- A call with `num_threads = k` leaves `k` to all later parallel regions of the thread, of other packages too. -/
theorem setting_not_restored (m : Machine) (h : List (ℕ × Call)) (τ k : ℕ) (hk : 1 ≤ k) :
    after m (h ++ [(τ, slqCall k)]) τ = k := by
  have : ¬ ((k : ℤ) < 1) := by omega
  rw [after_append]
  simp [call, slqCall, slq, this, set_self, max_one hk]

/-- On the GPU the reported number of CPU threads is not the number used, which is that of the devices. -/
theorem gpu_reports_other (m : Machine) (hd : 0 < m.devices) (h : List (ℕ × Call)) (τ k : ℕ) (hk : 1 ≤ k) (c t : Bool) :
    result m h τ (.slq ⟨k, true, 0, none, c, t⟩) = .ok ⟨k, [m.devices]⟩ := by
  have : ¬ ((k : ℤ) < 1) := by omega
  cases c <;> cases t <;> simp [result, call, slq, this, region, set_self, max_one hd]

end Imate.Props.ThreadCount
