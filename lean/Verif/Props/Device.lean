import Verif.Spec.Device
import Mathlib.Tactic.Ring
import Mathlib.Tactic.Linarith
import Mathlib.Tactic.NormNum
import Mathlib.Tactic.IntervalCases
import Mathlib.Algebra.Order.BigOperators.Group.Finset

/-!
# Timers and memory meters (C58, C59)
-/

namespace Imate.Props

open Imate.Device Imate.Spec
open scoped Classical

/-! ## The timer -/

theorem lastTic_append {h : List Call} {c : Call} {i : ℕ} (hi : i ≤ h.length) :
    lastTic (h ++ [c]) i = lastTic h i := by
  unfold lastTic
  rw [List.take_append_of_le_length hi]

theorem getElem?_append_lt {h : List Call} {c : Call} {i : ℕ} (hi : i < h.length) :
    (h ++ [c])[i]? = h[i]? := List.getElem?_append_left hi

theorem getElem?_append_len {h : List Call} {c : Call} : (h ++ [c])[h.length]? = some c := by simp

theorem wallSinceTic_append {h : List Call} {c : Call} {i : ℕ} (hi : i < h.length) :
    wallSinceTic (h ++ [c]) i = wallSinceTic h i := by
  unfold wallSinceTic
  rw [getElem?_append_lt hi, lastTic_append hi.le]

theorem procSinceTic_append {h : List Call} {c : Call} {i : ℕ} (hi : i < h.length) :
    procSinceTic (h ++ [c]) i = procSinceTic h i := by
  unfold procSinceTic
  rw [getElem?_append_lt hi, lastTic_append hi.le]

theorem noResetFrom_append {h : List Call} {c : Call} {i : ℕ} (hi : i ≤ h.length) :
    NoResetFrom (h ++ [c]) i ↔ NoResetFrom h i ∧ c ≠ .reset := by
  constructor
  · intro H
    refine ⟨fun k hk => ?_, ?_⟩
    · rcases lt_or_ge k h.length with hl | hl
      · rw [← getElem?_append_lt (c := c) hl]; exact H k hk
      · rw [List.getElem?_eq_none hl]; simp
    · intro hc
      exact H h.length hi (by rw [getElem?_append_len, hc])
  · rintro ⟨H, hc⟩ k hk
    rcases lt_trichotomy k h.length with hl | hl | hl
    · rw [getElem?_append_lt hl]; exact H k hk
    · rw [hl, getElem?_append_len]; simpa using hc
    · rw [List.getElem?_eq_none (by simp; omega)]; simp

theorem tocAt_append {h : List Call} {c : Call} {i : ℕ} (hi : i < h.length) :
    TocAt (h ++ [c]) i ↔ TocAt h i := by
  unfold TocAt; rw [getElem?_append_lt hi]

theorem ticAt_append {h : List Call} {c : Call} {i : ℕ} (hi : i < h.length) :
    TicAt (h ++ [c]) i ↔ TicAt h i := by
  unfold TicAt; rw [getElem?_append_lt hi]

theorem completesPair_append {h : List Call} {c : Call} {i : ℕ} (hi : i < h.length) :
    CompletesPair (h ++ [c]) i ↔ CompletesPair h i := by
  unfold CompletesPair
  rw [tocAt_append hi]
  refine and_congr_right fun _ => exists_congr fun j => and_congr_right fun hj => ?_
  rw [ticAt_append (hj.trans hi)]
  refine and_congr_right fun _ => forall_congr' fun k => forall_congr' fun _ => forall_congr' fun hk => ?_
  rw [tocAt_append (hk.trans hi), getElem?_append_lt (hk.trans hi)]

/-- A `tic` is pending at the end of the history. -/
def Pending (h : List Call) : Prop :=
  ∃ j < h.length, TicAt h j ∧ ∀ k, j < k → k < h.length → ¬ TocAt h k ∧ h[k]? ≠ some .reset

theorem pending_append_tic (h : List Call) (w p : ℚ) : Pending (h ++ [.tic w p]) :=
  ⟨h.length, by simp, ⟨w, p, getElem?_append_len⟩, fun k h1 h2 => by simp at h2; omega⟩

theorem not_pending_append {h : List Call} {c : Call}
    (hc : (∃ w p, c = .toc w p) ∨ c = .reset) : ¬ Pending (h ++ [c]) := by
  rintro ⟨j, hj, ⟨w, p, ht⟩, H⟩
  rcases lt_or_ge j h.length with hl | hl
  · have := H h.length hl (by simp)
    rcases hc with ⟨w, p, hc⟩ | hc
    · exact this.1 ⟨w, p, by rw [getElem?_append_len, hc]⟩
    · exact this.2 (by rw [getElem?_append_len, hc])
  · have : j = h.length := by simp at hj; omega
    subst this
    rw [getElem?_append_len] at ht
    rcases hc with ⟨w, p, hc⟩ | hc <;> simp [hc] at ht

theorem completesPair_last {h : List Call} {w p : ℚ} :
    CompletesPair (h ++ [.toc w p]) h.length ↔ Pending h := by
  unfold CompletesPair Pending
  constructor
  · rintro ⟨-, j, hj, h1, h2⟩
    refine ⟨j, hj, (ticAt_append hj).1 h1, fun k a b => ?_⟩
    have := h2 k a b
    rwa [tocAt_append b, getElem?_append_lt b] at this
  · rintro ⟨j, hj, h1, h2⟩
    refine ⟨⟨w, p, getElem?_append_len⟩, j, hj, (ticAt_append hj).2 h1, fun k a b => ?_⟩
    rw [tocAt_append b, getElem?_append_lt b]
    exact h2 k a b

theorem sum_append {f g : List Call → ℕ → ℚ} (h : List Call) (c : Call)
    (hf : ∀ i < h.length, f (h ++ [c]) i = f h i) :
    ∑ i ∈ (Finset.range (h ++ [c]).length).filter (fun i => NoResetFrom (h ++ [c]) i),
        f (h ++ [c]) i
      = if c = .reset then 0
        else (∑ i ∈ (Finset.range h.length).filter (fun i => NoResetFrom h i), f h i)
          + f (h ++ [c]) h.length := by
  have hlen : (h ++ [c]).length = h.length + 1 := by simp
  rw [hlen]
  by_cases hc : c = .reset
  · rw [if_pos hc]
    apply Finset.sum_eq_zero
    intro i hi
    simp only [Finset.mem_filter, Finset.mem_range] at hi
    exact absurd hc ((noResetFrom_append (by omega)).1 hi.2).2
  · rw [if_neg hc, Finset.sum_filter, Finset.sum_filter, Finset.sum_range_succ]
    congr 1
    · apply Finset.sum_congr rfl
      intro i hi
      have hi := Finset.mem_range.1 hi
      rw [hf i hi]
      have := noResetFrom_append (c := c) hi.le
      simp only [hc, ne_eq, not_false_iff, and_true] at this
      simp only [this]
    · rw [if_pos]
      rw [noResetFrom_append le_rfl]
      exact ⟨fun k hk => by rw [List.getElem?_eq_none hk]; simp, hc⟩

theorem completedPairs_append (h : List Call) (c : Call) :
    completedPairs (h ++ [c])
      = if c = .reset then 0
        else completedPairs h + if (∃ w p, c = .toc w p) ∧ Pending h then 1 else 0 := by
  unfold completedPairs
  have hlen : (h ++ [c]).length = h.length + 1 := by simp
  rw [hlen]
  by_cases hc : c = .reset
  · rw [if_pos hc, Finset.card_eq_zero, Finset.filter_eq_empty_iff]
    intro i hi H
    exact absurd hc ((noResetFrom_append (by have := Finset.mem_range.1 hi; omega)).1 H.2).2
  · rw [if_neg hc, Finset.card_eq_sum_ones, Finset.card_eq_sum_ones, Finset.sum_filter,
      Finset.sum_filter, Finset.sum_range_succ]
    congr 1
    · apply Finset.sum_congr rfl
      intro i hi
      have hi := Finset.mem_range.1 hi
      have := noResetFrom_append (c := c) hi.le
      simp only [hc, ne_eq, not_false_iff, and_true] at this
      simp only [this, completesPair_append hi]
    · have hn : NoResetFrom (h ++ [c]) h.length := by
        rw [noResetFrom_append le_rfl]
        exact ⟨fun k hk => by rw [List.getElem?_eq_none hk]; simp, hc⟩
      simp only [hn, and_true]
      congr 1
      apply propext
      constructor
      · intro H
        obtain ⟨w, p, ht⟩ := H.1
        rw [getElem?_append_len, Option.some.injEq] at ht
        subst ht
        exact ⟨⟨w, p, rfl⟩, completesPair_last.1 H⟩
      · rintro ⟨⟨w, p, rfl⟩, H⟩
        exact completesPair_last.2 H

theorem lastTic_snoc (h : List Call) (c : Call) :
    lastTic (h ++ [c]) (h ++ [c]).length
      = match c with
        | .tic w p => (w, p)
        | _ => lastTic h h.length := by
  unfold lastTic ticReadings
  rw [List.take_length, List.take_length, List.filterMap_append]
  cases c <;> simp

theorem run_snoc (s : Timer) (h : List Call) (c : Call) :
    s.run (h ++ [c]) = (s.run h).step c := by simp [Timer.run]

theorem run_hold (s : Timer) (h : List Call) : (s.run h).hold = s.hold := by
  induction h using List.reverseRecOn with
  | nil => rfl
  | append_singleton h c ih =>
    rw [run_snoc, ← ih]
    cases c <;> simp only [Timer.step, Timer.tic, Timer.toc, Timer.reset]
    split_ifs <;> simp_all

theorem run_init (b : Bool) (h : List Call) :
    (((Timer.new b).run h).initWall, ((Timer.new b).run h).initProc) = lastTic h h.length := by
  induction h using List.reverseRecOn with
  | nil => rfl
  | append_singleton h c ih =>
    rw [run_snoc, lastTic_snoc]
    cases c with
    | tic w p => rfl
    | toc w p =>
      rw [← ih]
      simp only [Timer.step, Timer.toc]
      split_ifs <;> rfl
    | reset => rw [← ih]; rfl

theorem run_pending (b : Bool) (h : List Call) :
    ((Timer.new b).run h).ticInitiated = true ↔ Pending h := by
  induction h using List.reverseRecOn with
  | nil => simp [Timer.run, Timer.new, Pending]
  | append_singleton h c ih =>
    rw [run_snoc]
    cases c with
    | tic w p => simp [Timer.step, Timer.tic, pending_append_tic]
    | toc w p =>
      have := not_pending_append (h := h) (c := .toc w p) (Or.inl ⟨w, p, rfl⟩)
      simp only [this, iff_false, Timer.step, Timer.toc]
      split_ifs <;> simp_all
    | reset =>
      have := not_pending_append (h := h) (c := .reset) (Or.inr rfl)
      simp [this, Timer.step, Timer.reset]

/-- C58: after every history of calls a timer that holds shows the times of all calls of `toc`
since the last reset, each measured from the last `tic` before it, added up. -/
theorem timer_hold (h : List Call) :
    ((Timer.new true).run h).wall = totalWall h ∧ ((Timer.new true).run h).proc = totalProc h := by
  induction h using List.reverseRecOn with
  | nil => simp [Timer.run, Timer.new, totalWall, totalProc]
  | append_singleton h c ih =>
    have hi := run_init true h
    have hh : ((Timer.new true).run h).hold = true := run_hold _ _
    rw [Prod.ext_iff] at hi
    rw [run_snoc]
    unfold totalWall totalProc
    rw [sum_append (g := wallSinceTic) h c (fun i hi => wallSinceTic_append hi),
      sum_append (g := procSinceTic) h c (fun i hi => procSinceTic_append hi)]
    cases c with
    | tic w p =>
      simp only [Timer.step, Timer.tic, reduceCtorEq, if_false, wallSinceTic, procSinceTic,
        getElem?_append_len, add_zero]
      exact ih
    | toc w p =>
      have e1 : wallSinceTic (h ++ [.toc w p]) h.length = w - (lastTic h h.length).1 := by
        simp only [wallSinceTic, getElem?_append_len, lastTic_append le_rfl]
      have e2 : procSinceTic (h ++ [.toc w p]) h.length = p - (lastTic h h.length).2 := by
        simp only [procSinceTic, getElem?_append_len, lastTic_append le_rfl]
      simp only [Timer.step, Timer.toc, reduceCtorEq, if_false, hh, if_true, e1, e2, ← hi.1, ← hi.2]
      unfold totalWall totalProc at ih
      rw [← ih.1, ← ih.2]
      split_ifs <;> exact ⟨rfl, rfl⟩
    | reset => simp [Timer.step, Timer.reset]

/-- C58: after every history of calls a timer that does not hold shows the time of the last call of
`toc`, measured from the last `tic` before it, if it was not reset since. -/
theorem timer_nohold (h : List Call) (i : ℕ) (hi : TocAt h i)
    (hl : ∀ k, i < k → ¬ TocAt h k) (hr : NoResetFrom h i) :
    ((Timer.new false).run h).wall = wallSinceTic h i ∧
      ((Timer.new false).run h).proc = procSinceTic h i := by
  induction h using List.reverseRecOn with
  | nil => obtain ⟨w, p, h⟩ := hi; simp at h
  | append_singleton h c ih =>
    have hn := run_init false h
    have hh : ((Timer.new false).run h).hold = false := run_hold _ _
    rw [Prod.ext_iff] at hn
    have hil : i < h.length + 1 := by
      obtain ⟨w, p, h1⟩ := hi
      by_contra hcon
      rw [List.getElem?_eq_none (by simp; omega)] at h1
      simp at h1
    rw [run_snoc]
    rcases Nat.lt_succ_iff_lt_or_eq.1 hil with hlt | heq
    · obtain ⟨hr1, hr2⟩ := (noResetFrom_append hlt.le).1 hr
      have hl' : ∀ k, i < k → ¬ TocAt h k := by
        intro k hk ht
        have hkl : k < h.length := by
          obtain ⟨w, p, h1⟩ := ht
          by_contra hcon
          rw [List.getElem?_eq_none (by omega)] at h1
          simp at h1
        exact hl k hk ((tocAt_append hkl).2 ht)
      have := ih ((tocAt_append hlt).1 hi) hl' hr1
      rw [wallSinceTic_append hlt, procSinceTic_append hlt]
      cases c with
      | tic w p => simpa only [Timer.step, Timer.tic] using this
      | toc w p => exact absurd ⟨w, p, getElem?_append_len⟩ (hl h.length hlt)
      | reset => exact absurd rfl hr2
    · subst heq
      obtain ⟨w, p, h1⟩ := hi
      rw [getElem?_append_len, Option.some.injEq] at h1
      subst h1
      simp only [Timer.step, Timer.toc, wallSinceTic, procSinceTic, getElem?_append_len, hh,
        lastTic_append le_rfl, Bool.false_eq_true, if_false]
      rw [← hn.1, ← hn.2]
      split_ifs <;> exact ⟨rfl, rfl⟩

/-- C58: after every history of calls the counter of a timer is the number of completed pairs since
the last reset; several calls of `toc` after one `tic` count once. -/
theorem timer_count (b : Bool) (h : List Call) :
    ((Timer.new b).run h).count = completedPairs h := by
  induction h using List.reverseRecOn with
  | nil => simp [Timer.run, Timer.new, completedPairs]
  | append_singleton h c ih =>
    have hp := run_pending b h
    rw [run_snoc, completedPairs_append, ← ih]
    cases c with
    | tic w p => simp [Timer.step, Timer.tic]
    | toc w p =>
      by_cases hP : Pending h
      · have := hp.2 hP
        simp only [Timer.step, Timer.toc]
        split_ifs <;> simp_all
      · have : ((Timer.new b).run h).ticInitiated = false := by
          rw [← Bool.not_eq_true]; exact fun h => hP (hp.1 h)
        simp only [Timer.step, Timer.toc]
        split_ifs <;> simp_all
    | reset => simp [Timer.step, Timer.reset]

/-- C58: timing tasks one after another, a timer that holds shows the sum of their durations, one
that does not the duration of the last; both count the tasks. -/
theorem timer_tasks (tasks : List Task) (last : Task) (b : Bool) :
    let s := (Timer.new b).run (timeTasks (tasks ++ [last]))
    s.count = tasks.length + 1 ∧
      s.wall = (if b then ((tasks ++ [last]).map fun t => t.wallStop - t.wallStart).sum
        else last.wallStop - last.wallStart) ∧
      s.proc = (if b then ((tasks ++ [last]).map fun t => t.procStop - t.procStart).sum
        else last.procStop - last.procStart) := by
  have key : ∀ (tasks : List Task) (s : Timer), s.hold = b →
      let r := s.run (timeTasks tasks)
      r.count = s.count + tasks.length ∧ r.hold = b ∧
      (b = true → r.wall = s.wall + (tasks.map fun t => t.wallStop - t.wallStart).sum ∧
        r.proc = s.proc + (tasks.map fun t => t.procStop - t.procStart).sum) := by
    intro tasks
    induction tasks with
    | nil => intro s hs; simp [timeTasks, Timer.run, hs]
    | cons t ts ih =>
      intro s hs
      have e : s.run (timeTasks (t :: ts))
          = ((s.tic t.wallStart t.procStart).toc t.wallStop t.procStop).run (timeTasks ts) := by
        simp [timeTasks, Timer.run, Timer.step]
      have := ih ((s.tic t.wallStart t.procStart).toc t.wallStop t.procStop) (by
        cases b <;> simp [Timer.tic, Timer.toc, hs])
      simp only at this ⊢
      rw [e]
      obtain ⟨h1, h2, h3⟩ := this
      refine ⟨?_, h2, fun hb => ?_⟩
      · rw [h1]
        cases b <;> simp [Timer.tic, Timer.toc, hs] <;> ring
      · obtain ⟨a, c⟩ := h3 hb
        subst hb
        rw [a, c]
        constructor <;> simp [Timer.tic, Timer.toc, hs] <;> ring
  intro s
  have e : s = (((Timer.new b).run (timeTasks tasks)).tic last.wallStart last.procStart).toc
      last.wallStop last.procStop := by
    simp [s, timeTasks, Timer.run, Timer.step]
  obtain ⟨h1, h2, h3⟩ := key tasks (Timer.new b) rfl
  rw [e]
  cases b with
  | false =>
    simp only [Timer.toc, Timer.tic, h2, h1]
    simp [Timer.new]
  | true =>
    obtain ⟨a, c⟩ := h3 rfl
    simp only [Timer.toc, Timer.tic, h2, h1, a, c]
    simp [Timer.new]

theorem last_le {l : List ℚ} {w : ℚ} (hl : (l ++ [w]).Pairwise (· ≤ ·)) : ∀ x ∈ l, x ≤ w := by
  intro x hx
  exact (List.pairwise_append.1 hl).2.2 x hx w (by simp)

/-- C58: with a clock that runs forwards the times shown are never negative, whatever the calls. -/
theorem timer_nonneg (b : Bool) (h : List Call) (hf : Forwards h) :
    0 ≤ ((Timer.new b).run h).wall := by
  suffices H : 0 ≤ ((Timer.new b).run h).wall ∧
      (((Timer.new b).run h).initWall = 0 ∨ ((Timer.new b).run h).initWall ∈ wallReadings h) from H.1
  induction h using List.reverseRecOn with
  | nil => simp [Timer.run, Timer.new]
  | append_singleton h c ih =>
    have hw : wallReadings (h ++ [c]) = wallReadings h ++ wallReadings [c] := by
      simp [wallReadings]
    have hf' : Forwards h := by
      refine ⟨?_, fun w hw' => hf.2 w (by rw [hw]; simp [hw'])⟩
      have := hf.1
      rw [hw] at this
      exact (List.pairwise_append.1 this).1
    obtain ⟨h1, h2⟩ := ih hf'
    rw [run_snoc]
    cases c with
    | tic w p =>
      refine ⟨h1, Or.inr ?_⟩
      rw [hw]
      simp [wallReadings, Timer.step, Timer.tic]
    | toc w p =>
      have e : wallReadings [Call.toc w p] = [w] := rfl
      rw [e] at hw
      have h0 : 0 ≤ w := hf.2 w (by rw [hw]; simp)
      have h3 : ((Timer.new b).run h).initWall ≤ w := by
        rcases h2 with h2 | h2
        · rw [h2]; exact h0
        · exact last_le (hw ▸ hf.1) _ h2
      refine ⟨?_, ?_⟩
      · simp only [Timer.step, Timer.toc]
        split_ifs <;> simp only <;> linarith
      · have e2 : (((Timer.new b).run h).step (.toc w p)).initWall
            = ((Timer.new b).run h).initWall := by
          simp only [Timer.step, Timer.toc]
          split_ifs <;> rfl
        rw [e2, hw]
        rcases h2 with h2 | h2
        · exact Or.inl h2
        · exact Or.inr (by simp [h2])
    | reset =>
      refine ⟨by simp [Timer.step, Timer.reset], ?_⟩
      rw [hw]
      rcases h2 with h2 | h2
      · exact Or.inl h2
      · exact Or.inr (by simp [h2, Timer.step, Timer.reset])

/-- C58: a timer that was reset shows, after any further calls that begin with `tic`, what a new
timer would show. -/
theorem timer_reset_partial (b : Bool) (h h' : List Call) (w p : ℚ) :
    (Timer.new b).run (h ++ .reset :: .tic w p :: h') = (Timer.new b).run (.tic w p :: h') := by
  have hh := run_hold (Timer.new b) h
  simp only [Timer.run, List.foldl_append, List.foldl_cons, Timer.step, Timer.reset, Timer.tic] at hh ⊢
  rw [hh]
  simp [Timer.new]

/-- C58, refuted: a reset does not bring a timer back to its initial state ("all attributes of the
object set back to zero"): a `toc` after it still measures from the `tic` before it. -/
theorem timer_reset_stale (b : Bool) (w₀ p₀ w p : ℚ) :
    ((Timer.new b).run [.tic w₀ p₀, .reset, .toc w p]).wall = w - w₀ ∧
      ((Timer.new b).run [.toc w p]).wall = w := by
  cases b <;> simp [Timer.run, Timer.step, Timer.tic, Timer.toc, Timer.reset, Timer.new]

/-- C58, refuted: "in each of the `toc` calls, the measured time is updated from the time `toc` is
called with respect to the last `tic` call" fails for the default `Timer()`: a second `toc` counts the
time before the first one twice. -/
theorem timer_repeated_toc (w₀ w₁ w₂ p₀ p₁ p₂ : ℚ) :
    ((Timer.new true).run [.tic w₀ p₀, .toc w₁ p₁, .toc w₂ p₂]).wall
      = (w₂ - w₀) + (w₁ - w₀) := by
  simp [Timer.run, Timer.step, Timer.tic, Timer.toc, Timer.new]
  ring

example : ((Timer.new true).run [.tic 10 1, .toc 11 1, .toc 12 1]).wall = 3 := by
  rw [timer_repeated_toc]; norm_num

example : ((Timer.new false).run [.tic 10 1, .toc 11 1, .toc 12 1]).wall = 2 :=
  (timer_nohold [.tic 10 1, .toc 11 1, .toc 12 1] 2 ⟨12, 1, rfl⟩
    (fun k hk => by
      rintro ⟨w, p, h⟩
      rw [List.getElem?_eq_none (by simp; omega)] at h
      simp at h)
    (fun k hk => by
      rcases (show k = 2 ∨ 3 ≤ k by omega) with rfl | hk
      · simp
      · rw [List.getElem?_eq_none (by simpa using hk)]; simp)).1.trans (by
        simp [wallSinceTic, lastTic, ticReadings]; norm_num)

example : ((Timer.new true).run (timeTasks [⟨1, 0, 3, 2⟩, ⟨7, 2, 8, 5⟩])).wall = 3 :=
  (timer_tasks [⟨1, 0, 3, 2⟩] ⟨7, 2, 8, 5⟩ true).2.1.trans (by norm_num)

example : Forwards [.tic 1 0, .toc 2 1, .reset, .toc 5 2] := by
  constructor
  · simp [wallReadings]
    norm_num
  · intro w hw
    simp [wallReadings] at hw
    rcases hw with rfl | rfl | rfl <;> norm_num

/-! ## The memory meter -/

theorem hrLoop_spec (mem : ℚ) (c : ℕ) :
    ∃ i, (hrLoop mem c).2 = c + i ∧ (hrLoop mem c).1 * 1024 ^ i = mem ∧ (hrLoop mem c).1 ≤ 1024 ∧
      (i ≠ 0 → 1 < (hrLoop mem c).1) := by
  induction mem, c using hrLoop.induct with
  | case1 mem c h ih =>
    obtain ⟨i, h1, h2, h3, h4⟩ := ih
    rw [hrLoop, dif_pos h]
    refine ⟨i + 1, by rw [h1]; ring, ?_, h3, fun _ => ?_⟩
    · rw [pow_succ (1024 : ℚ) i, ← mul_assoc, h2]; norm_num
    · by_cases hi : i = 0
      · subst hi
        rw [pow_zero, mul_one] at h2
        rw [h2, lt_div_iff₀ (by norm_num)]
        linarith
      · exact h4 hi
  | case2 mem c h =>
    rw [hrLoop, dif_neg h]
    exact ⟨0, rfl, by simp, by norm_num at h ⊢; exact h, fun h => absurd rfl h⟩

theorem hrUnit_of_lt {c : ℕ} (h : c < 9) : ∃ u, hrUnit c = some u ∧ usedUnits[c]? = some u := by
  interval_cases c <;> exact ⟨_, rfl, rfl⟩

theorem hrUnit_of_ge {c : ℕ} (h : 9 ≤ c) : hrUnit c = none := by
  unfold hrUnit
  repeat rw [if_neg (by omega)]

/-- The readable way to write an amount is unique. -/
theorem readable_unique {n v v' : ℚ} {i i' : ℕ} (h : Readable n v i) (h' : Readable n v' i') :
    i = i' ∧ v = v' := by
  have aux : ∀ {v v' : ℚ} {i i' : ℕ}, Readable n v i → Readable n v' i' → ¬ i < i' := by
    intro v v' i i' h h' hlt
    obtain ⟨k, rfl⟩ := Nat.exists_eq_add_of_lt hlt
    have h1 := h.1.trans h'.1.symm
    have hv' : 1 < v' := h'.2.2 (by omega)
    have hp : (0 : ℚ) < 1024 ^ i := by positivity
    have h2 : v = v' * 1024 ^ (k + 1) := by
      have : v * 1024 ^ i = (v' * 1024 ^ (k + 1)) * 1024 ^ i := by
        rw [h1]; ring
      exact mul_right_cancel₀ hp.ne' this
    have h3 : (1024 : ℚ) ≤ 1024 ^ (k + 1) := by
      rw [pow_succ]
      have : (1 : ℚ) ≤ 1024 ^ k := one_le_pow₀ (by norm_num)
      linarith
    have := h.2.1
    nlinarith
  have hi : i = i' := le_antisymm (not_lt.1 (aux h' h)) (not_lt.1 (aux h h'))
  subst hi
  refine ⟨rfl, mul_right_cancel₀ (pow_ne_zero i (by norm_num : (1024 : ℚ) ≠ 0)) (h.1.trans h'.1.symm)⟩

/-- C59: every amount of at most `1024 ^ 9` bytes is converted to its readable form, in the unit the
returned name stands for. -/
theorem memory_readable (n : ℚ) (hn : n ≤ 1024 ^ 9) :
    ∃ v i u, humanReadable (.bytes n) = .ok (v, u) ∧ usedUnits[i]? = some u ∧ Readable n v i := by
  obtain ⟨i, h1, h2, h3, h4⟩ := hrLoop_spec n 0
  rw [zero_add] at h1
  have hi : i < 9 := by
    by_contra hcon
    push Not at hcon
    have h5 := h4 (by omega)
    have h6 : (1024 : ℚ) ^ 9 ≤ 1024 ^ i := pow_le_pow_right₀ (by norm_num) hcon
    have h7 : (0 : ℚ) < 1024 ^ 9 := by positivity
    nlinarith
  obtain ⟨u, hu, hu'⟩ := hrUnit_of_lt hi
  refine ⟨(hrLoop n 0).1, i, u, ?_, hu', h2, h3, h4⟩
  simp only [humanReadable, h1, hu]

/-- C59: larger amounts, and the `'n/a'` of a platform that cannot be read, are not converted but
raise. -/
theorem memory_readable_raises (n : ℚ) (hn : 1024 ^ 9 < n) :
    humanReadable (.bytes n) = .error .unboundLocal ∧ humanReadable .na = .error .typeError := by
  refine ⟨?_, rfl⟩
  obtain ⟨i, h1, h2, h3, h4⟩ := hrLoop_spec n 0
  rw [zero_add] at h1
  have hi : 9 ≤ i := by
    by_contra hcon
    push Not at hcon
    have h6 : (1024 : ℚ) ^ i ≤ 1024 ^ 8 := pow_le_pow_right₀ (by norm_num) (by omega)
    have h7 : (0 : ℚ) < 1024 ^ i := by positivity
    have : (1024 : ℚ) ^ 9 = 1024 * 1024 ^ 8 := by norm_num
    nlinarith
  simp only [humanReadable, h1, hrUnit_of_ge hi]

/-- C59, refuted: above `1024` bytes the unit is never one of the documented names. -/
theorem memory_units_undocumented (n v : ℚ) (u : String) (hn : 1024 < n)
    (h : humanReadable (.bytes n) = .ok (v, u)) : u ∉ documentedUnits := by
  obtain ⟨i, h1, h2, h3, h4⟩ := hrLoop_spec n 0
  rw [zero_add] at h1
  simp only [humanReadable, h1] at h
  have hi : i ≠ 0 := by
    rintro rfl
    rw [pow_zero, mul_one] at h2
    linarith
  rcases lt_or_ge i 9 with hlt | hge
  · obtain ⟨u', hu, hu'⟩ := hrUnit_of_lt hlt
    rw [hu] at h
    simp only [Except.ok.injEq, Prod.mk.injEq] at h
    rw [← h.2]
    interval_cases i
    · exact absurd rfl hi
    all_goals
      simp only [usedUnits, List.getElem?_cons_succ, List.getElem?_cons_zero,
        Option.some.injEq] at hu'
      subst hu'
      decide
  · rw [hrUnit_of_ge hge] at h
    simp at h

/-- C59, partial: on Linux the difference between a start and a read is the difference of the
largest resident memory up to the read and up to the start; that is the acquired memory when both
readings are at the peak of the process. -/
theorem memory_read_partial (m : Memory) (before after : List ℕ) (r₀ r₁ : ℕ)
    (h₀ : ∀ r ∈ before, r ≤ r₀) (h₁ : ∀ r ∈ after, r ≤ r₁) (h : r₀ ≤ r₁) :
    ∃ s s', m.start (linuxAfter (before ++ [r₀])) = .ok s ∧
      s.read (linuxAfter (before ++ [r₀] ++ after ++ [r₁])) false
        = .ok (s', (r₁ * 1024 : ℚ) - r₀ * 1024, "b") := by
  have peak : ∀ (l : List ℕ) (r : ℕ), (∀ x ∈ l, x ≤ r) → (l ++ [r]).foldr max 0 = r := by
    intro l r hl
    induction l with
    | nil => simp
    | cons a l ih =>
      simp only [List.cons_append, List.foldr_cons]
      rw [ih (fun x hx => hl x (by simp [hx]))]
      exact max_eq_right (hl a (by simp))
  have e₀ := peak before r₀ h₀
  have e₁ := peak (before ++ [r₀] ++ after) r₁ (by
    intro x hx
    simp only [List.mem_append, List.mem_singleton] at hx
    rcases hx with (hx | rfl) | hx
    · exact (h₀ x hx).trans h
    · exact h
    · exact h₁ x hx)
  refine ⟨_, ⟨.bytes ((r₀ : ℚ) * 2 ^ 10), (r₁ : ℚ) * 2 ^ 10 - (r₀ : ℚ) * 2 ^ 10⟩, rfl, ?_⟩
  simp only [Memory.read, linuxAfter, residentBytes, e₀, e₁, bind, Except.bind, pure, Except.pure]
  norm_num

/-- C59, refuted: the reading is not the difference of the resident memory. A process that has
already released what it acquires again reads `0` (here it acquires `3` MiB), and memory released
between start and read is never seen: no reading is negative. -/
theorem memory_read_wrong :
    (∃ s s', Memory.new.start (linuxAfter [1024, 4096, 1024]) = .ok s ∧
      s.read (linuxAfter [1024, 4096, 1024, 4096]) false = .ok (s', 0, "b")) ∧
    (∀ (m s s' : Memory) (h h' : List ℕ) (v : ℚ) (u : String),
      m.start (linuxAfter h) = .ok s → s.read (linuxAfter (h ++ h')) false = .ok (s', v, u) →
        0 ≤ v) := by
  constructor
  · exact ⟨_, ⟨.bytes (4096 * 2 ^ 10), 0⟩, rfl, by
      simp [Memory.read, linuxAfter, residentBytes, bind, Except.bind, pure, Except.pure]⟩
  · intro m s s' h h' v u h1 h2
    have mono : h.foldr max 0 ≤ (h ++ h').foldr max 0 := by
      clear h1 h2
      induction h with
      | nil => simp
      | cons a l ih =>
        simp only [List.cons_append, List.foldr_cons]
        exact max_le_max le_rfl ih
    simp only [Memory.start, linuxAfter, residentBytes, bind, Except.bind, pure, Except.pure,
      Except.ok.injEq] at h1
    subst h1
    simp only [Memory.read, linuxAfter, residentBytes, bind, Except.bind, pure, Except.pure,
      Bool.false_eq_true, if_false, Except.ok.injEq, Prod.mk.injEq] at h2
    rw [← h2.2.1]
    have : ((h.foldr max 0 : ℕ) : ℚ) ≤ ((h ++ h').foldr max 0 : ℕ) := by exact_mod_cast mono
    linarith

/-- C59, refuted: where the memory cannot be read, `get_resident_memory` returns the string `'n/a'`
but its readable form, which `imate.info` asks for, and `read` raise a `TypeError`. -/
theorem memory_na_raises (os : Os) (hp : os.platform = .windows)
    (ht : ∀ mem unit, os.tasklist ≠ .line mem unit) (m : Memory) (b : Bool) :
    getResidentMemory os false = .ok (.na, "b") ∧
      getResidentMemory os true = .error .typeError ∧ m.read os b = .error .typeError := by
  have hr : residentBytes os = .ok .na := by
    unfold residentBytes
    rw [hp]
    cases h : os.tasklist with
    | line mem unit => exact absurd h (ht mem unit)
    | _ => rfl
  refine ⟨?_, ?_, ?_⟩ <;>
    simp [getResidentMemory, Memory.read, hr, humanReadable, bind, Except.bind, pure, Except.pure]

/-- C59: on every platform that can be read, the readable form is the same amount. -/
theorem memory_resident_readable (os : Os) (n : ℚ) (hb : residentBytes os = .ok (.bytes n))
    (hn : n ≤ 1024 ^ 9) :
    getResidentMemory os false = .ok (.bytes n, "b") ∧
    ∃ v i u, getResidentMemory os true = .ok (.bytes v, u) ∧ usedUnits[i]? = some u ∧
      Readable n v i := by
  obtain ⟨v, i, u, h, hu, hr⟩ := memory_readable n hn
  exact ⟨by simp [getResidentMemory, hb, bind, Except.bind, pure, Except.pure],
    v, i, u, by simp [getResidentMemory, hb, h, bind, Except.bind, pure, Except.pure], hu, hr⟩

/-- C59: the bytes reported on every platform: kibibytes of `getrusage` on Linux, bytes on other POSIX systems, and on
Windows the number of `tasklist` in the unit K, M, G or T; any other unit raises `UnboundLocalError`. -/
theorem memory_platform_bytes (os : Os) :
    (os.platform = .linux → getResidentMemory os false = .ok (.bytes (os.maxrss * 1024), "b")) ∧
    (os.platform = .otherPosix → getResidentMemory os false = .ok (.bytes os.maxrss, "b")) ∧
    (os.platform = .windows → ∀ mem unit, os.tasklist = .line mem unit →
      (∀ i, ["K", "M", "G", "T"][i]? = some unit →
        getResidentMemory os false = .ok (.bytes (mem * 1024 ^ (i + 1)), "b")) ∧
      (unit ∉ ["K", "M", "G", "T"] → getResidentMemory os false = .error .unboundLocal)) := by
  refine ⟨fun h => ?_, fun h => ?_, fun h mem unit ht => ⟨fun i hi => ?_, fun hu => ?_⟩⟩
  · simp only [getResidentMemory, residentBytes, h, bind, Except.bind, pure, Except.pure]
    norm_num
  · simp only [getResidentMemory, residentBytes, h, bind, Except.bind, pure, Except.pure]
    norm_num
  · simp only [getResidentMemory, residentBytes, h, ht, bind, Except.bind, pure, Except.pure]
    rcases i with _ | _ | _ | _ | i
    · obtain rfl : "K" = unit := by simpa using hi
      simp [tasklistExponent]
      norm_num
    · obtain rfl : "M" = unit := by simpa using hi
      simp [tasklistExponent]
      norm_num
    · obtain rfl : "G" = unit := by simpa using hi
      simp [tasklistExponent]
      norm_num
    · obtain rfl : "T" = unit := by simpa using hi
      simp [tasklistExponent]
      norm_num
    · simp at hi
  · simp only [List.mem_cons, List.not_mem_nil, or_false, not_or] at hu
    simp [getResidentMemory, residentBytes, h, ht, tasklistExponent, hu.1, hu.2.1, hu.2.2.1, hu.2.2.2, bind, Except.bind]

example : getResidentMemory ⟨.windows, 0, .line 12345 "M"⟩ false = .ok (.bytes 12944670720, "b") := by
  rw [((memory_platform_bytes _).2.2 rfl 12345 "M" rfl).1 1 rfl]
  norm_num

example : humanReadable (.bytes 679936) = .ok (664, "Kb") := by
  obtain ⟨v, i, u, h, hu, hr⟩ := memory_readable 679936 (by norm_num)
  obtain ⟨rfl, rfl⟩ := readable_unique hr (⟨by norm_num, by norm_num, by norm_num⟩ :
    Readable 679936 664 1)
  rw [h]
  simp [usedUnits] at hu
  rw [hu]

example : residentBytes (linuxAfter [90776]) = .ok (.bytes 92954624) := by
  simp [residentBytes, linuxAfter]; norm_num

end Imate.Props
