import Mathlib.Algebra.BigOperators.Group.Finset.Basic
import Mathlib.Data.Rat.Floor
import Verif.Model.Device

/-!
# What a timer and a memory meter measure

Read off the history of calls, without the timer's own variables.
-/

namespace Imate.Spec

open Imate.Device
open scoped Classical

/-- The readings of the clocks in the calls of `tic` of a history, in order. -/
def ticReadings (h : List Call) : List (ℚ × ℚ) :=
  h.filterMap fun c => match c with
    | .tic w p => some (w, p)
    | _ => none

/-- The readings at the last `tic` before position `i`; the origin of the clocks if there is none. -/
def lastTic (h : List Call) (i : ℕ) : ℚ × ℚ := ((ticReadings (h.take i)).getLast?).getD (0, 0)

/-- The wall time between the `toc` at position `i` and the last `tic` before it. -/
def wallSinceTic (h : List Call) (i : ℕ) : ℚ :=
  match h[i]? with
  | some (.toc w _) => w - (lastTic h i).1
  | _ => 0

/-- The process time between the `toc` at position `i` and the last `tic` before it. -/
def procSinceTic (h : List Call) (i : ℕ) : ℚ :=
  match h[i]? with
  | some (.toc _ p) => p - (lastTic h i).2
  | _ => 0

/-- There is a `toc` at position `i`. -/
def TocAt (h : List Call) (i : ℕ) : Prop := ∃ w p, h[i]? = some (.toc w p)

/-- There is a `tic` at position `i`. -/
def TicAt (h : List Call) (i : ℕ) : Prop := ∃ w p, h[i]? = some (.tic w p)

/-- The timer is not reset at or after position `i`. -/
def NoResetFrom (h : List Call) (i : ℕ) : Prop := ∀ k, i ≤ k → h[k]? ≠ some .reset

/-- The call at position `i` is a `toc` that completes a pair: some `tic` precedes it with neither a
`toc` nor a `reset` between them. -/
def CompletesPair (h : List Call) (i : ℕ) : Prop :=
  TocAt h i ∧ ∃ j < i, TicAt h j ∧ ∀ k, j < k → k < i → ¬ TocAt h k ∧ h[k]? ≠ some .reset

/-- The number of completed pairs since the last reset. -/
noncomputable def completedPairs (h : List Call) : ℕ :=
  ((Finset.range h.length).filter fun i => CompletesPair h i ∧ NoResetFrom h i).card

/-- The times of all calls of `toc` since the last reset, added up. -/
noncomputable def totalWall (h : List Call) : ℚ :=
  ∑ i ∈ (Finset.range h.length).filter (fun i => NoResetFrom h i), wallSinceTic h i

/-- As `totalWall`, for the process time. -/
noncomputable def totalProc (h : List Call) : ℚ :=
  ∑ i ∈ (Finset.range h.length).filter (fun i => NoResetFrom h i), procSinceTic h i

/-- The readings of a clock in a history never decrease and start at or above its origin. -/
def wallReadings (h : List Call) : List ℚ :=
  h.filterMap fun c => match c with
    | .tic w _ => some w
    | .toc w _ => some w
    | .reset => none

/-- The clock runs forwards from its origin. -/
def Forwards (h : List Call) : Prop :=
  (wallReadings h).Pairwise (· ≤ ·) ∧ ∀ w ∈ wallReadings h, 0 ≤ w

/-- A task timed from `start` to `stop` on both clocks. -/
structure Task where
  wallStart : ℚ
  procStart : ℚ
  wallStop : ℚ
  procStop : ℚ

/-- Timing tasks one after another, each between a `tic` and a `toc`. -/
def timeTasks (tasks : List Task) : List Call :=
  tasks.flatMap fun t => [.tic t.wallStart t.procStart, .toc t.wallStop t.procStop]

/-- The documented names of the units of memory: `1024 ^ i` bytes is one `i`-th unit
(imate/device/_memory.py:223-231). -/
def documentedUnits : List String := ["b", "KB", "MB", "GB", "TB", "PB", "EB", "ZB", "YB"]

/-- The names the code uses. -/
def usedUnits : List String := ["b", "Kb", "Mb", "Gb", "Tb", "Pb", "Eb", "Zb", "Yb"]

/-- The amount `v` in the `i`-th unit is a readable way to write `n` bytes: it is the same amount,
at most `1024`, and more than one unless it is counted in bytes. -/
def Readable (n v : ℚ) (i : ℕ) : Prop := v * 1024 ^ i = n ∧ v ≤ 1024 ∧ (i ≠ 0 → 1 < v)

/-- The operating system at a moment of a process whose resident memory was `rss`, in kilobytes, from
its start up to now: `getrusage` reports the largest value so far. -/
def linuxAfter (rss : List ℕ) : Os :=
  { platform := .linux, maxrss := rss.foldr max 0, tasklist := .fileNotFound }

end Imate.Spec
