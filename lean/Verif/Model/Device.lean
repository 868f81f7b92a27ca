import Mathlib.Algebra.Order.Floor.Semiring
import Mathlib.Data.Rat.Floor
import Mathlib.Tactic.Linarith
import Verif.Model.Py

/-!
# `imate.Timer` and `imate.Memory`

Clock readings and memory sizes are exact rationals; the clocks, the operating system and the output
of `tasklist` are inputs of the model.
-/

namespace Imate.Device

/-- The attributes of a `Timer` object (imate/device/_timer.py:241-255). -/
structure Timer where
  initWall : ℚ
  initProc : ℚ
  ticInitiated : Bool
  hold : Bool
  wall : ℚ
  proc : ℚ
  count : ℕ
  deriving DecidableEq, Repr

/-- `Timer.__init__` (imate/device/_timer.py:241-255). -/
def Timer.new (hold : Bool) : Timer :=
  { initWall := 0, initProc := 0, ticInitiated := false, hold := hold, wall := 0, proc := 0,
    count := 0 }

/-- `Timer.tic` (imate/device/_timer.py:261-310); `w` and `p` are the readings of `time.time()` and
`time.process_time()`. -/
def Timer.tic (s : Timer) (w p : ℚ) : Timer :=
  { s with initWall := w, initProc := p, ticInitiated := true }

/-- `Timer.toc` (imate/device/_timer.py:316-377); `w` and `p` are the readings of `time.time()` and
`time.process_time()`. -/
def Timer.toc (s : Timer) (w p : ℚ) : Timer :=
  let wall_ := w - s.initWall
  let proc_ := p - s.initProc
  let s := if s.hold then { s with wall := s.wall + wall_, proc := s.proc + proc_ }
    else { s with wall := wall_, proc := proc_ }
  if s.ticInitiated then { s with ticInitiated := false, count := s.count + 1 } else s

/-- `Timer.reset` (imate/device/_timer.py:383-435). -/
def Timer.reset (s : Timer) : Timer :=
  { s with wall := 0, proc := 0, ticInitiated := false, count := 0 }

/-- A call of a method of the timer, with the readings of the clocks at that moment. -/
inductive Call where
  | tic (w p : ℚ)
  | toc (w p : ℚ)
  | reset
  deriving DecidableEq, Repr

/-- One call (imate/device/_timer.py:261-435). -/
def Timer.step (s : Timer) : Call → Timer
  | .tic w p => s.tic w p
  | .toc w p => s.toc w p
  | .reset => s.reset

/-- A history of calls (imate/device/_timer.py:261-435). -/
def Timer.run (s : Timer) (h : List Call) : Timer := h.foldl Timer.step s

/-- The operating system as `_get_resident_memory_in_bytes` tells them apart
(imate/device/_memory.py:396-403). -/
inductive Platform where
  | linux
  | otherPosix
  | windows
  deriving DecidableEq, Repr

/-- What `tasklist` answers (imate/device/_memory.py:405-432). Simplified: the last line is given as
the parsed number and unit. -/
inductive Tasklist where
  | fileNotFound
  | failed
  | noDigits
  | line (mem : ℕ) (unit : String)
  deriving DecidableEq, Repr

/-- The state of the operating system at a reading: `maxrss` is the field `ru_maxrss` of
`getrusage`, in the unit of the platform. -/
structure Os where
  platform : Platform
  maxrss : ℕ
  tasklist : Tasklist

/-- A value that is either a number of bytes or the string `'n/a'`. -/
inductive Mem where
  | bytes (n : ℚ)
  | na
  deriving DecidableEq, Repr

/-- The exponents of the units of `tasklist` (imate/device/_memory.py:434-442). -/
def tasklistExponent (unit : String) : Option ℕ :=
  if unit = "K" then some 1
  else if unit = "M" then some 2
  else if unit = "G" then some 3
  else if unit = "T" then some 4
  else none

/-- `Memory._get_resident_memory_in_bytes` (imate/device/_memory.py:381-450). -/
def residentBytes (os : Os) : Except PyExc Mem :=
  match os.platform with
  | .linux => .ok (.bytes (os.maxrss * 2 ^ 10))
  | .otherPosix => .ok (.bytes os.maxrss)
  | .windows =>
    match os.tasklist with
    | .fileNotFound => .ok .na
    | .failed => .ok .na
    | .noDigits => .ok .na
    | .line mem unit =>
      match tasklistExponent unit with
      | some e => .ok (.bytes (mem * (2 ^ 10) ^ e))
      | none => .error .unboundLocal

theorem div_floor_lt {x : ℚ} (h : (2 : ℚ) ^ 10 < x) : ⌊x / 2 ^ 10⌋₊ < ⌊x⌋₊ := by
  have hx : (0 : ℚ) ≤ x / 2 ^ 10 := by positivity
  rw [Nat.floor_lt hx]
  have h1 : x < ⌊x⌋₊ + 1 := Nat.lt_floor_add_one x
  rw [div_lt_iff₀ (by positivity)]
  have h3 : (1 : ℚ) ≤ ⌊x⌋₊ := by
    have : 1 ≤ ⌊x⌋₊ := Nat.le_floor (by norm_num at h ⊢; linarith)
    exact_mod_cast this
  norm_num
  linarith

/-- The loop of `Memory._human_readable_memory` (imate/device/_memory.py:466-468). -/
def hrLoop (mem : ℚ) (counter : ℕ) : ℚ × ℕ :=
  if _h : 2 ^ 10 < mem then hrLoop (mem / 2 ^ 10) (counter + 1) else (mem, counter)
termination_by ⌊mem⌋₊
decreasing_by exact div_floor_lt _h

/-- The units of `Memory._human_readable_memory` (imate/device/_memory.py:470-487). -/
def hrUnit (counter : ℕ) : Option String :=
  if counter = 0 then some "b"
  else if counter = 1 then some "Kb"
  else if counter = 2 then some "Mb"
  else if counter = 3 then some "Gb"
  else if counter = 4 then some "Tb"
  else if counter = 5 then some "Pb"
  else if counter = 6 then some "Eb"
  else if counter = 7 then some "Zb"
  else if counter = 8 then some "Yb"
  else none

/-- `Memory._human_readable_memory` (imate/device/_memory.py:457-489). The comparison of the string
`'n/a'` with a number raises a `TypeError`; without a unit the `return` reads an unassigned
variable. -/
def humanReadable : Mem → Except PyExc (ℚ × String)
  | .na => .error .typeError
  | .bytes n =>
    let r := hrLoop n 0
    match hrUnit r.2 with
    | some u => .ok (r.1, u)
    | none => .error .unboundLocal

/-- `Memory.get_resident_memory` (imate/device/_memory.py:299-374). -/
def getResidentMemory (os : Os) (human : Bool) : Except PyExc (Mem × String) := do
  let mem ← residentBytes os
  if human then
    let r ← humanReadable mem
    return (.bytes r.1, r.2)
  else return (mem, "b")

/-- The attributes of a `Memory` object (imate/device/_memory.py:132-141). -/
structure Memory where
  initMem : Mem
  memDiff : ℚ

/-- `Memory.__init__` (imate/device/_memory.py:132-141). -/
def Memory.new : Memory := { initMem := .bytes 0, memDiff := 0 }

/-- `Memory.start` (imate/device/_memory.py:147-191). -/
def Memory.start (s : Memory) (os : Os) : Except PyExc Memory := do
  let m ← residentBytes os
  return { s with initMem := m }

/-- `Memory.read` (imate/device/_memory.py:197-292). A difference with a string raises a
`TypeError`. -/
def Memory.read (s : Memory) (os : Os) (human : Bool) :
    Except PyExc (Memory × ℚ × String) := do
  let final ← residentBytes os
  match final, s.initMem with
  | .bytes a, .bytes b =>
    let s := { s with memDiff := a - b }
    if human then
      let r ← humanReadable (.bytes s.memDiff)
      return (s, r.1, r.2)
    else return (s, s.memDiff, "b")
  | _, _ => .error .typeError

end Imate.Device
