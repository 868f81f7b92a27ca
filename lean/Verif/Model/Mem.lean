/-!
# Bounds-checked memory and C-style loops

The C++ core works on raw pointers.  The model replaces every buffer by an `Array` and every access
by a checked access, so that an out-of-bounds access is an observable error value.
-/

namespace Imate

/-- Errors a modelled native routine can run into. -/
inductive Fault where
  /-- read or write outside the buffer -/
  | outOfBounds
  /-- a documented `abort()`/`assert` or exception -/
  | abort
  /-- an arithmetic use of a value that was never written, or of the `inf`/`NaN` left by a division
  by zero -/
  | invalid
  deriving DecidableEq, Repr

/-- `p[i]` as an r-value. -/
def rd {α : Type _} (a : Array α) (i : Nat) : Except Fault α :=
  match a[i]? with
  | some x => .ok x
  | none => .error .outOfBounds

/-- `p[i] = x`. -/
def wr {α : Type _} (a : Array α) (i : Nat) (x : α) : Except Fault (Array α) :=
  if h : i < a.size then .ok (a.set i x) else .error .outOfBounds

/-- `for (i = lo, lo+step, …; count iterations) s = body(i, s)`: a loop that makes `count` iterations
starting with index `i` and increasing the index by `step`. -/
def loopN {σ : Type _} (step : Nat) (body : Nat → σ → Except Fault σ) :
    (count : Nat) → (i : Nat) → σ → Except Fault σ
  | 0, _, s => .ok s
  | n + 1, i, s => do
    let s ← body i s
    loopN step body n (i + step) s

/-- `for (i = lo; i < hi; ++i) s = body(i, s)`. -/
def forRange {σ : Type _} (lo hi : Nat) (body : Nat → σ → Except Fault σ) (s : σ) :
    Except Fault σ :=
  loopN 1 body (hi - lo) lo s

/-- `for (i = 0; i < hi; i += step) s = body(i, s)`; the number of iterations is `⌈hi/step⌉`
(`step > 0`). -/
def forStep {σ : Type _} (step hi : Nat) (body : Nat → σ → Except Fault σ) (s : σ) :
    Except Fault σ :=
  loopN step body ((hi + step - 1) / step) 0 s

end Imate
