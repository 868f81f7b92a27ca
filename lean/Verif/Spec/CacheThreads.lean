import Verif.Model.CacheThreads

/-! Specification vocabulary for C101. -/

namespace Imate.Spec

open Imate.Cache Imate.CacheThreads

/-- No thread asks for an operator on the GPU. -/
def OnlyCpu (events : List Event) : Prop := ∀ t gpu k, Event.call t gpu k ∈ events → gpu = false

/-- Every thread asks for an operator on `k` devices of the GPU. -/
def OnlyGpu (k : Nat) (events : List Event) : Prop := ∀ t gpu k', Event.call t gpu k' ∈ events → gpu = true ∧ k' = k

/-- A construction in a step of the thread raised the exception. -/
def RaisedBy (events : List Event) (t : Nat) (x : PyExc) : Prop := ∃ e, Event.step t e ∈ events ∧ e.failure = some x

/-- How many steps a thread takes. -/
def stepsOf (t : Nat) (events : List Event) : Nat :=
  events.countP fun | .step t' _ => t' = t | _ => false

/-- What one call gives when no other thread runs: all its steps in a row. -/
def alone {M : Type} (e : Env) (gpu : Bool) (k : Nat) (o : Obj M) : State M :=
  (State.init o).run (.call 0 gpu k :: List.replicate 16 (.step 0 e))

end Imate.Spec
