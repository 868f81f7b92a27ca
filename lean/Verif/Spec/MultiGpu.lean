import Verif.Model.MultiGpu

/-! # Specification: the memory of an operator on several devices -/

namespace Imate.Spec

open Imate.MultiGpu

/-- The team of `team` threads has executed the parallel region in some order. -/
def Built {α : Type} (r team : Nat) (host : Nat → α) (start s : State α) : Prop :=
  ∃ schedule : List Nat, (∀ i ∈ schedule, i < team) ∧ s = run r host schedule start ∧ Finished r team s

/-- The blocks that were allocated since `start` and are still there. -/
def remaining {α : Type} (start s : State α) : List (Block α) := (s.heap.drop start.heap.length).filter (·.live)

/-- The earlier allocations are as they were. -/
def Untouched {α : Type} (start s : State α) : Prop := s.heap.take start.heap.length = start.heap

end Imate.Spec
