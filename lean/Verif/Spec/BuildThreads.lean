import Verif.Model.BuildThreads

/-!
# What a build has to do
-/

namespace Imate.Spec.BuildThreads

open Imate.BuildThreads
open Imate.Build (splitext)

/-- A source in CUDA is compiled by `nvcc` with its arguments, every other by the default compiler with its arguments. -/
def Right (c : Command) : Prop :=
  if splitext c.source = ".cu".toList then c.tool = .nvcc ∧ c.args = .nvcc else c.tool = .default ∧ c.args = .notNvcc

/-- A schedule in which no thread moves while another is inside `_compile`: every turn is a whole call. -/
def Serial (schedule : List ℕ) : Prop := ∃ turns : List ℕ, schedule = turns.flatMap fun i => [i, i, i]

/-- The linker found all objects whole. -/
def Whole (l : Link) : Prop := ∀ o ∈ l.objects, o = .complete

end Imate.Spec.BuildThreads
