import Verif.Model.BuildClean

/-!
# What may be cleaned
-/

namespace Imate.Spec.BuildClean

open Imate.BuildClean (File)
open Imate.LocateCuda (Text)

/-- A file is known by its directory and name. -/
def Distinct (fs : List File) : Prop := fs.Pairwise fun f g => ¬ (f.dir = g.dir ∧ f.name = g.name)

def Visible (name : Text) : Prop := name.head? ≠ some '.'

/-- The first line says that Cython wrote the file. -/
def Generated (content : Text) : Prop :=
  ∃ line, (line = content ∧ '\n' ∉ line ∨ ∃ rest, content = line ++ '\n' :: rest ∧ '\n' ∉ line) ∧
    ("/* Generated by Cython".toList <+: line ∨ "failed Cython compilation".toList <:+: line)

/-- The file comes from the Cython source `base.pyx` in one of the directories: it is `base.h`, `base.c` or `base.cpp`,
written by Cython, or a library whose name begins with `base`. -/
def FromCython (dirs : List Text) (fs : List File) (f : File) : Prop :=
  ∃ base, ∃ p ∈ fs, p.dir = f.dir ∧ f.dir ∈ dirs ∧ p.name = base ++ ".pyx".toList ∧ Visible p.name ∧
    ((f.name ∈ [base ++ ".h".toList, base ++ ".c".toList, base ++ ".cpp".toList] ∧ Generated f.content) ∨
     (base <+: f.name ∧ Visible f.name ∧
      (".so".toList <:+ f.name ∨ ".dll".toList <:+ f.name ∨ ".dylib".toList <:+ f.name)))

end Imate.Spec.BuildClean
