import Verif.Model.BuildOptions

/-!
# What the build options mean

Facts about CUDA devices and compilers that are not in the code of the package; from the documentation of NVIDIA.
-/

namespace Imate.Spec.Build

open Imate.Build (Gencode Env Macro)

/-- The environment with one variable set. -/
def setVar (env : Env) (name value : String) : Env := fun n => if n = name then some value else env n

/-- Device code runs on a device of compute capability `major.minor`: a binary runs on devices of the same major number
with at least its minor number, intermediate code on all devices of at least its capability. -/
def RunsOn (g : Gencode) (major minor : ℕ) : Prop :=
  if g.real then g.code / 10 = major ∧ g.code % 10 ≤ minor else g.code ≤ 10 * major + minor

/-- Some part of the device code runs on the device. -/
def Supported (gs : List Gencode) (major minor : ℕ) : Prop := ∃ g ∈ gs, RunsOn g major minor

/-- The releases of the CUDA toolkit whose compiler knows an architecture: from the first release, and before the one that
removed it. -/
def Knows (toolkit : ℕ × ℕ) (arch : ℕ) : Prop :=
  let since (a b : ℕ) := a < toolkit.1 ∨ (a = toolkit.1 ∧ b ≤ toolkit.2)
  (arch = 35 ∧ since 5 0 ∧ ¬ since 12 0) ∨ (arch = 50 ∧ since 6 0 ∧ ¬ since 13 0) ∨ (arch = 52 ∧ since 7 0 ∧ ¬ since 13 0) ∨
  (arch = 60 ∧ since 8 0 ∧ ¬ since 13 0) ∨ (arch = 61 ∧ since 8 0 ∧ ¬ since 13 0) ∨ (arch = 70 ∧ since 9 0 ∧ ¬ since 13 0) ∨
  (arch = 75 ∧ since 10 0) ∨ (arch = 80 ∧ since 11 0) ∨ (arch = 86 ∧ since 11 1)

/-- The macros that the environment asks for by the variables the script reads. -/
def Asked (env : Env) (m : Macro) : Prop :=
  m = ("CYTHON_EXTERN_C", "extern \"C\"") ∨
  (m = ("USE_CBLAS", "1") ∧ env "USE_CBLAS" = some "1") ∨
  (m = ("LONG_INT", "1") ∧ env "USE_LONG_INT" = some "1") ∨
  (m = ("UNSIGNED_LONG_INT", "1") ∧ env "USE_UNSIGNED_LONG_INT" = some "1")

end Imate.Spec.Build
