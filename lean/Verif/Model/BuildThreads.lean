import Verif.Model.BuildOptions

/-!
# Model of the parallel build, `CustomBuildExtension.build_extensions` and `customize_unix_compiler_for_nvcc` of `setup.py`

On Unix the script sets `self.parallel` to the number of processors (setup.py:1036-1037), so setuptools builds the
extensions in threads that share one compiler object.  A thread compiles the sources of its extension one after another and
links their objects.  The threads interleave at every read and write of the shared compiler and of an object file.
-/

namespace Imate.BuildThreads

open Imate.LocateCuda (Text)
open Imate.Build (splitext)

/-! ## The shared compiler -/

/-- A compiler command. -/
inductive Tool where
  | default
  | nvcc
  deriving DecidableEq, Repr

/-- The two lists of arguments in the dictionary `extra_compile_args`, setup.py:1017-1020. -/
inductive Args where
  | notNvcc
  | nvcc
  deriving DecidableEq, Repr

/-- One command: the thread that runs it, the source, the compiler and the arguments. -/
structure Command where
  thread : Nat
  source : Text
  tool : Tool
  args : Args
  deriving DecidableEq, Repr

/-- Where a thread is in `_compile`, setup.py:541-577: before the choice of the compiler, before the call of the original
function (which reads `self.compiler_so`), before the compiler is set back. -/
inductive Pc where
  | enter
  | call
  | leave
  deriving DecidableEq, Repr

structure Thread where
  todo : List Text
  pc : Pc
  deriving DecidableEq, Repr

structure State where
  /-- `self.compiler_so` -/
  compilerSo : Tool
  threads : Nat → Thread
  /-- the commands that were run -/
  log : List Command

def setThread (s : State) (i : Nat) (t : Thread) : Nat → Thread := fun j => if j = i then t else s.threads j

/-- One step of thread `i` in `_compile`, setup.py:541-577. -/
def step (s : State) (i : Nat) : State :=
  match (s.threads i).todo with
  | [] => s
  | src :: rest =>
    match (s.threads i).pc with
    | .enter =>
      if splitext src = ".cu".toList then { s with compilerSo := .nvcc, threads := setThread s i ⟨src :: rest, .call⟩ }
      else { s with threads := setThread s i ⟨src :: rest, .call⟩ }
    | .call =>
      { s with
        threads := setThread s i ⟨src :: rest, .leave⟩,
        log := s.log ++ [⟨i, src, s.compilerSo, if splitext src = ".cu".toList then .nvcc else .notNvcc⟩] }
    | .leave => { s with compilerSo := .default, threads := setThread s i ⟨rest, .enter⟩ }

/-- The start: one thread for each extension. -/
def start (extensions : List (List Text)) : State := ⟨.default, fun i => ⟨extensions.getD i [], .enter⟩, []⟩

/-- The steps of the threads in the order of the schedule. -/
def run (s : State) (schedule : List Nat) : State := schedule.foldl step s

/-! ## The object files -/

/-- An object file: a compiler that writes it first empties it. -/
inductive Obj where
  | absent
  | unfinished
  | complete
  deriving DecidableEq, Repr

/-- One linker run: the thread and the objects as the linker finds them. -/
structure Link where
  thread : Nat
  objects : List Obj
  deriving DecidableEq, Repr

/-- A thread that builds an extension: the sources still to compile, whether a compiler runs, whether it has linked. -/
structure Job where
  todo : List Text
  writing : Bool
  linked : Bool
  deriving DecidableEq, Repr

structure Files where
  object : Text → Obj
  jobs : Nat → Job
  links : List Link

def setJob (s : Files) (i : Nat) (t : Job) : Nat → Job := fun j => if j = i then t else s.jobs j

def setObject (s : Files) (src : Text) (o : Obj) : Text → Obj := fun t => if t = src then o else s.object t

/-- One step of `build_ext.build_extension` in thread `i` (called from setup.py:1054): start or end of a compiler, or the
linker.  The object of a source is named after the source (in the directory of temporary files, which all extensions
share), so the source stands for it. -/
def stepFiles (extensions : List (List Text)) (s : Files) (i : Nat) : Files :=
  match (s.jobs i).todo with
  | src :: rest =>
    if (s.jobs i).writing then
      { s with object := setObject s src .complete, jobs := setJob s i ⟨rest, false, false⟩ }
    else { s with object := setObject s src .unfinished, jobs := setJob s i ⟨src :: rest, true, false⟩ }
  | [] =>
    if (s.jobs i).linked then s
    else { s with
      jobs := setJob s i ⟨[], false, true⟩,
      links := s.links ++ [⟨i, (extensions.getD i []).map s.object⟩] }

def startFiles (extensions : List (List Text)) : Files :=
  ⟨fun _ => .absent, fun i => ⟨extensions.getD i [], false, decide (extensions.length ≤ i)⟩, []⟩

def runFiles (extensions : List (List Text)) (s : Files) (schedule : List Nat) : Files :=
  schedule.foldl (stepFiles extensions) s

end Imate.BuildThreads
