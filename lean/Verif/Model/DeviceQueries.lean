import Verif.Model.LocateCuda

/-!
# Model of the queries of the processor and the GPU devices

`imate/device/_device.py`.  The functions run shell commands and parse what these print.

Simplified: texts are sequences of characters, with no difference between characters and bytes (`cut -c` of GNU counts
bytes); `wc -l` prints a decimal number that `int` reads back.  A command that does not exist ends with exit status
127 and prints nothing on the standard output, so `FileNotFoundError` is never raised (`shell=True`).
-/

namespace Imate.DeviceQueries

open Imate.LocateCuda

/-- The ways in which `nvidia-smi` is called. -/
inductive Smi where
  /-- `nvidia-smi` -/
  | plain
  /-- `nvidia-smi -a` -/
  | all
  /-- `nvidia-smi --list-gpus` -/
  | list
  /-- `nvidia-smi -q` -/
  | query
  deriving DecidableEq

/-- The machine: exit status and standard output of each call of `nvidia-smi`, the output of the other commands, and
what Python knows about the processors. -/
structure Machine where
  smi : Smi → Nat × Text
  /-- `platform.system()` -/
  system : Text
  /-- `platform.processor()` -/
  processor : Text
  /-- `sysctl -n machdep.cpu.brand_string` -/
  sysctl : Text
  /-- `cat /proc/cpuinfo` -/
  cpuinfo : Text
  /-- `os.sched_getaffinity(0)`, where Python has this function -/
  affinity : Option (List Nat)
  /-- `os.cpu_count()`; may be `None` -/
  cpuCount : Option Nat

/-! ## Texts -/

/-- `p in s` -/
def contains (p : Text) : Text → Bool
  | [] => p.isPrefixOf []
  | x :: xs => p.isPrefixOf (x :: xs) || contains p xs

/-- The text before and after the last occurrence of `c`. -/
def splitLast (c : Char) : Text → Option (Text × Text)
  | [] => none
  | x :: xs =>
    match splitLast c xs with
    | some (a, b) => some (x :: a, b)
    | none => if x = c then some ([], xs) else none

/-- The lines that a shell command sees, without their ends. -/
def shellLines (t : Text) : List Text := (lines t).map fun l => l.filter (· ≠ '\n')

/-- Lines that a shell command prints. -/
def unlines (ls : List Text) : Text := ls.flatMap (· ++ ['\n'])

/-! ## Processor -/

/-- `re.sub(".*model name.*:", "", line, 1)`, _device.py:88.  Both stars are greedy: the match extends to the last
colon that has `model name` somewhere before it, and there is none if and only if the last colon has not. -/
def subModelName (line : Text) : Text :=
  match splitLast ':' line with
  | some (a, b) => if contains "model name".toList a then b else line
  | none => line

/-- The loop over the lines, _device.py:86-90. -/
def findModelName : List Text → Text
  | [] => []
  | l :: ls => if contains "model name".toList l then (subModelName l).drop 1 else findModelName ls

/-- `get_processor_name`, _device.py:75-90. -/
def getProcessorName (m : Machine) : Text :=
  if m.system = "Windows".toList then m.processor
  else if m.system = "Darwin".toList then strip m.sysctl
  else if m.system = "Linux".toList then findModelName (split '\n' (strip m.cpuinfo))
  else []

/-- `get_num_cpu_threads`, _device.py:149-154; `none` is Python's `None`. -/
def getNumCpuThreads (m : Machine) : Option Nat :=
  match m.affinity with
  | some cpus => some cpus.length
  | none => m.cpuCount

/-! ## GPU devices -/

/-- `_check_nvidia_smi`, _device.py:398-415. -/
def checkNvidiaSmi (m : Machine) : Bool := (m.smi .plain).1 = 0

/-- `grep -i p`: the lines that contain the text in upper or lower case. -/
def grepI (p : Text) (ls : List Text) : List Text :=
  ls.filter fun l => contains (p.map Char.toLower) (l.map Char.toLower)

/-- `grep -o ":.*"`: each line from its first colon on. -/
def grepColon (ls : List Text) : List Text :=
  (ls.map fun l => l.dropWhile (· ≠ ':')).filter (· ≠ [])

/-- `cut -c 3-` -/
def cut3 (ls : List Text) : List Text := ls.map (·.drop 2)

def notFound : Text := "not found".toList

/-- What is made of the output of a pipeline, _device.py:216-225, 366-375.  The exit status of a pipeline is the one of
its last command, `cut`, which is zero. -/
def orNotFound (ls : List Text) : Text :=
  let t := strip (unlines ls)
  if t = [] then notFound else t

/-- `get_gpu_name`, _device.py:203-230: `grep -m 1` takes the first line. -/
def getGpuName (m : Machine) : Text :=
  if checkNvidiaSmi m then
    orNotFound (cut3 (grepColon ((grepI "Product Name".toList (shellLines (m.smi .all).2)).take 1)))
  else notFound

/-- `get_num_gpu_devices`, _device.py:282-305: `wc -l` counts the ends of lines; the exit status of the pipeline is
the one of `wc`. -/
def getNumGpuDevices (m : Machine) : Nat :=
  if checkNvidiaSmi m then (m.smi .list).2.count '\n' else 0

/-- `get_nvidia_driver_version`, _device.py:353-380: all lines. -/
def getNvidiaDriverVersion (m : Machine) : Text :=
  if checkNvidiaSmi m then
    orNotFound (cut3 (grepColon (grepI "Driver Version".toList (shellLines (m.smi .query).2))))
  else notFound

/-! ## Environment -/

/-- `restrict_to_single_processor`, _device.py:513-517, on the environment of the process. -/
def restrictToSingleProcessor (env : String → Option String) : String → Option String :=
  let set (env : String → Option String) (k : String) : String → Option String := fun x => if x = k then some "1" else env x
  set (set (set (set (set env "OMP_NUM_THREADS") "OPENBLAS_NUM_THREADS") "MKL_NUM_THREADS") "VECLIB_MAXIMUM_THREADS")
    "NUMEXPR_NUM_THREADS"

end Imate.DeviceQueries
