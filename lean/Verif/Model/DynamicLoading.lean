import Mathlib.Logic.Function.Basic
import Mathlib.Data.List.Basic

/-!
# Model of `imate/_cuda_dynamic_loading`

The functions of CUDA are called through static pointers that are set at the first call, by threads that interleave.
The dynamic linker is a parameter.  Simplifications: an address is a number; the libraries do not change during a run; the
pointers are read and written atomically; the arguments of the functions, which are passed on, are left out.
-/

namespace Imate.DynamicLoading

inductive Library where
  | cudart
  | cublas
  | cusparse
  deriving DecidableEq, Repr

inductive Platform where
  | linux
  | apple
  | windows
  deriving DecidableEq, Repr

/-- `lib_extension`, cudart_symbols.cpp:59-68, cublas_symbols.cpp:55-64, cusparse_symbols.cpp:49-58 -/
def extension : Platform → String
  | .windows => "lib"
  | .apple => "dylib"
  | .linux => "so"

/-- `get_lib_name`, cudart_symbols.cpp:53-91, cublas_symbols.cpp:49-83, cusparse_symbols.cpp:44-77; `major` is the
version the package was compiled with. -/
def libName (p : Platform) (major : Library → Nat) : Library → String
  | .cudart => "libcudart" ++ "." ++ extension p
  | .cublas => "libcublas" ++ "." ++ extension p ++ "." ++ toString (major .cublas)
  | .cusparse => "libcusparse" ++ "." ++ extension p ++ "." ++ toString (major .cusparse)

/-- A function of the package that stands for one of CUDA: its name, the symbol it looks for, and the static pointers it
compares to `NULL`, writes to, and calls. -/
structure Wrapper where
  library : Library
  api : String
  symbol : String
  checked : String
  stored : String
  called : String
  deriving DecidableEq, Repr

/-- All functions of cublas_symbols.cpp:97-507, cudart_symbols.cpp:106-464 and cusparse_symbols.cpp:92-318. -/
def wrappers : List Wrapper := [
  ⟨.cublas, "cublasCreate_v2", "cublasCreate_v2", "cublasCreate", "cublasCreate", "cublasCreate"⟩,
  ⟨.cublas, "cublasDestroy_v2", "cublasDestroy_v2", "cublasDestroy", "cublasDestroy", "cublasDestroy"⟩,
  ⟨.cublas, "cublasSgemv_v2", "cublasSgemv_v2", "cublasSgemv", "cublasSgemv", "cublasSgemv"⟩,
  ⟨.cublas, "cublasDgemv_v2", "cublasDgemv_v2", "cublasDgemv", "cublasDgemv", "cublasDgemv"⟩,
  ⟨.cublas, "cublasScopy", "cublasScopy_v2", "cublasScopy", "cublasScopy", "cublasScopy"⟩,
  ⟨.cublas, "cublasDcopy", "cublasDcopy_v2", "cublasDcopy", "cublasDcopy", "cublasDcopy"⟩,
  ⟨.cublas, "cublasSaxpy", "cublasSaxpy_v2", "cublasSaxpy", "cublasSaxpy", "cublasSaxpy"⟩,
  ⟨.cublas, "cublasDaxpy", "cublasDaxpy_v2", "cublasDaxpy", "cublasDaxpy", "cublasDaxpy"⟩,
  ⟨.cublas, "cublasSdot", "cublasSdot_v2", "cublasSdot", "cublasSdot", "cublasSdot"⟩,
  ⟨.cublas, "cublasDdot", "cublasDdot_v2", "cublasDdot", "cublasDdot", "cublasDdot"⟩,
  ⟨.cublas, "cublasSnrm2", "cublasSnrm2_v2", "cublasSnrm2", "cublasSnrm2", "cublasSnrm2"⟩,
  ⟨.cublas, "cublasDnrm2", "cublasDnrm2_v2", "cublasDnrm2", "cublasDnrm2", "cublasDnrm2"⟩,
  ⟨.cublas, "cublasSscal", "cublasSscal_v2", "cublasSscal", "cublasSscal", "cublasSscal"⟩,
  ⟨.cublas, "cublasDscal", "cublasDscal_v2", "cublasDscal", "cublasDscal", "cublasDscal"⟩,
  ⟨.cudart, "cudaEventCreate", "cudaEventCreate", "cudaEventCreate", "cudaEventCreate", "cudaEventCreate"⟩,
  ⟨.cudart, "cudaEventDestroy", "cudaEventDestroy", "cudaEventDestroy", "cudaEventDestroy", "cudaEventDestroy"⟩,
  ⟨.cudart, "cudaEventElapsedTime", "cudaEventElapsedTime", "cudaEventElapsedTime", "cudaEventElapsedTime", "cudaEventElapsedTime"⟩,
  ⟨.cudart, "cudaEventRecord", "cudaEventRecord", "cudaEventRecord", "cudaEventRecord", "cudaEventRecord"⟩,
  ⟨.cudart, "cudaEventSynchronize", "cudaEventSynchronize", "cudaEventSynchronize", "cudaEventSynchronize", "cudaEventSynchronize"⟩,
  ⟨.cudart, "cudaGetDevice", "cudaGetDevice", "cudaGetDevice", "cudaGetDevice", "cudaGetDevice"⟩,
  ⟨.cudart, "cudaGetDeviceCount", "cudaGetDeviceCount", "cudaGetDeviceCount", "cudaGetDeviceCount", "cudaGetDeviceCount"⟩,
  ⟨.cudart, "cudaGetDeviceProperties", "cudaGetDeviceProperties", "cudaGetDeviceProperties", "cudaGetDeviceProperties", "cudaGetDeviceProperties"⟩,
  ⟨.cudart, "cudaFree", "cudaFree", "cudaFree", "cudaFree", "cudaFree"⟩,
  ⟨.cudart, "cudaMalloc", "cudaMalloc", "cudaMalloc", "cudaMalloc", "cudaMalloc"⟩,
  ⟨.cudart, "cudaMemcpy", "cudaMemcpy", "cudaMemcpy", "cudaMemcpy", "cudaMemcpy"⟩,
  ⟨.cudart, "cudaSetDevice", "cudaSetDevice", "cudaSetDevice", "cudaSetDevice", "cudaSetDevice"⟩,
  ⟨.cudart, "__cudaRegisterFatBinary", "__cudaRegisterFatBinary", "__cudaRegisterFatBinary", "__cudaRegisterFatBinary", "__cudaRegisterFatBinary"⟩,
  ⟨.cudart, "__cudaRegisterFatBinaryEnd", "__cudaRegisterFatBinaryEnd", "__cudaRegisterFatBinaryEnd", "__cudaRegisterFatBinaryEnd", "__cudaRegisterFatBinaryEnd"⟩,
  ⟨.cudart, "__cudaUnregisterFatBinary", "__cudaUnregisterFatBinary", "__cudaUnregisterFatBinary", "__cudaUnregisterFatBinary", "__cudaUnregisterFatBinary"⟩,
  ⟨.cusparse, "cusparseCreate", "cusparseCreate", "cusparseCreate", "cusparseCreate", "cusparseCreate"⟩,
  ⟨.cusparse, "cusparseDestroy", "cusparseDestroy", "cusparseDestroy", "cusparseDestroy", "cusparseDestroy"⟩,
  ⟨.cusparse, "cusparseCreateCsr", "cusparseCreateCsr", "cusparseCreateCsr", "cusparseCreateCsr", "cusparseCreateCsr"⟩,
  ⟨.cusparse, "cusparseCreateDnVec", "cusparseCreateDnVec", "cusparseCreateDnVec", "cusparseCreateDnVec", "cusparseCreateDnVec"⟩,
  ⟨.cusparse, "cusparseDestroySpMat", "cusparseDestroySpMat", "cusparseDestroySpMat", "cusparseDestroySpMat", "cusparseDestroySpMat"⟩,
  ⟨.cusparse, "cusparseDestroyDnVec", "cusparseDestroyDnVec", "cusparseDestroyDnVec", "cusparseDestroyDnVec", "cusparseDestroyDnVec"⟩,
  ⟨.cusparse, "cusparseSpMV_bufferSize", "cusparseSpMV_bufferSize", "cusparseSpMV_bufferSize", "cusparseSpMV_bufferSize", "cusparseSpMV_bufferSize"⟩,
  ⟨.cusparse, "cusparseSpMV", "cusparseSpMV", "cusparseSpMV", "cusparseSpMV", "cusparseSpMV"⟩]

/-- What the linker finds: for the name of a library the addresses of its symbols. -/
structure World where
  platform : Platform
  /-- the versions the package was compiled with -/
  major : Library → Nat
  libraries : String → Option (String → Option Nat)
  /-- POSIX: `dlerror` reports an error "since the last call of `dlerror`".  `true` if a success does not clear it. -/
  keepsErrors : Bool

/-- How a call of a wrapper ends. -/
inductive Outcome where
  /-- the function at this address is called, `none` is the null pointer -/
  | called (a : Option Nat)
  /-- `std::runtime_error` with a message -/
  | thrown (message : String)
  /-- `std::runtime_error(NULL)`: undefined behaviour -/
  | undefined
  deriving DecidableEq, Repr

/-- What a thread does next within a wrapper. -/
inductive Pc where
  | check
  | openLibrary
  | findSymbol
  | askError (a : Option Nat)
  | store (a : Option Nat)
  | call
  deriving DecidableEq, Repr

structure State where
  /-- the static pointers -/
  table : String → Option Nat
  /-- the pending error of `dlerror`, one for each thread -/
  pending : Nat → Option String
  /-- the wrapper a thread is in -/
  running : Nat → Option (Wrapper × Pc)
  /-- the finished calls, last first -/
  log : List (Nat × Wrapper × Outcome)
  /-- number of successful `dlopen` without `dlclose` -/
  opens : Nat

/-- The start of the program: all pointers are `NULL`, cublas_symbols.cpp:28-41. -/
def State.initial : State := ⟨fun _ => none, fun _ => none, fun _ => none, [], 0⟩

def State.finish (s : State) (t : Nat) (w : Wrapper) (o : Outcome) : State :=
  { s with running := Function.update s.running t none, log := (t, w, o) :: s.log }

def State.goto (s : State) (t : Nat) (w : Wrapper) (pc : Pc) : State :=
  { s with running := Function.update s.running t (some (w, pc)) }

/-- `dlerror()`: the pending error, which is cleared. -/
def State.clearError (s : State) (t : Nat) : State := { s with pending := Function.update s.pending t none }

def State.setError (s : State) (t : Nat) (e : String) : State :=
  { s with pending := Function.update s.pending t (some e) }

/-- A successful call of the linker. -/
def State.success (W : World) (s : State) (t : Nat) : State := if W.keepsErrors then s else s.clearError t

/-- `throw std::runtime_error(dlerror())`, dynamic_loading.h:105, 190 -/
def State.throwError (s : State) (t : Nat) (w : Wrapper) : State :=
  match s.pending t with
  | some e => (s.clearError t).finish t w (.thrown e)
  | none => s.finish t w .undefined

def openMessage (name : String) : String := name ++ ": cannot open shared object file"
def symbolMessage (name symbol : String) : String := name ++ ": undefined symbol: " ++ symbol

/-- The next step of a thread, dynamic_loading.h:99-109, 163-202 (Unix) and for example cublas_symbols.cpp:97-111. -/
def stepThread (W : World) (t : Nat) (s : State) : State :=
  match s.running t with
  | none => s
  | some (w, .check) => if s.table w.checked = none then s.goto t w .openLibrary else s.goto t w .call
  | some (w, .openLibrary) =>
    match W.libraries (libName W.platform W.major w.library) with
    | some _ => ({ s.success W t with opens := s.opens + 1 }).goto t w .findSymbol
    | none => (s.setError t (openMessage (libName W.platform W.major w.library))).throwError t w
  | some (w, .findSymbol) =>
    match (W.libraries (libName W.platform W.major w.library)).bind (fun l => l w.symbol) with
    | some a => (s.success W t).goto t w (.askError (some a))
    | none => (s.setError t (symbolMessage (libName W.platform W.major w.library) w.symbol)).goto t w (.askError none)
  | some (w, .askError a) =>
    match s.pending t with
    | some _ => (s.clearError t).throwError t w
    | none => s.goto t w (.store a)
  | some (w, .store a) => ({ s with table := Function.update s.table w.stored a }).goto t w .call
  | some (w, .call) => s.finish t w (.called (s.table w.called))

/-- What happens: a thread that is not within a wrapper calls one, or a thread makes a step. -/
inductive Event where
  | call (t : Nat) (w : Wrapper)
  | step (t : Nat)

def apply (W : World) (s : State) : Event → State
  | .call t w => if s.running t = none then s.goto t w .check else s
  | .step t => stepThread W t s

/-- A run from the start of the program. -/
def run (W : World) (events : List Event) : State := events.foldl (apply W) State.initial

end Imate.DynamicLoading
