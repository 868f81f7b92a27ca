import Verif.Model.DynamicLoading

/-! # Specification: the functions of CUDA and the names of its libraries -/

namespace Imate.Spec

open Imate.DynamicLoading

/-- The symbol CUDA's headers give a function: the functions of cuBLAS have a second version that ends in `_v2`. -/
def cudaSymbol (l : Library) (api : String) : String :=
  if l = .cublas ∧ ¬ "_v2".toList <:+ api.toList then api ++ "_v2" else api

/-- The names of the libraries NVIDIA installs on Windows (`cudart64_110.dll` for CUDA 11; `cublas64_11.dll`,
`cusparse64_11.dll`). -/
def windowsName (major : Library → Nat) : Library → String
  | .cudart => "cudart64_" ++ toString (10 * major .cudart) ++ ".dll"
  | .cublas => "cublas64_" ++ toString (major .cublas) ++ ".dll"
  | .cusparse => "cusparse64_" ++ toString (major .cusparse) ++ ".dll"

/-- Every library and symbol that a wrapper needs is there. -/
def Complete (W : World) : Prop :=
  ∀ w ∈ wrappers, ∃ l a, W.libraries (libName W.platform W.major w.library) = some l ∧ l w.symbol = some a

/-- The names of the libraries of a CUDA toolkit on Linux: the toolkit installs a link `libcudart.so` without version. -/
def linuxName (major : Library → Nat) : Library → String
  | .cudart => "libcudart.so"
  | .cublas => "libcublas.so." ++ toString (major .cublas)
  | .cusparse => "libcusparse.so." ++ toString (major .cusparse)

/-- Linux with a toolkit whose libraries have all functions that the package uses. -/
def LinuxToolkit (W : World) : Prop :=
  W.platform = .linux ∧ ∀ l : Library, ∃ lib, W.libraries (linuxName W.major l) = some lib ∧
    ∀ w ∈ wrappers, w.library = l → ∃ a, lib (cudaSymbol l w.api) = some a

/-- Only functions of the package are called. -/
def Legal (events : List Event) : Prop := ∀ t w, Event.call t w ∈ events → w ∈ wrappers

end Imate.Spec
