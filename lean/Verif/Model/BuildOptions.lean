import Verif.Model.LocateCuda

/-!
# Model of the build script `setup.py`: options, extensions, flags, index types

Paths are texts (lists of characters) as `setup.py` handles them, with `/` between components (Unix).  The compiler,
Cython and setuptools are not modelled; the result of a build is what the script hands to them.
-/

namespace Imate.Build

open Imate.LocateCuda (Text Exc Host Path Version findHome findLib getCudaVersion)

/-! ## Options -/

/-- `os.environ`. -/
abbrev Env := String → Option String

/-- `name in os.environ and os.environ.get(name) == '1'`, e.g. setup.py:138-140. -/
def isOn (env : Env) (name : String) : Bool := (env name).isSome && env name == some "1"

/-- The global options of the script. -/
structure Options where
  useCuda : Bool
  cudaDynamicLoading : Bool
  debugMode : Bool
  buildInSource : Bool
  buildForDoc : Bool
  useCblas : Bool
  useLongInt : Bool
  useUnsignedLongInt : Bool
  deriving DecidableEq, Repr

/-- setup.py:137-187. -/
def options (env : Env) : Options where
  useCuda := isOn env "USE_CUDA"
  cudaDynamicLoading := isOn env "CUDA_DYNAMIC_LOADING"
  debugMode := isOn env "DEBUG_MODE"
  buildInSource := isOn env "CYTHON_BUILD_IN_SOURCE"
  buildForDoc := isOn env "CYTHON_BUILD_FOR_DOC"
  useCblas := isOn env "USE_CBLAS"
  useLongInt := isOn env "USE_LONG_INT"
  useUnsignedLongInt := isOn env "USE_UNSIGNED_LONG_INT"

/-! ## locate_cuda of the script -/

/-- `locate_cuda`, setup.py:332-420: as `imate.device.locate_cuda`, except that a missing toolkit or include directory
raises `EnvironmentError`. -/
def locateCuda (o : Options) (h : Host) : Except Exc LocateCuda.Cuda := do
  if !o.useCuda then .error .environmentError
  else
    match ← findHome h with
    | none => .error .environmentError
    | some (home, nvcc) =>
      if !h.pathExists (home ++ ["include"]) then .error .environmentError
      else do
        let lib ← findLib h home
        let version ← getCudaVersion h home
        .ok ⟨home, nvcc, home ++ ["include"], lib, version⟩

/-! ## create_extension -/

/-- `join(a, b)`, without absolute second arguments. -/
def join (a b : Text) : Text := a ++ '/' :: b

/-- A path of `LocateCuda` as text. -/
def pathText (p : Path) : Text := (p.map fun s => '/' :: s.toList).flatten

/-- `os.path.splitext(p)[1]`: from the last point of the last component.  Simplified: names that begin with points have an
extension here. -/
def splitext (p : Text) : Text :=
  match (LocateCuda.split '.' (((LocateCuda.split '/' p).getLast?).getD [])).reverse with
  | ext :: _ :: _ => '.' :: ext
  | _ => []

/-- `does_cuda_source_exist`, setup.py:1100-1116. -/
def doesCudaSourceExist : List Text → Bool
  | [] => false
  | source :: rest => if splitext source = ".cu".toList then true else doesCudaSourceExist rest

/-- The source tree, as `os.path.isdir` and `glob(join(dir, '*' + ext))` see it. -/
structure Tree where
  isDir : Text → Bool
  glob : Text → Text → List Text

abbrev Macro := String × String

/-- The arguments of `create_extension` that occur in the script. -/
structure Request where
  subpackage : Text
  otherSourceDirs : List Text
  deriving DecidableEq, Repr

/-- The extension that is handed to Cython and setuptools, without its macros: these are one list, shared by all
extensions (the default argument `define_macros=[]` is one object, extended in place). -/
structure Extension where
  name : Text
  sources : List Text
  includeDirs : List Text
  libraryDirs : List Text
  runtimeLibraryDirs : List Text
  libraries : List String
  deriving DecidableEq, Repr

/-- The loop over the other source directories, setup.py:1246-1262.  `include_dirs += join(dirname)` extends the list by
the characters of the name. -/
def addOtherDirs (o : Options) (tree : Tree) (package : Text) : List Text → List Text × List Text →
    Except Exc (List Text × List Text)
  | [], r => .ok r
  | dir :: rest, (sources, includeDirs) =>
    let name := join package dir
    if !tree.isDir name then .error .valueError
    else
      let sources := sources ++ tree.glob name ".c".toList ++ tree.glob name ".cpp".toList
      let includeDirs := includeDirs ++ name.map fun c => [c]
      let sources := if o.useCuda then sources ++ tree.glob name ".cu".toList else sources
      addOtherDirs o tree package rest (sources, includeDirs)

/-- What `create_extension` appends to the shared list of macros, setup.py:1223, 1267, 1305-1308. -/
def requestedMacros (o : Options) : List Macro :=
  [("CYTHON_EXTERN_C", "extern \"C\"")] ++ (if o.useCblas then [("USE_CBLAS", "1")] else []) ++
    (if o.useLongInt then [("LONG_INT", "1")] else []) ++ (if o.useUnsignedLongInt then [("UNSIGNED_LONG_INT", "1")] else [])

/-- `'./' + package + '/' + subpackage` -/
def dot (package subpackage : Text) : Text := join ['.'] (join package subpackage)

/-- `create_extension`, setup.py:1123-1324, with the list of macros before and after the call.  The arguments
`other_source_files` and `other_include_dirs` are never given in the script and are left out. -/
def createExtension (o : Options) (h : Host) (tree : Tree) (package : Text) (r : Request) (macros : List Macro) :
    Except Exc (Extension × List Macro) := do
  if !tree.isDir (join package r.subpackage) then .error .valueError
  else
    let here := dot package r.subpackage
    let hasPyx := tree.glob here ".pyx".toList ≠ []
    let name := if hasPyx then package ++ '.' :: r.subpackage ++ ".*".toList else package ++ '.' :: r.subpackage
    let sources := if hasPyx then [join here "*.pyx".toList] else []
    let sources := sources ++ tree.glob here ".cpp".toList
    let sources := if o.useCuda then sources ++ tree.glob here ".cu".toList else sources
    let (sources, includeDirs) ← addOtherDirs o tree package r.otherSourceDirs (sources, [here])
    let libraries := if o.useCblas then ["openblas"] else []
    let macros := macros ++ requestedMacros o
    if !o.useCuda then .ok (⟨name, sources, includeDirs, [], [], libraries⟩, macros)
    else do
      let cuda ← locateCuda o h
      if !doesCudaSourceExist sources then .ok (⟨name, sources, includeDirs, [], [], libraries⟩, macros)
      else
        let loading := dot package "_cuda_dynamic_loading".toList
        let includeDirs := includeDirs ++ [pathText cuda.includeDir]
        let libraries := libraries ++ (if o.cudaDynamicLoading then (if h.windows then [] else ["dl"])
          else ["cudart", "cublas", "cusparse"])
        let sources := if o.cudaDynamicLoading then sources ++ tree.glob loading ".cpp".toList else sources
        let includeDirs := if o.cudaDynamicLoading && tree.isDir loading then includeDirs ++ [loading] else includeDirs
        let runtimeLibraryDirs := if h.windows then [] else [pathText cuda.lib]
        .ok (⟨name, sources, includeDirs, [pathText cuda.lib], runtimeLibraryDirs, libraries⟩, macros)

/-- The calls of `create_extension` one after another, with the shared list of macros. -/
def createAll (o : Options) (h : Host) (tree : Tree) (package : Text) : List Request → List Extension × List Macro →
    Except Exc (List Extension × List Macro)
  | [], s => .ok s
  | r :: rest, (exts, macros) => do
    let (e, macros) ← createExtension o h tree package r macros
    createAll o h tree package rest (exts ++ [e], macros)

def request (sub : String) (dirs : List String) : Request := ⟨sub.toList, dirs.map String.toList⟩

/-- The extensions of the package, setup.py:1518-1591. -/
def requests (useCuda : Bool) : List Request :=
  [request "sample_matrices" [], request "functions" [],
   request "_linear_algebra" ["_c_basic_algebra"],
   request "_c_linear_operator" ["_c_basic_algebra"],
   request "_c_linear_operator/tests" ["_c_basic_algebra"],
   request "_trace_estimator" [],
   request "_c_trace_estimator" ["_c_linear_operator", "_c_basic_algebra", "_random_generator", "_utilities"],
   request "_random_generator" [],
   request "trace" ["functions"],
   request "traceinv" ["functions", "_c_basic_algebra"],
   request "logdet" ["functions"], request "trexp" ["functions"], request "trlinfrac" ["functions"],
   request "eigencount" ["functions"], request "density" ["functions"]] ++
  (if useCuda then
    [request "_cuda_utilities" [],
     request "_cu_linear_operator" ["_c_linear_operator", "_cuda_utilities", "_cu_basic_algebra", "_c_basic_algebra"],
     request "_cu_trace_estimator" ["_c_trace_estimator", "_random_generator", "_cu_linear_operator",
       "_c_linear_operator", "_cuda_utilities", "_utilities", "_cu_basic_algebra", "_c_basic_algebra"],
     request "_cu_linear_operator/tests" ["_cu_basic_algebra"]]
  else [])

/-- All extensions and their common macros: what `main` of the script (setup.py:1486-1591) makes of the environment. -/
def build (env : Env) (h : Host) (tree : Tree) : Except Exc (List Extension × List Macro) :=
  createAll (options env) h tree "imate".toList (requests (options env).useCuda) ([], [])

/-! ## Compiler flags -/

/-- `-gencode arch=compute_<arch>,code=sm_<code>` (`real`) or `code=compute_<code>` (not `real`). -/
structure Gencode where
  arch : Nat
  real : Bool
  code : Nat
  deriving DecidableEq, Repr

/-- The architectures for which device code is generated, setup.py:974-993. -/
def gencodes (major : Nat) : List Gencode :=
  (if major < 12 then [⟨35, true, 35⟩] else []) ++
  [⟨50, true, 50⟩, ⟨52, true, 52⟩, ⟨60, true, 60⟩, ⟨61, true, 61⟩, ⟨70, true, 70⟩, ⟨75, true, 75⟩] ++
  (if major < 11 then [⟨75, false, 75⟩] else [⟨80, true, 80⟩, ⟨86, true, 86⟩, ⟨86, false, 86⟩])

/-- What `check_compiler_has_flag` (setup.py:728-810) asks of the machine. -/
structure Compiler where
  msvc : Bool
  /-- `"PYODIDE_PACKAGE_ABI" in os.environ` -/
  pyodide : Bool
  /-- the test program compiles and links with these flags -/
  accepts : List String → List String → Bool

/-- `check_compiler_has_flag`, setup.py:728-810. -/
def hasFlag (c : Compiler) (compileFlags linkFlags : List String) : Bool :=
  if c.pyodide then false
  else c.accepts compileFlags (if c.msvc then linkFlags ++ ["/DLL"] else linkFlags)

/-- The compile and link flags of all extensions, setup.py:878-967; `none` is the `RuntimeError`. -/
def flags (o : Options) (c : Compiler) : Option (List String × List String) :=
  if c.msvc then
    if hasFlag c ["/O2", "/Wall", "/openmp"] [] then some (["/O2", "/Wall", "/openmp"], []) else none
  else
    let common := ["-O3", "-fno-stack-protector", "-Wall", "-Wextra", "-Wundef", "-Wcast-align", "-Wunreachable-code",
      "-Wswitch-enum", "-Wpointer-arith", "-Wcast-align", "-Wwrite-strings", "-Wsign-compare", "-Wundef", "-pedantic",
      "-fno-common", "-fno-wrapv"]
    let common := if !o.debugMode then common ++ ["-g0", "-Wl, --strip-all"] else common
    if hasFlag c ["-fopenmp"] ["-fopenmp"] then some (common ++ ["-fopenmp"], ["-fopenmp"])
    else
      let link := ["-Xpreprocessor", "-fopenmp", "-lomp", "-headerpad_max_install_names"]
      if hasFlag c ["-Xpreprocessor", "-fopenmp"] link then some (common ++ ["-Xpreprocessor", "-fopenmp"], link)
      else none

/-! ## Index types -/

/-- The integer types of C++. -/
inductive CInt where
  | int
  | unsignedInt
  | longInt
  | unsignedLongInt
  deriving DecidableEq, Repr

/-- Value of a macro in C++: the last definition, or the default `0` of definitions.h:38-63. -/
def macroOn (macros : List Macro) (name : String) : Bool := (macros.reverse.find? (·.1 = name)).map (·.2) == some "1"

/-- `LongIndexType`, types.h:50-62. -/
def longIndexType (macros : List Macro) : CInt :=
  if macroOn macros "LONG_INT" then (if macroOn macros "UNSIGNED_LONG_INT" then .unsignedLongInt else .longInt)
  else (if macroOn macros "UNSIGNED_LONG_INT" then .unsignedInt else .int)

/-- Element type of `MemoryViewLongIndexType`, types.pxd:98-107, for the two constants of definitions.pxi:15-16. -/
def memoryViewOf (long unsigned : Bool) : CInt :=
  if long then (if unsigned then .unsignedLongInt else .longInt) else (if unsigned then .unsignedInt else .int)

/-- ... which are both `0`. -/
def memoryViewType : CInt := memoryViewOf false false

/-- The C++ compiler accepts `cdef LongIndexType* A_indices = &A_indices_mv[0]` (py_c_matrix.pyx:410-411 and the other
constructors of sparse operators): Cython takes `LongIndexType` for `int` (types.pxd:95) and emits no cast, and C++
converts no pointer to one integer type into a pointer to another. -/
def pointerAccepted (macros : List Macro) : Bool := longIndexType macros = memoryViewType

/-- Size in bits and signedness of a type; `long` has 64 bits, on Windows 32. -/
def dtype (windows : Bool) : CInt → Nat × Bool
  | .int => (32, true)
  | .unsignedInt => (32, false)
  | .longInt => (if windows then 32 else 64, true)
  | .unsignedLongInt => (if windows then 32 else 64, false)

/-- `cdef MemoryViewLongIndexType A_indices_mv = A.indices.astype(long_index_type_name)` (py_c_matrix.pyx:399-407,
py_c_linear_operator.pyx:45-66): the array has the type of `LongIndexType`, and a memory view of another type raises
`ValueError`. -/
def viewAccepted (windows : Bool) (macros : List Macro) : Bool :=
  dtype windows (longIndexType macros) = dtype windows memoryViewType

end Imate.Build
