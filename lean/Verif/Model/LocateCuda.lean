import Mathlib.Data.Nat.Digits.Defs

/-!
# Model of `imate/device/_cuda.py` and of the CUDA part of `imate/device/_info.py`

A path is the list of its components, `join` appends.  The host is a record of what the functions ask: environment
variables, existence of paths, contents of files.  Texts are lists of characters.
-/

namespace Imate.LocateCuda

abbrev Path := List String
abbrev Text := List Char

/-- The exceptions that can leave these functions. -/
inductive Exc where
  | keyError
  | environmentError
  | fileNotFound
  | valueError
  | typeError
  deriving DecidableEq, Repr

/-- The machine. -/
structure Host where
  /-- `os.environ` for the three variables below -/
  env : String → Option Path
  /-- `os.environ['PATH']`, split at `os.pathsep` -/
  searchPath : Option (List Path)
  pathExists : Path → Bool
  absPath : Path → Path
  windows : Bool
  /-- `platform.machine().endswith('64')` -/
  is64 : Bool
  /-- the text of a file; `none` if there is no such file -/
  read : Path → Option Text
  /-- `json.load(file)['cuda']['version']` -/
  jsonVersion : Text → Except Exc Text

/-! ## Texts -/

/-- The pieces between the characters that satisfy `p`. -/
def splitBy (p : Char → Bool) : Text → List Text
  | [] => [[]]
  | x :: xs =>
    if p x then [] :: splitBy p xs
    else match splitBy p xs with
      | [] => [[x]]
      | w :: ws => (x :: w) :: ws

/-- `s.split(c)` for one character. -/
def split (c : Char) (s : Text) : List Text := splitBy (· = c) s

def isSpace (c : Char) : Bool := c = ' ' || c = '\t' || c = '\n' || c = '\r'

/-- `s.split()`: the words between white space. -/
def words (s : Text) : List Text := (splitBy isSpace s).filter (· ≠ [])

/-- `s.strip()` -/
def strip (s : Text) : Text := ((s.dropWhile isSpace).reverse.dropWhile isSpace).reverse

/-- `int(s)`.  Simplified: no signs and underscores. -/
def int (s : Text) : Except Exc Nat :=
  let t := strip s
  if t ≠ [] ∧ t.all (·.isDigit) then .ok (t.foldl (fun a c => 10 * a + (c.toNat - 48)) 0) else .error .valueError

/-- The lines of a file, with their line ends. -/
def lines : Text → List Text
  | [] => []
  | x :: xs =>
    if x = '\n' then ['\n'] :: lines xs
    else match lines xs with
      | [] => [[x]]
      | l :: ls => (x :: l) :: ls

/-- `s[:-k]` and `s[-k:]` -/
def allButLast (k : Nat) (s : Text) : Text := s.take (s.length - k)
def lastChars (k : Nat) (s : Text) : Text := s.drop (s.length - k)

/-! ## _get_cuda_version -/

/-- `"#define CUDA_VERSION"`, _cuda.py:288 -/
def marker : Text := "#define CUDA_VERSION".toList

/-- `re.match(r'^#define CUDA_VERSION.\d+$', line)`, _cuda.py:288, 293: the marker, one more character, digits, and the
end of the line. -/
def isVersionLine (line : Text) : Bool :=
  match line.dropPrefix? marker with
  | none => false
  | some rest =>
    match rest with
    | [] => false
    | c :: digits =>
      let digits := if digits.getLast? = some '\n' then digits.dropLast else digits
      c ≠ '\n' ∧ digits ≠ [] ∧ digits.all (·.isDigit)

/-- The text of the version when it is found in the header, _cuda.py:284-312. -/
def headerVersion (header : Option Text) : Except Exc Text :=
  match header with
  | none => .error .fileNotFound
  | some text =>
    match (lines text).find? isVersionLine with
    | none => .error .fileNotFound
    | some line =>
      let v := ((words line).getLast?).getD []
      let v := allButLast 3 v ++ '.' :: lastChars 3 v
      .ok (allButLast 1 v ++ '.' :: lastChars 1 v)

/-- The dictionary of a version. -/
structure Version where
  major : Nat
  minor : Option Nat
  patch : Option Nat
  deriving DecidableEq, Repr

/-- `[int(v) for v in version_string.split(' ')[-1].split('.')]` and the dictionary, _cuda.py:314-335. -/
def parseVersion (s : Text) : Except Exc Version := do
  let parts ← (split '.' (((split ' ' s).getLast?).getD [])).mapM int
  match parts with
  | [] => .error .valueError
  | major :: rest => .ok ⟨major, rest[0]?, rest[1]?⟩

/-- `_get_cuda_version`, _cuda.py:252-335. -/
def getCudaVersion (h : Host) (home : Path) : Except Exc Version := do
  let s ← match h.read (home ++ ["version.txt"]) with
    | some text => .ok text
    | none =>
      match h.read (home ++ ["version.json"]) with
      | some text => h.jsonVersion text
      | none => headerVersion (h.read (home ++ ["include", "cuda.h"]))
  parseVersion s

/-! ## locate_cuda -/

/-- The dictionary returned by `locate_cuda`. -/
structure Cuda where
  home : Path
  nvcc : Path
  includeDir : Path
  lib : Path
  version : Version
  deriving DecidableEq, Repr

/-- `_find_in_path`, _cuda.py:28-40. -/
def findInPath (h : Host) (name : String) : List Path → Option Path
  | [] => none
  | dir :: rest => if h.pathExists (dir ++ [name]) then some (h.absPath (dir ++ [name])) else findInPath h name rest

/-- The search in the environment variables, _cuda.py:180-194: home and `nvcc`. -/
def searchEnv (h : Host) (name : String) : List String → Option (Path × Path)
  | [] => none
  | v :: rest =>
    match h.env v with
    | none => searchEnv h name rest
    | some home =>
      if !h.pathExists home then searchEnv h name rest
      else if !h.pathExists (home ++ ["bin", name]) then searchEnv h name rest
      else some (home, home ++ ["bin", name])

/-- `'nvcc'` or `'nvcc.exe'`, _cuda.py:175-177 -/
def nvccName (h : Host) : String := if h.windows then "nvcc.exe" else "nvcc"

/-- Home and `nvcc`, _cuda.py:171-203; `none` if there is no CUDA. -/
def findHome (h : Host) : Except Exc (Option (Path × Path)) :=
  match searchEnv h (nvccName h) ["CUDA_HOME", "CUDA_ROOT", "CUDA_PATH"] with
  | some r => .ok (some r)
  | none =>
    match h.searchPath with
    | none => .error .keyError
    | some dirs =>
      match findInPath h (nvccName h) dirs with
      | none => .ok none
      | some nvcc => .ok (some (nvcc.dropLast.dropLast, nvcc))

/-- The library directory, _cuda.py:211-231. -/
def findLib (h : Host) (home : Path) : Except Exc Path := do
  let lib ←
    if h.pathExists (home ++ ["lib"]) then .ok (home ++ ["lib"])
    else if h.pathExists (home ++ ["lib64"]) then .ok (home ++ ["lib64"])
    else .error .environmentError
  if h.windows then
    let lib := lib ++ [if h.is64 then "x64" else "x86"]
    if h.pathExists lib then .ok lib else .error .environmentError
  else .ok lib

/-- `locate_cuda`, _cuda.py:47-245; `none` is the empty dictionary. -/
def locateCuda (h : Host) : Except Exc (Option Cuda) := do
  match ← findHome h with
  | none => .ok none
  | some (home, nvcc) =>
    if !h.pathExists (home ++ ["include"]) then .ok none
    else do
      let lib ← findLib h home
      let version ← getCudaVersion h home
      .ok (some ⟨home, nvcc, home ++ ["include"], lib, version⟩)

/-- `cuda_version` in `info`, _info.py:168-176: `'%d.%d.%d'` of the dictionary (the three numbers), or `not found`
(`none`).  Formatting `None` with `%d` raises `TypeError`. -/
def infoVersion (h : Host) : Except Exc (Option (Nat × Nat × Nat)) := do
  match ← locateCuda h with
  | none => .ok none
  | some cuda =>
    match cuda.version.minor, cuda.version.patch with
    | some minor, some patch => .ok (some (cuda.version.major, minor, patch))
    | _, _ => .error .typeError

end Imate.LocateCuda
