import Verif.Model.BuildOptions

/-!
# Model of `python setup.py clean`: `clean_extensions` of `setup.py`

A file has a directory, a name and a content.  The printed messages are left out.
-/

namespace Imate.BuildClean

open Imate.LocateCuda (Text)

structure File where
  dir : Text
  name : Text
  content : Text
  deriving DecidableEq, Repr

/-- `p in s` -/
def contains (p : Text) : Text → Bool
  | [] => p.isPrefixOf []
  | c :: cs => p.isPrefixOf (c :: cs) || contains p cs

/-- `check_cython_generated`, setup.py:216-232. -/
def checkCythonGenerated (content : Text) : Bool :=
  let first := ((LocateCuda.split '\n' content).head?).getD []
  "/* Generated by Cython".toList.isPrefixOf first || contains "failed Cython compilation".toList first

/-- A file of that directory whose name matches `'*' + ext` in `glob`, which skips names that begin with a point. -/
def matchesGlob (dir ext : Text) (f : File) : Bool := f.dir = dir && ext.isSuffixOf f.name && f.name.head? ≠ some '.'

/-- `os.remove` -/
def remove (dir name : Text) (fs : List File) : List File := fs.filter fun f => !(f.dir = dir && f.name = name)

/-- `if os.path.exists(f): if check_cython_generated(f): os.remove(f)`, setup.py:264-283. -/
def removeGenerated (dir name : Text) (fs : List File) : List File :=
  match fs.find? fun f => f.dir = dir && f.name = name with
  | none => fs
  | some f => if checkCythonGenerated f.content then remove dir name fs else fs

/-- The libraries, setup.py:285-294. -/
def removeLibraries (dir base : Text) (fs : List File) : List File :=
  let libs := fs.filter (matchesGlob dir ".so".toList) ++ fs.filter (matchesGlob dir ".dll".toList) ++
    fs.filter (matchesGlob dir ".dylib".toList)
  libs.foldl (fun fs lib => if base.isPrefixOf lib.name then remove dir lib.name fs else fs) fs

/-- What is removed for one Cython source, setup.py:259-294. -/
def cleanSource (dir base : Text) (fs : List File) : List File :=
  removeLibraries dir base (removeGenerated dir (base ++ ".cpp".toList) (removeGenerated dir (base ++ ".c".toList)
    (removeGenerated dir (base ++ ".h".toList) fs)))

/-- One extension: its only sources with the ending `.pyx` come from the pattern `*.pyx` in its directory, setup.py:240-257.
The base is the name without the ending. -/
def cleanExtension (fs : List File) (dir : Text) : List File :=
  (fs.filter (matchesGlob dir ".pyx".toList)).foldl (fun fs f => cleanSource dir (f.name.take (f.name.length - 4)) fs) fs

/-- `clean_extensions`, setup.py:194-305, for the directories of the extensions. -/
def cleanExtensions (dirs : List Text) (fs : List File) : List File := dirs.foldl cleanExtension fs

/-- The directories of the extensions that the script makes (setup.py:1518-1591), in the given environment. -/
def directories (env : Build.Env) : List Text :=
  (Build.requests (Build.options env).useCuda).map fun r => Build.dot "imate".toList r.subpackage

end Imate.BuildClean
