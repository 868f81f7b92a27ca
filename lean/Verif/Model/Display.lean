import Mathlib.Data.List.Basic

/-!
# Importing the package, and what a plot does to the process

`imate/__init__.py`, the top of `imate/_utilities/plot_utilities.py`, and the ends of the plotting functions.  A process is
reduced to what these lines touch: the backend and the open figures of `matplotlib.pyplot`, the files of the working
directory, the output, and the capture of warnings.  Figures and contents of files are numbers.
-/

namespace Imate.Display

/-- The exceptions of this part. -/
inductive Err where
  | importError
  | nameError
  | runtimeError
  deriving DecidableEq, Repr

/-- What the process was started with. -/
structure Env where
  /-- `matplotlib` is installed -/
  matplotlib : Bool
  /-- the environment variable `DISPLAY` -/
  display : Option String
  /-- the environment variable `IMATE_NO_DISPLAY` -/
  noDisplay : Option String
  /-- `is_notebook()` (display_utilities.py:14-29) -/
  notebook : Bool
  /-- `plt.switch_backend` closes the open figures (`matplotlib` before 3.8) -/
  closesOnSwitch : Bool

/-- The state of the process. -/
structure Session where
  /-- `matplotlib.get_backend()` -/
  backend : String
  /-- the open figures, the active one first -/
  figures : List ℕ
  /-- the files of the working directory -/
  files : List (String × ℕ)
  /-- the working directory is writable -/
  writable : Bool
  /-- the figures that a user has seen -/
  shown : List ℕ
  /-- lines on the standard output -/
  printed : List String
  /-- `logging.captureWarnings(True)` was called -/
  captured : Bool
  /-- the root logger, or the logger `py.warnings`, has a handler -/
  logging : Bool
  /-- warnings that reached the standard error or a log -/
  warned : List String

/-- `bool(os.environ.get(name, None))` -/
def truthy : Option String → Bool
  | none => false
  | some s => s ≠ ""

/-- The condition of the import (plot_utilities.py:28-30). -/
def Env.selectsAgg (e : Env) : Bool :=
  (!truthy e.display || truthy e.noDisplay) && !e.notebook

/-- The statements at the top of plot_utilities.py (14-52), which are also those of `imate/_utilities/__init__.py`:14.  On macOS `matplotlib.use` is called before `pyplot` is
imported, elsewhere `plt.switch_backend`; both end with the backend `agg`. -/
def importPlotUtilities (e : Env) (s : Session) : Except Err Session :=
  if !e.matplotlib then .error .importError
  else
    let s := if e.selectsAgg then
        { s with backend := "agg", figures := if e.closesOnSwitch then [] else s.figures }
      else s
    .ok { s with captured := true }

/-! ### Modules that can do without `matplotlib` -/

/-- A statement at the top of a module, as far as `matplotlib` is concerned. -/
inductive Stmt where
  /-- `try: from .._utilities.plot_utilities import names ...; except ImportError: ...` -/
  | tryImport (names : List String)
  /-- a function or method whose decorator reads these names -/
  | decorated (names : List String)

/-- Importing a module: the names it has bound, and the state. -/
def runModule (e : Env) : List Stmt → List String → Session → Except Err Session
  | [], _, s => .ok s
  | .tryImport names :: l, bound, s =>
    match importPlotUtilities e s with
    | .ok s => runModule e l (bound ++ names) s
    | .error .importError => runModule e l bound s
    | .error x => .error x
  | .decorated names :: l, bound, s =>
    if names.all bound.contains then runModule e l bound s else .error .nameError

/-- trace_estimator_plot_utilities.py:17-22, 199, 298, 496. -/
def tracePlotModule : List Stmt :=
  [.tryImport ["matplotlib", "plt", "save_plot", "get_custom_theme"], .decorated ["matplotlib", "get_custom_theme"],
    .decorated ["matplotlib", "get_custom_theme"], .decorated ["matplotlib", "get_custom_theme"]]

/-- correlation_matrix.py:19-24, 563. -/
def correlationModule : List Stmt :=
  [.tryImport ["matplotlib", "plt", "save_plot", "get_custom_theme"], .decorated ["matplotlib", "get_custom_theme"]]

/-- interpolate_schatten.py:30-35, 1244, 1404. -/
def schattenModule : List Stmt :=
  [.tryImport ["get_custom_theme", "matplotlib", "show_or_save_plot", "plt"],
    .decorated ["matplotlib", "get_custom_theme"], .decorated ["matplotlib", "get_custom_theme"]]

/-- interpolate_trace.py:18-23, 969 and interpolate_logdet.py:18-23, 810. -/
def traceLogdetModule : List Stmt :=
  [.tryImport ["get_custom_theme", "matplotlib", "show_or_save_plot", "plt"],
    .decorated ["matplotlib", "get_custom_theme"]]

/-- The imports of `imate/__init__.py`:70-84 as far as they touch `matplotlib`: the trace estimator (through
`imate.logdet`), the interpolators, and the sample matrices.  The statements of plot_utilities.py run only at the first
import of that module; to run them again, as here, changes nothing. -/
def importBody (e : Env) (s : Session) : Except Err Session := do
  let s ← runModule e tracePlotModule [] s
  let s ← runModule e schattenModule [] s
  let s ← runModule e traceLogdetModule [] s
  let s ← runModule e traceLogdetModule [] s
  runModule e correlationModule [] s

/-! ### The check of the directory -/

/-- An absolute path as the list of its components. -/
abbrev Path := List String

/-- The argument `sys.argv[0]`: empty in an interactive session, absolute, or relative. -/
inductive Argv where
  | empty
  | absolute (p : Path)
  | relative (p : Path)

/-- `os.path.abspath` -/
def Argv.abspath (cwd : Path) : Argv → Path
  | .empty => cwd
  | .absolute p => p
  | .relative p => cwd ++ p

/-- `os.path.dirname` -/
def dirname (p : Path) : Path := p.dropLast

/-- `_check_import` (imate/__init__.py:14-62), for the directory `package` of the file `imate/__init__.py`. -/
def checkImport (cwd : Path) (argv : Argv) (package : Path) : Except Err Unit :=
  let project := dirname package
  if cwd = project then .error .runtimeError
  else if dirname (argv.abspath cwd) = project then .error .runtimeError
  else .ok ()

/-- The imports (imate/__init__.py:68-84), where `other` is an exception of those that are not modelled. -/
def importWith (e : Env) (other : Option Err) (s : Session) : Except Err Session :=
  match other with
  | some x => .error x
  | none => importBody e s

/-- `import imate` (imate/__init__.py:68-93). -/
def importImate (e : Env) (cwd : Path) (argv : Argv) (package : Path) (other : Option Err) (s : Session) :
    Except Err Session :=
  match importWith e other s with
  | .ok s => .ok s
  | .error x => match checkImport cwd argv package with
    | .error y => .error y
    | .ok _ => .error x

/-! ### Warnings -/

/-- `warnings.warn` of a warning that no filter drops.  With captured warnings the logger `py.warnings` gets a handler
that does nothing, so that without other handlers nothing is written (`logging._showwarning`). -/
def Session.warn (s : Session) (w : String) : Session :=
  if s.captured then
    if s.logging then { s with warned := w :: s.warned } else s
  else { s with warned := w :: s.warned }

/-! ### Plots -/

/-- The backends of `matplotlib` that cannot show figures. -/
def nonInteractive : List String := ["agg", "cairo", "pdf", "pgf", "ps", "svg", "template"]

/-- A new figure, `plt.subplots`. -/
def Session.newFigure (s : Session) (f : ℕ) : Session := { s with figures := f :: s.figures }

/-- `plt.show()`: all open figures are shown; it returns after they were closed (outside the interactive mode of
`pyplot`, which is not modelled).  A backend that cannot show them gives a
warning. -/
def Session.show (s : Session) : Session :=
  if s.backend ∈ nonInteractive then s.warn "FigureCanvas is non-interactive, and thus cannot be shown"
  else { s with shown := s.figures ++ s.shown, figures := [] }

/-- `plt.close()`: the active figure. -/
def Session.close (s : Session) : Session := { s with figures := s.figures.tail }

/-- `plt.savefig`: the active figure; a file of that name is overwritten.  (Without a figure it would save an empty one;
the plots always have one.) -/
def Session.savefig (s : Session) (name : String) : Session :=
  match s.figures with
  | [] => s
  | f :: _ => { s with files := (name, f) :: s.files.filter fun x => x.1 ≠ name }

/-- `save_plot` (plot_utilities.py:302-352) with its defaults `save_dir=None`, `pdf=True`, `verbose=False`. -/
def Session.savePlot (s : Session) (name : String) : Session :=
  if s.writable then ((s.savefig (name ++ ".svg")).savefig (name ++ ".pdf")).close
  else { s with printed := "Cannot save plot. Directory is not writable." :: s.printed }

/-- `show_or_save_plot` (plot_utilities.py:359-381). -/
def Session.showOrSavePlot (e : Env) (s : Session) (name : String) : Session :=
  if s.backend ≠ "agg" ∨ e.notebook then s.show else (s.savePlot name).close

/-- The end of `plot_convergence` (trace_estimator_plot_utilities.py:558-577) and `plot_matrix`
(correlation_matrix.py:593-614). -/
def Session.plotSaved (s : Session) (f : ℕ) (name : String) : Session :=
  let s := s.newFigure f
  if s.backend ≠ "agg" then s.show else s.savePlot name

/-- The end of `plot` of the interpolators (interpolate_schatten.py:1300-1307, 1392-1398, 1596-1602;
interpolate_trace.py:1220-1226; interpolate_logdet.py:1042-1048). -/
def Session.plotInterpolator (e : Env) (s : Session) (f : ℕ) : Session :=
  let s := s.newFigure f
  if s.backend ≠ "agg" then s.show else s.showOrSavePlot e "interpolation"

/-- The plots of the package. -/
inductive Plot where
  | convergence
  | matrix
  | interpolator
  deriving DecidableEq

/-- The name of the file. -/
def Plot.name : Plot → String
  | .convergence => "Convergence"
  | .matrix => "correlation_matrix"
  | .interpolator => "interpolation"

/-- A plot with the new figure `f`, after `import imate`. -/
def Plot.run (e : Env) (s : Session) (f : ℕ) : Plot → Session
  | .interpolator => s.plotInterpolator e f
  | p => s.plotSaved f p.name

end Imate.Display
