import Verif.Model.Display

/-! Specification vocabulary for C91 and C92: what a plot and the import of the package may do to the process. -/

namespace Imate.Spec

open Imate.Display

/-- The names under which the plots are documented to be saved. -/
def plotFile : Plot → String
  | .convergence => "Convergence"
  | .matrix => "correlation_matrix"
  | .interpolator => "interpolation"

/-- The user gets to see the plot: on the screen or in an SVG file of the working directory. -/
def Delivered (s : Session) (p : Plot) (f : ℕ) : Prop := f ∈ s.shown ∨ (plotFile p ++ ".svg", f) ∈ s.files

/-- The backend opens windows (or shows figures in a notebook). -/
def CanShow (s : Session) : Prop := s.backend ∉ ["agg", "cairo", "pdf", "pgf", "ps", "svg", "template"]

/-- A figure that did not exist before. -/
def FreshFigure (s : Session) (f : ℕ) : Prop := f ∉ s.shown ∧ f ∉ s.figures ∧ ∀ x ∈ s.files, x.2 ≠ f

/-- Several plots one after the other. -/
def runPlots (e : Env) (s : Session) (h : List (Plot × ℕ)) : Session := h.foldl (fun s x => x.1.run e s x.2) s

/-- The last plot of a kind. -/
def lastPlot (p : Plot) : List (Plot × ℕ) → Option ℕ
  | [] => none
  | x :: h => match lastPlot p h with
    | some f => some f
    | none => if x.1 = p then some x.2 else none

/-- Several warnings one after the other. -/
def runWarnings (s : Session) (ws : List String) : Session := ws.foldl Session.warn s

/-- The process has a screen: a non-empty `DISPLAY` that the user did not turn off, or a notebook. -/
def HasDisplay (e : Env) : Prop :=
  e.notebook = true ∨ ((∃ d, e.display = some d ∧ d ≠ "") ∧ (e.noDisplay = none ∨ e.noDisplay = some ""))

/-- The directory of the script, or what the package takes for it: the parent of the working directory in an interactive
session. -/
def scriptDir (cwd : Path) : Argv → Path
  | .empty => cwd.dropLast
  | .absolute p => p.dropLast
  | .relative p => (cwd ++ p).dropLast

/-- A module can be imported without `matplotlib`. -/
def Optional (m : List Stmt) : Prop :=
  ∀ (e : Env) (s : Session), e.matplotlib = false → runModule e m [] s = .ok s

end Imate.Spec
