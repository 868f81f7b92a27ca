import Verif.Spec.Display

/-! C91: what a plot does to the process.  C92: what importing the package does to it. -/

namespace Imate.Props

open Imate.Spec Imate.Display

namespace Display

/-! ### C91 -/

theorem name_eq (p : Plot) : p.name = plotFile p := by cases p <;> rfl

theorem svg_ne_pdf (p : Plot) : plotFile p ++ ".svg" ≠ plotFile p ++ ".pdf" := by cases p <;> decide +kernel

theorem canShow_ne {s : Session} (h : CanShow s) : s.backend ≠ "agg" := by
  intro hb; apply h; simp [hb]

theorem show_of_canShow {s : Session} (h : CanShow s) :
    s.show = { s with shown := s.figures ++ s.shown, figures := [] } := by
  unfold Session.show
  rw [if_neg]; exact h

theorem show_of_not {s : Session} (h : ¬ CanShow s) :
    s.show = s.warn "FigureCanvas is non-interactive, and thus cannot be shown" := by
  unfold Session.show
  rw [if_pos]
  unfold CanShow at h
  exact not_not.mp h

theorem warn_frame (s : Session) (w : String) :
    (s.warn w).files = s.files ∧ (s.warn w).shown = s.shown ∧ (s.warn w).figures = s.figures ∧
      (s.warn w).backend = s.backend ∧ (s.warn w).writable = s.writable ∧ (s.warn w).printed = s.printed := by
  unfold Session.warn
  split
  · split <;> exact ⟨rfl, rfl, rfl, rfl, rfl, rfl⟩
  · exact ⟨rfl, rfl, rfl, rfl, rfl, rfl⟩

/-- With a backend other than `agg` the plot ends with `plt.show`. -/
theorem run_of_ne {e : Env} {s : Session} {f : ℕ} {p : Plot} (h : s.backend ≠ "agg") :
    p.run e s f = (s.newFigure f).show := by
  cases p
  · simp [Plot.run, Session.plotSaved, Session.newFigure, h]
  · simp [Plot.run, Session.plotSaved, Session.newFigure, h]
  · simp [Plot.run, Session.plotInterpolator, Session.newFigure, h]

/-- With `agg`, outside a notebook for the interpolators. -/
theorem run_of_agg {e : Env} {s : Session} {f : ℕ} {p : Plot} (h : s.backend = "agg")
    (hn : p = .interpolator → e.notebook = false) :
    p.run e s f = if p = .interpolator then ((s.newFigure f).savePlot (plotFile p)).close
      else (s.newFigure f).savePlot (plotFile p) := by
  cases p
  · simp [Plot.run, Session.plotSaved, Session.newFigure, h, Plot.name, plotFile]
  · simp [Plot.run, Session.plotSaved, Session.newFigure, h, Plot.name, plotFile]
  · simp [Plot.run, Session.plotInterpolator, Session.showOrSavePlot, Session.newFigure, h, plotFile, hn]

theorem run_of_notebook {e : Env} {s : Session} {f : ℕ} (h : s.backend = "agg") (hn : e.notebook = true) :
    Plot.interpolator.run e s f = (s.newFigure f).show := by
  simp [Plot.run, Session.plotInterpolator, Session.showOrSavePlot, Session.newFigure, h, hn]

theorem savePlot_writable {s : Session} {f : ℕ} (p : Plot) (hw : s.writable = true) :
    (s.newFigure f).savePlot (plotFile p) =
      { s with files := (plotFile p ++ ".pdf", f) :: (plotFile p ++ ".svg", f) ::
        (s.files.filter fun x => x.1 ≠ plotFile p ++ ".svg").filter fun x => x.1 ≠ plotFile p ++ ".pdf" } := by
  have := svg_ne_pdf p
  unfold Session.savePlot
  rw [if_pos (by exact hw)]
  simp [Session.savefig, Session.newFigure, Session.close, this]

theorem savePlot_unwritable {s : Session} {f : ℕ} (n : String) (hw : s.writable = false) :
    (s.newFigure f).savePlot n =
      { s with figures := f :: s.figures, printed := "Cannot save plot. Directory is not writable." :: s.printed } := by
  unfold Session.savePlot
  rw [if_neg (by simp [Session.newFigure, hw])]
  rfl

/-- **C91 (a screen).**  With a backend that can show figures every plot is shown, together with the figures that were
open, and nothing is written or printed. -/
theorem plot_shown (e : Env) (s : Session) (f : ℕ) (p : Plot) (h : CanShow s) :
    let s' := p.run e s f
    s'.shown = f :: s.figures ++ s.shown ∧ s'.files = s.files ∧ s'.printed = s.printed ∧ s'.backend = s.backend ∧
      s'.warned = s.warned := by
  have hc : CanShow (s.newFigure f) := h
  rw [run_of_ne (canShow_ne h), show_of_canShow hc]
  exact ⟨rfl, rfl, rfl, rfl, rfl⟩

/-- **C91 (no screen).**  With the backend `agg` and a writable working directory a plot is saved as an SVG and as a PDF
file; nothing is shown or printed.  The interpolators do this only outside notebooks. -/
theorem plot_saved_partial (e : Env) (s : Session) (f : ℕ) (p : Plot) (hb : s.backend = "agg")
    (hw : s.writable = true) (hn : p = .interpolator → e.notebook = false) :
    let s' := p.run e s f
    (plotFile p ++ ".svg", f) ∈ s'.files ∧ (plotFile p ++ ".pdf", f) ∈ s'.files ∧ s'.shown = s.shown ∧
      s'.printed = s.printed ∧ s'.backend = s.backend ∧ s'.writable = s.writable := by
  rw [run_of_agg hb hn, savePlot_writable p hw]
  split <;> simp [Session.close]

/-- **C91.**  Exactly when a plot reaches the user, for every backend, every directory, in and outside notebooks. -/
theorem plot_delivered_iff (e : Env) (s : Session) (f : ℕ) (p : Plot) (hf : FreshFigure s f) :
    Delivered (p.run e s f) p f ↔
      CanShow s ∨ (s.backend = "agg" ∧ s.writable = true ∧ (p = .interpolator → e.notebook = false)) := by
  obtain ⟨hf1, hf2, hf3⟩ := hf
  have hlost : ∀ s' : Session, s'.shown = s.shown → s'.files = s.files → ¬ Delivered s' p f := by
    intro s' h1 h2 h
    rcases h with h | h
    · rw [h1] at h; exact hf1 h
    · rw [h2] at h; exact hf3 _ h rfl
  by_cases hc : CanShow s
  · refine ⟨fun _ => .inl hc, fun _ => .inl ?_⟩
    rw [(plot_shown e s f p hc).1]; simp
  have hshow : ¬ Delivered (s.newFigure f).show p f := by
    have hc' : ¬ CanShow (s.newFigure f) := hc
    rw [show_of_not hc']
    obtain ⟨h1, h2, -⟩ := warn_frame (s.newFigure f) "FigureCanvas is non-interactive, and thus cannot be shown"
    exact hlost _ h2 h1
  by_cases hb : s.backend = "agg"
  · by_cases hn : p = .interpolator → e.notebook = false
    · by_cases hw : s.writable = true
      · exact ⟨fun _ => .inr ⟨hb, hw, hn⟩, fun _ => .inr (plot_saved_partial e s f p hb hw hn).1⟩
      · refine ⟨fun h => absurd h ?_, fun h => ?_⟩
        · rw [run_of_agg hb hn, savePlot_unwritable _ (by simpa using hw)]
          split <;> exact hlost _ rfl rfl
        · rcases h with h | h
          · exact absurd h hc
          · exact absurd h.2.1 hw
    · refine ⟨fun h => absurd h ?_, fun h => ?_⟩
      · push Not at hn
        obtain ⟨rfl, hn⟩ := hn
        rw [run_of_notebook hb (by simpa using hn)]
        exact hshow
      · rcases h with h | h
        · exact absurd h hc
        · exact absurd h.2.2 hn
  · refine ⟨fun h => absurd h ?_, fun h => ?_⟩
    · rw [run_of_ne hb]; exact hshow
    · rcases h with h | h
      · exact absurd h hc
      · exact absurd h.1 hb

/-- **C91 (files).**  No plot touches a file other than the two of its name. -/
theorem plot_other_files (e : Env) (s : Session) (f : ℕ) (p : Plot) (x : String × ℕ)
    (h1 : x.1 ≠ plotFile p ++ ".svg") (h2 : x.1 ≠ plotFile p ++ ".pdf") :
    x ∈ (p.run e s f).files ↔ x ∈ s.files := by
  have hshow : ((s.newFigure f).show).files = s.files := by
    by_cases hc : CanShow (s.newFigure f)
    · rw [show_of_canShow hc]; rfl
    · rw [show_of_not hc, (warn_frame _ _).1]; rfl
  by_cases hb : s.backend = "agg"
  · by_cases hn : p = .interpolator → e.notebook = false
    · rw [run_of_agg hb hn]
      by_cases hw : s.writable = true
      · rw [savePlot_writable p hw]
        have a1 : x ≠ (plotFile p ++ ".pdf", f) := fun h => h2 (by rw [h])
        have a2 : x ≠ (plotFile p ++ ".svg", f) := fun h => h1 (by rw [h])
        split <;> simp [Session.close, a1, a2, h1, h2]
      · rw [savePlot_unwritable _ (by simpa using hw)]
        split <;> rfl
    · push Not at hn
      obtain ⟨rfl, hn⟩ := hn
      rw [run_of_notebook hb (by simpa using hn), hshow]
  · rw [run_of_ne hb, hshow]

/-- **C91 (the figures of the user), part.**  When the convergence or a matrix is saved, the open figures stay as they
were. -/
theorem plot_figures_partial (e : Env) (s : Session) (f : ℕ) (p : Plot) (hp : p ≠ .interpolator)
    (hb : s.backend = "agg") (hw : s.writable = true) : (p.run e s f).figures = s.figures := by
  rw [run_of_agg hb (fun h => absurd h hp), if_neg hp, savePlot_writable p hw]

/-- **C91 (violated): the interpolators close a figure of the user.**  Whenever an interpolator saves its plot it closes
two figures: its own, and the one that was active before. -/
theorem interpolator_closes_user_figure (e : Env) (s : Session) (f : ℕ) (hb : s.backend = "agg")
    (hw : s.writable = true) (hn : e.notebook = false) :
    (Plot.interpolator.run e s f).figures = s.figures.tail := by
  rw [run_of_agg hb (fun _ => hn), if_pos rfl, savePlot_writable _ hw]
  rfl

/-- **C91 (violated): a directory without permission.**  The plot is lost with a line of output; the convergence and the
matrix leave their figure open, the interpolators do not. -/
theorem plot_unwritable (e : Env) (s : Session) (f : ℕ) (p : Plot) (hb : s.backend = "agg")
    (hw : s.writable = false) (hn : p = .interpolator → e.notebook = false) :
    let s' := p.run e s f
    s'.files = s.files ∧ s'.shown = s.shown ∧ s'.printed.length = s.printed.length + 1 ∧
      s'.figures = if p = .interpolator then s.figures else f :: s.figures := by
  rw [run_of_agg hb hn, savePlot_unwritable _ hw]
  by_cases h : p = .interpolator <;> simp [h, Session.close]

/-- **C91 (violated): a backend that only writes files.**  Every such backend other than `agg` loses every plot, whatever
the directory. -/
theorem plot_lost_noninteractive (e : Env) (s : Session) (f : ℕ) (p : Plot) (hf : FreshFigure s f)
    (hb : s.backend ∈ ["cairo", "pdf", "pgf", "ps", "svg", "template"]) : ¬ Delivered (p.run e s f) p f := by
  rw [plot_delivered_iff e s f p hf]
  rintro (h | h)
  · apply h
    simp only [List.mem_cons] at hb ⊢
    exact .inr hb
  · rw [h.1] at hb
    revert hb; decide +kernel

/-! ### Histories of plots -/

theorem run_keeps {e : Env} {s : Session} {f : ℕ} {p : Plot} (hb : s.backend = "agg") (hn : e.notebook = false) :
    (p.run e s f).backend = "agg" ∧ (p.run e s f).writable = s.writable := by
  rw [run_of_agg hb fun _ => hn]
  by_cases hw : s.writable = true
  · rw [savePlot_writable p hw]
    split <;> exact ⟨hb, rfl⟩
  · rw [savePlot_unwritable _ (by simpa using hw)]
    split <;> exact ⟨hb, rfl⟩

theorem plotFile_ne {p q : Plot} (h : p ≠ q) :
    plotFile p ++ ".svg" ≠ plotFile q ++ ".svg" ∧ plotFile p ++ ".svg" ≠ plotFile q ++ ".pdf" := by
  cases p <;> cases q <;> first | exact absurd rfl h | decide +kernel

theorem run_svg {e : Env} {s : Session} {f : ℕ} {p : Plot} (hb : s.backend = "agg") (hw : s.writable = true)
    (hn : e.notebook = false) (g : ℕ) : (plotFile p ++ ".svg", g) ∈ (p.run e s f).files ↔ g = f := by
  have := svg_ne_pdf p
  rw [run_of_agg hb fun _ => hn, savePlot_writable p hw]
  split <;> simp [Session.close, this]

/-- **C91 (histories).**  After any sequence of plots without a screen, the file of a kind of plot holds the last plot of
that kind, and nothing if there was none. -/
theorem history_file (e : Env) (h : List (Plot × ℕ)) (s : Session) (p : Plot) (hb : s.backend = "agg")
    (hw : s.writable = true) (hn : e.notebook = false) (g : ℕ) :
    (plotFile p ++ ".svg", g) ∈ (runPlots e s h).files ↔
      match lastPlot p h with
      | some f => g = f
      | none => (plotFile p ++ ".svg", g) ∈ s.files := by
  induction h generalizing s with
  | nil => simp [runPlots, lastPlot]
  | cons x h ih =>
    obtain ⟨k1, k2⟩ := run_keeps (f := x.2) (p := x.1) hb hn
    have hi := ih (x.1.run e s x.2) k1 (by rw [k2]; exact hw)
    have hr : runPlots e s (x :: h) = runPlots e (x.1.run e s x.2) h := rfl
    rw [hr, hi]
    cases hl : lastPlot p h with
    | some f => simp [lastPlot, hl]
    | none =>
      by_cases hx : x.1 = p
      · simp only [lastPlot, hl, hx, if_true]
        rw [← hx]
        exact run_svg hb hw hn g
      · simp only [lastPlot, hl, hx, if_false]
        exact plot_other_files e s x.2 x.1 _ (plotFile_ne (fun h => hx h.symm)).1 (plotFile_ne (fun h => hx h.symm)).2

/-- **C91 (histories, figures).**  After any sequence of plots without a screen no figure is left that was not there; but
every plot of an interpolator takes a figure of the user with it. -/
theorem history_figures (e : Env) (h : List (Plot × ℕ)) (s : Session) (hb : s.backend = "agg")
    (hw : s.writable = true) (hn : e.notebook = false) :
    (runPlots e s h).figures = s.figures.drop (h.countP fun x => decide (x.1 = .interpolator)) := by
  induction h generalizing s with
  | nil => simp [runPlots]
  | cons x h ih =>
    obtain ⟨k1, k2⟩ := run_keeps (f := x.2) (p := x.1) hb hn
    have hi := ih (x.1.run e s x.2) k1 (by rw [k2]; exact hw)
    have hr : runPlots e s (x :: h) = runPlots e (x.1.run e s x.2) h := rfl
    rw [hr, hi]
    by_cases hx : x.1 = .interpolator
    · rw [hx, interpolator_closes_user_figure e s x.2 hb hw hn]
      simp [hx, List.countP_cons]
    · rw [plot_figures_partial e s x.2 x.1 hx hb hw]
      simp [hx, List.countP_cons]

/-- **C91 (violated): figures pile up.**  In a directory without permission every plot of a convergence or of a matrix
leaves a figure open. -/
theorem history_leak (e : Env) (h : List (Plot × ℕ)) (s : Session) (hb : s.backend = "agg")
    (hw : s.writable = false) (hn : e.notebook = false) (hh : ∀ x ∈ h, x.1 ≠ .interpolator) :
    (runPlots e s h).figures.length = s.figures.length + h.length := by
  induction h generalizing s with
  | nil => simp [runPlots]
  | cons x h ih =>
    obtain ⟨k1, k2⟩ := run_keeps (f := x.2) (p := x.1) hb hn
    have hi := ih (x.1.run e s x.2) k1 (by rw [k2]; exact hw) fun y hy => hh y (by simp [hy])
    have hr : runPlots e s (x :: h) = runPlots e (x.1.run e s x.2) h := rfl
    have hu := (plot_unwritable e s x.2 x.1 hb hw (fun _ => hn)).2.2.2
    rw [if_neg (hh x (by simp))] at hu
    rw [hr, hi, hu]
    simp only [List.length_cons]; omega

/-! ### C92 -/

/-- The state after the statements of plot_utilities.py. -/
theorem plotUtilities_eq {e : Env} (he : e.matplotlib = true) (s : Session) :
    importPlotUtilities e s = .ok (if e.selectsAgg then
      { s with backend := "agg", figures := if e.closesOnSwitch then [] else s.figures, captured := true }
      else { s with captured := true }) := by
  unfold importPlotUtilities
  rw [he]
  by_cases h : e.selectsAgg = true <;> simp [h]

theorem plotUtilities_idem {e : Env} {s s' : Session} (h : importPlotUtilities e s = .ok s') :
    importPlotUtilities e s' = .ok s' := by
  by_cases he : e.matplotlib = true
  · rw [plotUtilities_eq he] at h ⊢
    injection h with h
    subst h
    by_cases ha : e.selectsAgg = true
    · by_cases hc : e.closesOnSwitch = true <;> simp [ha, hc]
    · simp [ha]
  · simp [importPlotUtilities, he] at h

/-- The modules of the package run to their end with `matplotlib`. -/
theorem module_ok {e : Env} {s s' : Session} (h : importPlotUtilities e s = .ok s') :
    runModule e tracePlotModule [] s = .ok s' ∧ runModule e schattenModule [] s = .ok s' ∧
      runModule e traceLogdetModule [] s = .ok s' ∧ runModule e correlationModule [] s = .ok s' := by
  refine ⟨?_, ?_, ?_, ?_⟩ <;>
    simp [runModule, tracePlotModule, schattenModule, traceLogdetModule, correlationModule, h]

theorem selectsAgg_iff (e : Env) : e.selectsAgg = true ↔ ¬ HasDisplay e := by
  unfold Env.selectsAgg HasDisplay
  rcases e with ⟨m, d, n, b, c⟩
  cases b <;> rcases d with _ | d <;> rcases n with _ | n <;> simp [truthy] <;> tauto

/-- **C92.**  With `matplotlib` installed the package imports, and this is all it does to the process: without a display
the backend becomes `agg` (and with some versions of `matplotlib` all figures are closed); with a display backend and
figures stay; and warnings are captured. -/
theorem import_effect (e : Env) (cwd : Path) (argv : Argv) (package : Path) (s : Session)
    (he : e.matplotlib = true) :
    ∃ s', importImate e cwd argv package none s = .ok s' ∧
      (HasDisplay e → s'.backend = s.backend ∧ s'.figures = s.figures) ∧
      (¬ HasDisplay e → s'.backend = "agg" ∧ (e.closesOnSwitch = false → s'.figures = s.figures) ∧
        (e.closesOnSwitch = true → s'.figures = [])) ∧
      s'.captured = true ∧ s'.files = s.files ∧ s'.shown = s.shown ∧ s'.printed = s.printed ∧ s'.warned = s.warned ∧
      s'.logging = s.logging ∧ s'.writable = s.writable := by
  have h0 := plotUtilities_eq he s
  generalize hs' : (if e.selectsAgg then
      { s with backend := "agg", figures := if e.closesOnSwitch then [] else s.figures, captured := true }
      else { s with captured := true } : Session) = s' at h0
  have hi := plotUtilities_idem h0
  obtain ⟨a1, -⟩ := module_ok h0
  obtain ⟨-, a2, a3, a4⟩ := module_ok hi
  refine ⟨s', ?_, ?_⟩
  · have : importBody e s = .ok s' := by
      unfold importBody
      rw [a1]; simp only [bind, Except.bind]
      rw [a2]; simp only []
      rw [a3]; simp only []
      rw [a3]; simp only []
      exact a4
    simp [importImate, importWith, this]
  · subst hs'
    by_cases ha : e.selectsAgg = true
    · have hd := (selectsAgg_iff e).mp ha
      rw [if_pos ha]
      refine ⟨fun h => absurd h hd, fun _ => ⟨rfl, fun h => by simp [h], fun h => by simp [h]⟩, rfl, rfl, rfl, rfl, rfl,
        rfl, rfl⟩
    · have hd : HasDisplay e := by
        by_contra h; exact ha ((selectsAgg_iff e).mpr h)
      rw [if_neg ha]
      exact ⟨fun _ => ⟨rfl, rfl⟩, fun h => absurd hd h, rfl, rfl, rfl, rfl, rfl, rfl, rfl⟩

/-- The names of `l` are all bound. -/
theorem without_matplotlib {e : Env} (he : e.matplotlib = false) (m : List Stmt) (bound : List String) (s : Session) :
    runModule e m bound s = .ok s ∨ runModule e m bound s = .error .nameError := by
  induction m with
  | nil => exact .inl rfl
  | cons a m ih =>
    cases a with
    | tryImport names => simpa [runModule, importPlotUtilities, he] using ih
    | decorated names =>
      unfold runModule
      split
      · exact ih
      · exact .inr rfl

/-- **C92 (an optional dependency).**  A module that imports the plotting names in a `try` can do without `matplotlib`
exactly when no decorator at its top level reads a name. -/
theorem optional_iff (m : List Stmt) : Optional m ↔ ∀ names, Stmt.decorated names ∈ m → names = [] := by
  constructor
  · intro h
    have h1 := h ⟨false, none, none, false, false⟩ ⟨"agg", [], [], true, [], [], false, false, []⟩ rfl
    clear h
    generalize (⟨"agg", [], [], true, [], [], false, false, []⟩ : Session) = s at h1
    induction m with
    | nil => intro names hm; simp at hm
    | cons a m ih =>
      cases a with
      | tryImport nm =>
        have : runModule ⟨false, none, none, false, false⟩ m [] s = .ok s := by
          simpa [runModule, importPlotUtilities] using h1
        intro names hm
        exact ih this names (by simpa using hm)
      | decorated nm =>
        by_cases hn : nm = []
        · subst hn
          have : runModule ⟨false, none, none, false, false⟩ m [] s = .ok s := by
            simpa [runModule] using h1
          intro names hm
          rcases List.mem_cons.mp hm with h | h
          · injection h
          · exact ih this names h
        · exfalso
          obtain ⟨x, l, rfl⟩ := List.exists_cons_of_ne_nil hn
          simp [runModule] at h1
  · intro h e s he
    induction m with
    | nil => rfl
    | cons a m ih =>
      have hm := ih fun names hn => h names (by simp [hn])
      cases a with
      | tryImport nm => simpa [runModule, importPlotUtilities, he] using hm
      | decorated nm =>
        have := h nm (by simp)
        subst this
        simpa [runModule] using hm

/-- **C92 (violated): `matplotlib` is not optional.**  None of the modules that catch the failed import can be imported
without it, and so neither can the package, in any environment and from any directory. -/
theorem matplotlib_required (e : Env) (cwd : Path) (argv : Argv) (package : Path) (s : Session)
    (he : e.matplotlib = false) :
    (¬ Optional tracePlotModule ∧ ¬ Optional schattenModule ∧ ¬ Optional traceLogdetModule ∧
      ¬ Optional correlationModule) ∧
      ∃ x, x ≠ .importError ∧ importImate e cwd argv package none s = .error x := by
  refine ⟨?_, ?_⟩
  · simp only [optional_iff]
    refine ⟨?_, ?_, ?_, ?_⟩ <;> intro h <;>
      exact absurd (h ["matplotlib", "get_custom_theme"]
        (by simp [tracePlotModule, schattenModule, traceLogdetModule, correlationModule])) (by simp)
  · have : importBody e s = .error .nameError := by
      have h1 : runModule e tracePlotModule [] s = .error .nameError := by
        simp [runModule, tracePlotModule, importPlotUtilities, he]
      unfold importBody
      rw [h1]; rfl
    unfold importImate importWith
    rw [this]
    unfold checkImport
    dsimp only
    split_ifs
    · exact ⟨.runtimeError, by decide, rfl⟩
    · exact ⟨.runtimeError, by decide, rfl⟩
    · exact ⟨.nameError, by decide, rfl⟩

/-- **C92 (warnings).**  After the import no warning of the program is written anywhere unless logging was configured,
for any sequence of warnings; before it each one was. -/
theorem warnings_lost (s : Session) (ws : List String) :
    (s.captured = true → s.logging = false → (runWarnings s ws).warned = s.warned) ∧
      (s.captured = true → s.logging = true → (runWarnings s ws).warned = ws.reverse ++ s.warned) ∧
      (s.captured = false → (runWarnings s ws).warned = ws.reverse ++ s.warned) := by
  induction ws generalizing s with
  | nil => simp [runWarnings]
  | cons w ws ih =>
    have hr : runWarnings s (w :: ws) = runWarnings (s.warn w) ws := rfl
    rw [hr]
    have hi := ih (s.warn w)
    refine ⟨fun h1 h2 => ?_, fun h1 h2 => ?_, fun h1 => ?_⟩
    · have : s.warn w = s := by simp [Session.warn, h1, h2]
      rw [this]; exact (ih s).1 h1 h2
    · have : s.warn w = { s with warned := w :: s.warned } := by simp [Session.warn, h1, h2]
      rw [this] at hi ⊢
      rw [hi.2.1 h1 h2]; simp
    · have : s.warn w = { s with warned := w :: s.warned } := by simp [Session.warn, h1]
      rw [this] at hi ⊢
      rw [hi.2.2 h1]; simp

/-- **C92 (violated): importing the package silences the warnings of the program.** -/
theorem import_silences_warnings (e : Env) (cwd : Path) (argv : Argv) (package : Path) (s : Session)
    (he : e.matplotlib = true) (hl : s.logging = false) (hc : s.captured = false) (ws : List String) :
    (runWarnings s ws).warned = ws.reverse ++ s.warned ∧
      ∃ s', importImate e cwd argv package none s = .ok s' ∧ (runWarnings s' ws).warned = s.warned := by
  refine ⟨(warnings_lost s ws).2.2 hc, ?_⟩
  obtain ⟨s', h1, -, -, h4, -, -, -, h8, h9, -⟩ := import_effect e cwd argv package s he
  exact ⟨s', h1, by rw [(warnings_lost s' ws).1 h4 (by rw [h9]; exact hl), h8]⟩

theorem scriptDir_eq (cwd : Path) (argv : Argv) : dirname (argv.abspath cwd) = scriptDir cwd argv := by
  cases argv <;> rfl

/-- **C92 (errors), part.**  An error of the imports is passed on as it is when neither the working directory nor the
directory of the script is the directory that holds the package. -/
theorem import_error_kept_partial (e : Env) (cwd : Path) (argv : Argv) (package : Path) (x : Err) (s : Session)
    (h1 : cwd ≠ package.dropLast) (h2 : scriptDir cwd argv ≠ package.dropLast) :
    importImate e cwd argv package (some x) s = .error x := by
  rw [← scriptDir_eq] at h2
  unfold dirname at h2
  simp [importImate, importWith, checkImport, dirname, h1, h2]

/-- **C92 (errors).**  In the directory of the sources, or for a script in it, every error becomes the error about that
directory, whatever its cause. -/
theorem import_error_source (e : Env) (cwd : Path) (argv : Argv) (package : Path) (x : Err) (s : Session)
    (h : cwd = package.dropLast ∨ scriptDir cwd argv = package.dropLast) :
    importImate e cwd argv package (some x) s = .error .runtimeError := by
  rcases h with h | h
  · simp [importImate, importWith, checkImport, dirname, h]
  · rw [← scriptDir_eq] at h
    unfold importImate importWith checkImport
    dsimp only
    rw [h]
    split_ifs <;> first | rfl | contradiction

/-- **C92 (violated): an interactive session beside the package.**  In every directory next to the package (such as
another package of the same `site-packages`) an interactive session, which runs no script, reports every failed import as
a script in the directory of the sources. -/
theorem import_error_interactive (e : Env) (project : Path) (sub name : String) (x : Err) (s : Session) :
    importImate e (project ++ [sub]) .empty (project ++ [name]) (some x) s = .error .runtimeError := by
  apply import_error_source
  right
  simp [scriptDir]

/-! ### The import followed by a plot -/

/-- **C91 (the documented switch).**  With `IMATE_NO_DISPLAY` set before the import, outside notebooks, every plot is saved
as an SVG file in a writable directory and not shown, whatever backend the program had. -/
theorem no_display_saves_partial (e : Env) (cwd : Path) (argv : Argv) (package : Path) (s : Session) (v : String)
    (he : e.matplotlib = true) (hv : e.noDisplay = some v) (hv' : v ≠ "") (hn : e.notebook = false)
    (hw : s.writable = true) (f : ℕ) (p : Plot) :
    ∃ s', importImate e cwd argv package none s = .ok s' ∧
      (plotFile p ++ ".svg", f) ∈ (p.run e s' f).files ∧ (p.run e s' f).shown = s.shown := by
  obtain ⟨s', h1, -, h3, -, -, h6, -, -, -, h10⟩ := import_effect e cwd argv package s he
  have hd : ¬ HasDisplay e := by
    unfold HasDisplay; simp [hn, hv, hv']
  obtain ⟨k1, -, k3, -⟩ := plot_saved_partial e s' f p (h3 hd).1 (by rw [h10]; exact hw) fun _ => hn
  exact ⟨s', h1, k1, by rw [k3, h6]⟩

/-- **C91 (violated): the switch has no effect in notebooks.**  The plot is shown and no file is written. -/
theorem no_display_ignored_in_notebook (e : Env) (cwd : Path) (argv : Argv) (package : Path) (s : Session)
    (he : e.matplotlib = true) (hn : e.notebook = true) (hc : CanShow s) (f : ℕ) (p : Plot) :
    ∃ s', importImate e cwd argv package none s = .ok s' ∧ f ∈ (p.run e s' f).shown ∧
      (p.run e s' f).files = s.files := by
  obtain ⟨s', h1, h2, -, -, h5, -⟩ := import_effect e cwd argv package s he
  have hb := (h2 (.inl hn)).1
  have hc' : CanShow s' := by unfold CanShow; rw [hb]; exact hc
  obtain ⟨k1, k2, -⟩ := plot_shown e s' f p hc'
  exact ⟨s', h1, by rw [k1]; simp, by rw [k2, h5]⟩

/-! ### Cases -/

/-- A terminal with a screen, and one without. -/
def screen : Env := ⟨true, some ":0", none, false, false⟩

def server : Env := ⟨true, none, none, false, false⟩

/-- A session with two open figures. -/
def session (backend : String) : Session := ⟨backend, [1, 2], [("notes.txt", 7)], true, [], [], false, false, []⟩

example : CanShow (session "tkagg") ∧ FreshFigure (session "tkagg") 5 := by
  unfold CanShow FreshFigure session; decide +kernel

example : HasDisplay screen ∧ ¬ HasDisplay server := by
  unfold HasDisplay screen server; simp

example : (Plot.convergence.run server (session "agg") 5).files =
    [("Convergence.pdf", 5), ("Convergence.svg", 5), ("notes.txt", 7)] := by decide +kernel

/-- The active figure of the user is gone after the plot of an interpolator. -/
example : (Plot.interpolator.run server (session "agg") 5).figures = [2] := by decide +kernel

/-- The second convergence overwrites the first. -/
example : (runPlots server (session "agg") [(.convergence, 5), (.convergence, 6)]).files =
    [("Convergence.pdf", 6), ("Convergence.svg", 6), ("notes.txt", 7)] := by decide +kernel

example : lastPlot .convergence [(.convergence, 5), (.matrix, 8), (.convergence, 6), (.interpolator, 9)] = some 6 := by
  decide +kernel

/-- `IMATE_NO_DISPLAY='False'` turns the screen off as well. -/
example : ¬ HasDisplay ⟨true, some ":0", some "False", false, false⟩ := by unfold HasDisplay; simp

example : (session "agg").logging = false ∧ (session "agg").captured = false := ⟨rfl, rfl⟩

example : (⟨true, some ":0", some "True", false, false⟩ : Env).noDisplay = some "True" ∧ "True" ≠ "" := by decide

example : scriptDir ["home", "work"] (.relative ["run.py"]) ≠ ["site-packages"] := by decide

/-- A failed import in an interactive session of `/site-packages/numpy`. -/
example : importImate screen ["site-packages", "numpy"] .empty ["site-packages", "imate"] (some .importError)
    (session "tkagg") = .error .runtimeError := by
  exact import_error_interactive screen ["site-packages"] "numpy" "imate" _ _

end Display

end Imate.Props
