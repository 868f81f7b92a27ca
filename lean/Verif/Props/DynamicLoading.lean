import Verif.Spec.DynamicLoading
import Mathlib.Tactic.Common

/-! # C73: dynamic loading of CUDA -/

namespace Imate.Props

open Imate.DynamicLoading Imate.Spec

/-- the name of the library of a wrapper -/
abbrev nameOf (W : World) (w : Wrapper) : String := libName W.platform W.major w.library

/-- the address of the symbol of a wrapper -/
def addressOf (W : World) (w : Wrapper) : Option Nat := (W.libraries (nameOf W w)).bind (fun l => l w.symbol)

theorem wrappers_cells : ∀ w ∈ wrappers, w.stored = w.called ∧ w.checked = w.called := by decide +kernel

theorem wrappers_distinct : ∀ w ∈ wrappers, ∀ w' ∈ wrappers, w.called = w'.called → w = w' := by decide +kernel

/-- **C73** (the table).  Every wrapper looks for the symbol that CUDA gives the function it stands for. -/
theorem wrappers_symbols : ∀ w ∈ wrappers, w.symbol = cudaSymbol w.library w.api := by decide +kernel

/-- What holds of a thread within a wrapper. -/
def PcOk (W : World) (s : State) (t : Nat) (w : Wrapper) : Pc → Prop
  | .check => True
  | .openLibrary => True
  | .findSymbol => W.libraries (nameOf W w) ≠ none
  | .askError a => a = addressOf W w ∧ W.libraries (nameOf W w) ≠ none ∧ (a = none → s.pending t ≠ none)
  | .store a => a = addressOf W w ∧ a ≠ none
  | .call => s.table w.called ≠ none

/-- How a finished call can have ended. -/
def OutcomeOk (W : World) (w : Wrapper) : Outcome → Prop
  | .called o => o = addressOf W w ∧ o ≠ none
  | .thrown m => W.libraries (nameOf W w) = none ∧ m = openMessage (nameOf W w)
  | .undefined => W.libraries (nameOf W w) ≠ none

structure Inv (W : World) (s : State) : Prop where
  table : ∀ w ∈ wrappers, ∀ a, s.table w.called = some a → addressOf W w = some a
  running : ∀ t w pc, s.running t = some (w, pc) → w ∈ wrappers ∧ PcOk W s t w pc
  log : ∀ t w o, (t, w, o) ∈ s.log → w ∈ wrappers ∧ OutcomeOk W w o

theorem Inv.initial (W : World) : Inv W State.initial :=
  ⟨fun w _ a h => by simp [State.initial] at h, fun t w pc h => by simp [State.initial] at h,
    fun t w o h => by simp [State.initial] at h⟩

/-- a thread goes on within its wrapper; pointers are only set -/
theorem Inv.goto {W : World} {s s' : State} (h : Inv W s) {t : Nat} {w : Wrapper} {pc : Pc} (hw : w ∈ wrappers)
    (htab : s'.table = s.table) (hpend : ∀ u, u ≠ t → s'.pending u = s.pending u) (hrun : s'.running = s.running)
    (hlog : s'.log = s.log) (hpc : PcOk W s' t w pc) : Inv W (s'.goto t w pc) := by
  refine ⟨fun v hv a e => h.table v hv a (by rw [← htab]; exact e), fun u v q e => ?_, fun u v o e => h.log u v o (by rw [← hlog]; exact e)⟩
  by_cases hu : u = t
  · subst hu
    have e' : (w, pc) = (v, q) := by simpa [State.goto] using e
    obtain ⟨rfl, rfl⟩ := Prod.mk.inj e'
    refine ⟨hw, ?_⟩
    cases pc <;> exact hpc
  · have e' : s.running u = some (v, q) := by
      rw [← hrun]
      simpa [State.goto, Function.update_of_ne hu] using e
    obtain ⟨h1, h2⟩ := h.running u v q e'
    refine ⟨h1, ?_⟩
    cases q with
    | check => trivial
    | openLibrary => trivial
    | findSymbol => exact h2
    | askError a => exact ⟨h2.1, h2.2.1, fun ha => by
        show s'.pending u ≠ none
        rw [hpend u hu]; exact h2.2.2 ha⟩
    | store a => exact h2
    | call =>
      show s'.table v.called ≠ none
      rw [htab]; exact h2

theorem Inv.finish {W : World} {s s' : State} (h : Inv W s) {t : Nat} {w : Wrapper} {o : Outcome} (hw : w ∈ wrappers)
    (htab : s'.table = s.table) (hpend : ∀ u, u ≠ t → s'.pending u = s.pending u) (hrun : s'.running = s.running)
    (hlog : s'.log = s.log) (ho : OutcomeOk W w o) : Inv W (s'.finish t w o) := by
  refine ⟨fun v hv a e => h.table v hv a (by rw [← htab]; exact e), fun u v q e => ?_, fun u v o' e => ?_⟩
  · by_cases hu : u = t
    · subst hu
      simp [State.finish] at e
    · have e' : s.running u = some (v, q) := by
        rw [← hrun]
        simpa [State.finish, Function.update_of_ne hu] using e
      obtain ⟨h1, h2⟩ := h.running u v q e'
      refine ⟨h1, ?_⟩
      cases q with
      | check => trivial
      | openLibrary => trivial
      | findSymbol => exact h2
      | askError a => exact ⟨h2.1, h2.2.1, fun ha => by
          show s'.pending u ≠ none
          rw [hpend u hu]; exact h2.2.2 ha⟩
      | store a => exact h2
      | call =>
        show s'.table v.called ≠ none
        rw [htab]; exact h2
  · have e' : (u, v, o') = (t, w, o) ∨ (u, v, o') ∈ s.log := by
      rw [← hlog]; simpa [State.finish] using e
    rcases e' with e' | e'
    · obtain ⟨-, e'⟩ := Prod.mk.inj e'
      obtain ⟨rfl, rfl⟩ := Prod.mk.inj e'
      exact ⟨hw, ho⟩
    · exact h.log u v o' e'

theorem success_fields (W : World) (s : State) (t : Nat) : (s.success W t).table = s.table ∧
    (∀ u, u ≠ t → (s.success W t).pending u = s.pending u) ∧ (s.success W t).running = s.running ∧
    (s.success W t).log = s.log := by
  unfold State.success
  split
  · exact ⟨rfl, fun _ _ => rfl, rfl, rfl⟩
  · exact ⟨rfl, fun u hu => by simp [State.clearError, Function.update_of_ne hu], rfl, rfl⟩

theorem Inv.step {W : World} {s : State} (h : Inv W s) (t : Nat) : Inv W (stepThread W t s) := by
  unfold stepThread
  cases hr : s.running t with
  | none => exact h
  | some p =>
    obtain ⟨w, pc⟩ := p
    obtain ⟨hw, hpc⟩ := h.running t w pc hr
    obtain ⟨hst, hch⟩ := wrappers_cells w hw
    cases pc with
    | check =>
      dsimp only
      split
      · exact h.goto hw rfl (fun _ _ => rfl) rfl rfl trivial
      · rename_i hne
        exact h.goto hw rfl (fun _ _ => rfl) rfl rfl (by rw [hch] at hne; exact hne)
    | openLibrary =>
      dsimp only
      cases hl : W.libraries (libName W.platform W.major w.library) with
      | some l =>
        dsimp only
        obtain ⟨f1, f2, f3, f4⟩ := success_fields W s t
        exact h.goto hw f1 f2 f3 f4 (by show W.libraries (nameOf W w) ≠ none; rw [show W.libraries (nameOf W w) = _ from hl]; simp)
      | none =>
        dsimp only
        have hp : (s.setError t (openMessage (libName W.platform W.major w.library))).pending t =
            some (openMessage (libName W.platform W.major w.library)) := by simp [State.setError]
        unfold State.throwError
        rw [hp]
        refine h.finish hw rfl (fun u hu => ?_) rfl rfl ⟨hl, rfl⟩
        simp [State.clearError, State.setError, Function.update_of_ne hu]
    | findSymbol =>
      dsimp only
      have hlib : W.libraries (nameOf W w) ≠ none := hpc
      cases ha : (W.libraries (libName W.platform W.major w.library)).bind (fun l => l w.symbol) with
      | some a =>
        dsimp only
        obtain ⟨f1, f2, f3, f4⟩ := success_fields W s t
        exact h.goto hw f1 f2 f3 f4 ⟨ha.symm, hlib, by simp⟩
      | none =>
        dsimp only
        refine h.goto hw rfl (fun u hu => by simp [State.setError, Function.update_of_ne hu]) rfl rfl ⟨ha.symm, hlib, fun _ => ?_⟩
        simp [State.setError]
    | askError a =>
      obtain ⟨h1, h2, h3⟩ := hpc
      dsimp only
      cases hp : s.pending t with
      | some e =>
        dsimp only
        have : (s.clearError t).pending t = none := by simp [State.clearError]
        unfold State.throwError
        rw [this]
        refine h.finish hw rfl (fun u hu => by simp [State.clearError, Function.update_of_ne hu]) rfl rfl h2
      | none =>
        dsimp only
        exact h.goto hw rfl (fun _ _ => rfl) rfl rfl ⟨h1, fun ha => h3 ha hp⟩
    | store a =>
      obtain ⟨h1, h2⟩ := hpc
      dsimp only
      obtain ⟨b, rfl⟩ := Option.ne_none_iff_exists'.1 h2
      refine ⟨fun v hv c e => ?_, fun u v q e => ?_, fun u v o e => h.log u v o e⟩
      · by_cases hvw : v.called = w.called
        · have := wrappers_distinct v hv w hw hvw
          subst this
          have e' : some b = some c := by simpa [State.goto, hst] using e
          rw [← e']; exact h1.symm
        · have e' : s.table v.called = some c := by
            simpa [State.goto, hst, Function.update_of_ne hvw] using e
          exact h.table v hv c e'
      · by_cases hu : u = t
        · subst hu
          have e' : (w, Pc.call) = (v, q) := by simpa [State.goto] using e
          obtain ⟨rfl, rfl⟩ := Prod.mk.inj e'
          refine ⟨hw, ?_⟩
          show Function.update s.table w.stored (some b) w.called ≠ none
          rw [hst]; simp
        · have e' : s.running u = some (v, q) := by simpa [State.goto, Function.update_of_ne hu] using e
          obtain ⟨g1, g2⟩ := h.running u v q e'
          refine ⟨g1, ?_⟩
          cases q with
          | check => trivial
          | openLibrary => trivial
          | findSymbol => exact g2
          | askError a => exact g2
          | store a => exact g2
          | call =>
            show Function.update s.table w.stored (some b) v.called ≠ none
            by_cases hvw : v.called = w.stored
            · rw [hvw]; simp
            · rw [Function.update_of_ne hvw]; exact g2
    | call =>
      dsimp only
      obtain ⟨b, hb⟩ := Option.ne_none_iff_exists'.1 hpc
      exact h.finish hw rfl (fun _ _ => rfl) rfl rfl ⟨by rw [hb]; exact (h.table w hw b hb).symm, by rw [hb]; simp⟩

theorem Inv.run {W : World} {s : State} (h : Inv W s) {events : List Event} (hl : Legal events) :
    Inv W (events.foldl (apply W) s) := by
  induction events generalizing s with
  | nil => exact h
  | cons e es ih =>
    refine ih ?_ (fun t w hm => hl t w (by simp [hm]))
    cases e with
    | call t w =>
      show Inv W (if s.running t = none then s.goto t w .check else s)
      split
      · exact h.goto (hl t w (by simp)) rfl (fun _ _ => rfl) rfl rfl trivial
      · exact h
    | step t => exact h.step t

theorem outcome_ok {W : World} {events : List Event} (hl : Legal events) {t : Nat} {w : Wrapper} {o : Outcome}
    (h : (t, w, o) ∈ (run W events).log) : w ∈ wrappers ∧ OutcomeOk W w o := ((Inv.initial W).run hl).log t w o h

/-- **C73** (the right function).  Whatever the threads do and however they interleave, a call of a wrapper that gets to
a function gets to the one of that name in the library it belongs to. -/
theorem calls_own_function {W : World} {events : List Event} (hl : Legal events) {t : Nat} {w : Wrapper} {o : Option Nat}
    (h : (t, w, Outcome.called o) ∈ (run W events).log) :
    ∃ l a, W.libraries (nameOf W w) = some l ∧ l (cudaSymbol w.library w.api) = some a ∧ o = some a := by
  obtain ⟨hw, ho, hne⟩ := outcome_ok hl h
  obtain ⟨a, rfl⟩ := Option.ne_none_iff_exists'.1 hne
  have ho' : some a = addressOf W w := ho
  unfold addressOf at ho'
  obtain ⟨l, h1, h2⟩ := Option.bind_eq_some_iff.1 ho'.symm
  exact ⟨l, a, h1, by rw [← wrappers_symbols w hw]; exact h2, rfl⟩

/-- **C73** (a missing library is reported).  If the library of a function is not found, each of its calls throws an
exception with the message of the linker, which names the library. -/
theorem missing_library_reported {W : World} {events : List Event} (hl : Legal events) {t : Nat} {w : Wrapper} {o : Outcome}
    (h : (t, w, o) ∈ (run W events).log) (hmiss : W.libraries (nameOf W w) = none) : o = .thrown (openMessage (nameOf W w)) := by
  obtain ⟨hw, ho⟩ := outcome_ok hl h
  cases o with
  | called o =>
    obtain ⟨h1, h2⟩ := ho
    rw [h1, addressOf, hmiss] at h2
    simp at h2
  | thrown m => rw [ho.2]
  | undefined => exact absurd hmiss ho

/-- **C73** (refuted: a missing symbol is reported).  If the library has no such symbol, each call ends in undefined
behaviour: the message is fetched twice, and the second time it is the null pointer. -/
theorem missing_symbol_undefined {W : World} {events : List Event} (hl : Legal events) {t : Nat} {w : Wrapper} {o : Outcome}
    (h : (t, w, o) ∈ (run W events).log) {l : String → Option Nat} (hlib : W.libraries (nameOf W w) = some l)
    (hmiss : l w.symbol = none) : o = .undefined := by
  obtain ⟨hw, ho⟩ := outcome_ok hl h
  cases o with
  | called o =>
    obtain ⟨h1, h2⟩ := ho
    rw [h1, addressOf, hlib] at h2
    simp [hmiss] at h2
  | thrown m => rw [ho.1] at hlib; simp at hlib
  | undefined => rfl

/-- no thread has a pending error, if everything is there -/
theorem no_pending {W : World} (hc : Complete W) {s : State} (h : Inv W s) (hp : ∀ t, s.pending t = none)
    (hlog : ∀ t w, (t, w, Outcome.undefined) ∉ s.log) (t : Nat) :
    (∀ u, (stepThread W t s).pending u = none) ∧ ∀ u w, (u, w, Outcome.undefined) ∉ (stepThread W t s).log := by
  have hsucc : ∀ u, (s.success W t).pending u = none := by
    intro u
    unfold State.success
    split
    · exact hp u
    · unfold State.clearError
      by_cases hu : u = t
      · subst hu; simp
      · show Function.update s.pending t none u = none
        rw [Function.update_of_ne hu]; exact hp u
  have hsl : (s.success W t).log = s.log := (success_fields W s t).2.2.2
  unfold stepThread
  cases hr : s.running t with
  | none => exact ⟨hp, hlog⟩
  | some p =>
    obtain ⟨w, pc⟩ := p
    obtain ⟨hw, hpc⟩ := h.running t w pc hr
    obtain ⟨l, a, hl, ha⟩ := hc w hw
    cases pc with
    | check =>
      dsimp only
      split <;> exact ⟨hp, hlog⟩
    | openLibrary =>
      dsimp only
      rw [hl]
      exact ⟨hsucc, fun u v => by show _ ∉ (s.success W t).log; rw [hsl]; exact hlog u v⟩
    | findSymbol =>
      dsimp only
      rw [hl, Option.bind_some, ha]
      exact ⟨hsucc, fun u v => by show _ ∉ (s.success W t).log; rw [hsl]; exact hlog u v⟩
    | askError a =>
      dsimp only
      rw [hp t]
      exact ⟨hp, hlog⟩
    | store a => exact ⟨hp, hlog⟩
    | call =>
      refine ⟨hp, fun u v => ?_⟩
      show (u, v, Outcome.undefined) ∉ (t, w, Outcome.called (s.table w.called)) :: s.log
      simp [hlog u v]

theorem complete_run {W : World} (hc : Complete W) {events : List Event} (hl : Legal events) {s : State} (h : Inv W s)
    (hp : ∀ t, s.pending t = none) (hlog : ∀ t w, (t, w, Outcome.undefined) ∉ s.log) :
    ∀ t w, (t, w, Outcome.undefined) ∉ (events.foldl (apply W) s).log := by
  induction events generalizing s with
  | nil => exact hlog
  | cons e es ih =>
    have hl' : Legal es := fun t w hm => hl t w (by simp [hm])
    cases e with
    | call t w =>
      show ∀ t' w', _ ∉ (es.foldl (apply W) (if s.running t = none then s.goto t w .check else s)).log
      split
      · exact ih hl' (h.goto (hl t w (by simp)) rfl (fun _ _ => rfl) rfl rfl trivial) hp hlog
      · exact ih hl' h hp hlog
    | step t =>
      obtain ⟨h1, h2⟩ := no_pending hc h hp hlog t
      exact ih hl' (h.step t) h1 h2

/-- **C73** (with CUDA there is no failure).  If all libraries and symbols are there, no call fails, in any interleaving. -/
theorem complete_calls_succeed {W : World} (hc : Complete W) {events : List Event} (hl : Legal events) {t : Nat} {w : Wrapper}
    {o : Outcome} (h : (t, w, o) ∈ (run W events).log) : ∃ a, o = .called (some a) := by
  obtain ⟨hw, ho⟩ := outcome_ok hl h
  cases o with
  | called o =>
    obtain ⟨a, rfl⟩ := Option.ne_none_iff_exists'.1 ho.2
    exact ⟨a, rfl⟩
  | thrown m =>
    obtain ⟨l, a, h1, -⟩ := hc w hw
    have := ho.1
    rw [show W.libraries (nameOf W w) = _ from h1] at this
    simp at this
  | undefined => exact absurd h (complete_run hc hl (Inv.initial W) (fun _ => rfl) (fun _ _ hm => by simp [State.initial] at hm) t w)

/-- Steps a thread has left within a wrapper. -/
def stepsLeft : Pc → Nat
  | .check => 6
  | .openLibrary => 5
  | .findSymbol => 4
  | .askError _ => 3
  | .store _ => 2
  | .call => 1

theorem stepThread_other (W : World) {t u : Nat} (h : u ≠ t) (s : State) : (stepThread W u s).running t = s.running t := by
  have hne : t ≠ u := fun e => h e.symm
  have hs : (s.success W u).running = s.running := (success_fields W s u).2.2.1
  unfold stepThread
  cases hr : s.running u with
  | none => rfl
  | some p =>
    obtain ⟨w, pc⟩ := p
    cases pc with
    | check => dsimp only; split <;> simp [State.goto, Function.update_of_ne hne]
    | openLibrary =>
      dsimp only
      split
      · simp [State.goto, Function.update_of_ne hne, hs]
      · unfold State.throwError
        split <;> simp [State.finish, State.clearError, State.setError, Function.update_of_ne hne]
    | findSymbol =>
      dsimp only
      split
      · simp [State.goto, Function.update_of_ne hne, hs]
      · simp [State.goto, State.setError, Function.update_of_ne hne]
    | askError a =>
      dsimp only
      split
      · unfold State.throwError
        split <;> simp [State.finish, State.clearError, Function.update_of_ne hne]
      · simp [State.goto, Function.update_of_ne hne]
    | store a => simp [State.goto, Function.update_of_ne hne]
    | call => simp [State.finish, Function.update_of_ne hne]

theorem throwError_log (s : State) (t : Nat) (w : Wrapper) : ∃ o, (s.throwError t w).log = (t, w, o) :: s.log := by
  unfold State.throwError
  split
  · exact ⟨_, rfl⟩
  · exact ⟨_, rfl⟩

theorem stepThread_own (W : World) {t : Nat} {s : State} {w : Wrapper} {pc : Pc} (hr : s.running t = some (w, pc)) :
    (∃ o, (t, w, o) ∈ (stepThread W t s).log) ∨
      ∃ pc', (stepThread W t s).running t = some (w, pc') ∧ stepsLeft pc' + 1 ≤ stepsLeft pc := by
  unfold stepThread
  rw [hr]
  cases pc with
  | check =>
    dsimp only
    split
    · exact Or.inr ⟨_, by simp [State.goto]; rfl, by simp [stepsLeft]⟩
    · exact Or.inr ⟨_, by simp [State.goto]; rfl, by simp [stepsLeft]⟩
  | openLibrary =>
    dsimp only
    split
    · exact Or.inr ⟨_, by simp [State.goto]; rfl, by simp [stepsLeft]⟩
    · left
      obtain ⟨o, ho⟩ := throwError_log (s.setError t (openMessage (libName W.platform W.major w.library))) t w
      exact ⟨o, by rw [ho]; simp⟩
  | findSymbol =>
    dsimp only
    split
    · exact Or.inr ⟨_, by simp [State.goto]; rfl, by simp [stepsLeft]⟩
    · exact Or.inr ⟨_, by simp [State.goto]; rfl, by simp [stepsLeft]⟩
  | askError a =>
    dsimp only
    split
    · left
      obtain ⟨o, ho⟩ := throwError_log (s.clearError t) t w
      exact ⟨o, by rw [ho]; simp⟩
    · exact Or.inr ⟨_, by simp [State.goto]; rfl, by simp [stepsLeft]⟩
  | store a => exact Or.inr ⟨_, by simp [State.goto]; rfl, by simp [stepsLeft]⟩
  | call => exact Or.inl ⟨.called (s.table w.called), by simp [State.finish]⟩

theorem log_grows (W : World) (s : State) (e : Event) : ∀ x ∈ s.log, x ∈ (apply W s e).log := by
  intro x hx
  cases e with
  | call t w =>
    show x ∈ (if s.running t = none then s.goto t w .check else s).log
    split <;> exact hx
  | step t =>
    show x ∈ (stepThread W t s).log
    have hs : (s.success W t).log = s.log := (success_fields W s t).2.2.2
    unfold stepThread
    cases hr : s.running t with
    | none => exact hx
    | some p =>
      obtain ⟨w, pc⟩ := p
      cases pc with
      | check => dsimp only; split <;> exact hx
      | openLibrary =>
        dsimp only
        split
        · show x ∈ (s.success W t).log; rw [hs]; exact hx
        · obtain ⟨o, ho⟩ := throwError_log (s.setError t (openMessage (libName W.platform W.major w.library))) t w
          rw [ho]; exact List.mem_cons_of_mem _ hx
      | findSymbol =>
        dsimp only
        split
        · show x ∈ (s.success W t).log; rw [hs]; exact hx
        · exact hx
      | askError a =>
        dsimp only
        split
        · obtain ⟨o, ho⟩ := throwError_log (s.clearError t) t w
          rw [ho]; exact List.mem_cons_of_mem _ hx
        · exact hx
      | store a => exact hx
      | call => exact List.mem_cons_of_mem _ hx

theorem log_grows_run (W : World) (events : List Event) (s : State) : ∀ x ∈ s.log, x ∈ (events.foldl (apply W) s).log := by
  induction events generalizing s with
  | nil => exact fun x h => h
  | cons e es ih => exact fun x h => ih _ x (log_grows W s e x h)

/-- Number of steps of a thread. -/
def stepsOf (t : Nat) (events : List Event) : Nat := events.countP (fun e => match e with | .step u => u = t | _ => false)

theorem finishes (W : World) (t : Nat) (w : Wrapper) (events : List Event) : ∀ (s : State) (pc : Pc), s.running t = some (w, pc) →
    stepsLeft pc ≤ stepsOf t events → ∃ o, (t, w, o) ∈ (events.foldl (apply W) s).log := by
  induction events with
  | nil =>
    intro s pc _ h
    cases pc <;> simp [stepsLeft, stepsOf] at h
  | cons e es ih =>
    intro s pc hr h
    cases e with
    | call u v =>
      have hc : stepsOf t (Event.call u v :: es) = stepsOf t es := by simp [stepsOf]
      rw [hc] at h
      refine ih _ pc ?_ h
      show (if s.running u = none then s.goto u v .check else s).running t = some (w, pc)
      split
      · rename_i hu
        have hne : t ≠ u := by rintro rfl; rw [hr] at hu; simp at hu
        simp [State.goto, Function.update_of_ne hne, hr]
      · exact hr
    | step u =>
      by_cases hu : u = t
      · subst hu
        have hc : stepsOf u (Event.step u :: es) = stepsOf u es + 1 := by simp [stepsOf]
        rw [hc] at h
        rcases stepThread_own W hr with ⟨o, ho⟩ | ⟨pc', h1, h2⟩
        · exact ⟨o, log_grows_run W es _ _ ho⟩
        · exact ih _ pc' h1 (by omega)
      · have hc : stepsOf t (Event.step u :: es) = stepsOf t es := by simp [stepsOf, hu]
        rw [hc] at h
        refine ih _ pc ?_ h
        show (stepThread W u s).running t = some (w, pc)
        rw [stepThread_other W hu, hr]

/-- **C73** (calls return).  A call ends within six steps of its thread, whatever the other threads do. -/
theorem call_returns (W : World) (before after : List Event) (t : Nat) (w : Wrapper) (hidle : (run W before).running t = none)
    (h : 6 ≤ stepsOf t after) : ∃ o, (t, w, o) ∈ (run W (before ++ Event.call t w :: after)).log := by
  unfold run at *
  rw [List.foldl_append, List.foldl_cons]
  refine finishes W t w after _ .check ?_ h
  show (if _ then _ else _ : State).running t = _
  rw [if_pos hidle]
  simp [State.goto]

/-- **C73** (refuted).  An error some other code of the same thread left behind makes a call undefined although everything
is there, with a linker that keeps errors, which POSIX allows. -/
theorem stale_error_undefined {W : World} (hc : Complete W) (hk : W.keepsErrors = true) {s : State} {t : Nat} {w : Wrapper}
    (hw : w ∈ wrappers) (hidle : s.running t = none) (hnull : s.table w.called = none) {e : String} (hp : s.pending t = some e) :
    (t, w, Outcome.undefined) ∈
      ([Event.call t w, .step t, .step t, .step t, .step t].foldl (apply W) s).log := by
  obtain ⟨l, a, hl, ha⟩ := hc w hw
  have hch := (wrappers_cells w hw).2
  simp only [List.foldl_cons, List.foldl_nil, apply, hidle, if_true]
  have e1 : stepThread W t (s.goto t w .check) = (s.goto t w .check).goto t w .openLibrary := by
    have : (s.goto t w .check).running t = some (w, .check) := by simp [State.goto]
    unfold stepThread
    rw [this]
    dsimp only
    rw [if_pos (by rw [hch]; exact hnull)]
  rw [e1]
  set s1 := (s.goto t w .check).goto t w .openLibrary with hs1
  have e2 : stepThread W t s1 = ({ s1 with opens := s1.opens + 1 }).goto t w .findSymbol := by
    have : s1.running t = some (w, .openLibrary) := by simp [hs1, State.goto]
    unfold stepThread
    rw [this]
    dsimp only
    rw [hl]
    dsimp only
    unfold State.success
    rw [if_pos hk]
  rw [e2]
  set s2 := ({ s1 with opens := s1.opens + 1 }).goto t w .findSymbol with hs2
  have e3 : stepThread W t s2 = s2.goto t w (.askError (some a)) := by
    have : s2.running t = some (w, .findSymbol) := by simp [hs2, State.goto]
    unfold stepThread
    rw [this]
    dsimp only
    rw [hl, Option.bind_some, ha]
    dsimp only
    unfold State.success
    rw [if_pos hk]
  rw [e3]
  set s3 := s2.goto t w (.askError (some a)) with hs3
  have h3 : s3.running t = some (w, .askError (some a)) := by simp [hs3, State.goto]
  have h4 : s3.pending t = some e := hp
  have h5 : (s3.clearError t).pending t = none := by simp [State.clearError]
  unfold stepThread
  rw [h3]
  dsimp only
  rw [h4]
  dsimp only
  unfold State.throwError
  rw [h5]
  simp [State.finish]

/-- **C73** (refuted: "OS-independent").  On Windows no library of CUDA has the name that is looked for, whatever the
version, so every call throws. -/
theorem windows_never_loads {W : World} (_ : W.platform = .windows)
    (hinst : ∀ name, W.libraries name ≠ none → ∃ l, name = windowsName W.major l) {events : List Event} (hl : Legal events)
    {t : Nat} {w : Wrapper} {o : Outcome} (h : (t, w, o) ∈ (run W events).log) : ∃ m, o = .thrown m := by
  refine ⟨_, missing_library_reported hl h ?_⟩
  by_contra hne
  obtain ⟨l, hname⟩ := hinst _ hne
  have hn := congrArg String.toList hname
  have hc : (windowsName W.major l).toList.head? = some 'c' := by cases l <;> simp [windowsName]
  have hl' : (nameOf W w).toList.head? = some 'l' := by
    unfold nameOf
    cases w.library <;> simp [libName]
  rw [← hn, hl'] at hc
  simp at hc

/-- **C73** (refuted: the same version of CUDA is needed).  The version of the runtime library is not looked at: a package
compiled for one version does the same as one compiled for another. -/
theorem runtime_version_ignored (W : World) (k : Nat) (events : List Event) :
    run { W with major := Function.update W.major .cudart k } events = run W events := by
  have hname : ∀ l, libName W.platform (Function.update W.major .cudart k) l = libName W.platform W.major l := by
    intro l
    cases l with
    | cudart => rfl
    | cublas => simp [libName]
    | cusparse => simp [libName]
  have hstep : ∀ t s, stepThread { W with major := Function.update W.major .cudart k } t s = stepThread W t s := by
    intro t s
    unfold stepThread
    simp only [hname]
    rfl
  unfold run
  generalize State.initial = s
  induction events generalizing s with
  | nil => rfl
  | cons e es ih =>
    rw [List.foldl_cons, List.foldl_cons]
    have : apply { W with major := Function.update W.major .cudart k } s e = apply W s e := by
      cases e with
      | call t w => rfl
      | step t => exact hstep t s
    rw [this, ih]

/-! Non-vacuity -/

/-- **C73**: with the toolkit on Linux, everything that the package looks for is there, so that no call fails
(`complete_calls_succeed`). -/
theorem linux_toolkit_complete {W : World} (h : LinuxToolkit W) : Complete W := by
  intro w hw
  obtain ⟨lib, h1, h2⟩ := h.2 w.library
  obtain ⟨a, ha⟩ := h2 w hw rfl
  refine ⟨lib, a, ?_, ?_⟩
  · rw [← h1, h.1]
    congr 1
  · rw [wrappers_symbols w hw]
    exact ha

/-- Linux with CUDA 11: every library has every symbol; the address is the length of the name. -/
def linux11 : World := ⟨.linux, fun _ => 11, fun _ => some (fun s => some s.length), false⟩

example : LinuxToolkit linux11 := ⟨rfl, fun _ => ⟨_, rfl, fun _ _ _ => ⟨_, rfl⟩⟩⟩

/-- C73: the names under which the libraries are looked for.  On Linux they are the names of the shared objects; the name of
the runtime carries no version. -/
theorem library_names (major : Library → Nat) :
    (libName .linux major .cudart = "libcudart.so" ∧
      libName .linux major .cublas = "libcublas.so." ++ toString (major .cublas) ∧
      libName .linux major .cusparse = "libcusparse.so." ++ toString (major .cusparse)) ∧
    (libName .apple major .cudart = "libcudart.dylib" ∧
      libName .apple major .cublas = "libcublas.dylib." ++ toString (major .cublas) ∧
      libName .apple major .cusparse = "libcusparse.dylib." ++ toString (major .cusparse)) ∧
    libName .windows major .cudart = "libcudart.lib" ∧
      libName .windows major .cublas = "libcublas.lib." ++ toString (major .cublas) ∧
      libName .windows major .cusparse = "libcusparse.lib." ++ toString (major .cusparse) :=
  ⟨⟨rfl, rfl, rfl⟩, ⟨rfl, rfl, rfl⟩, rfl, rfl, rfl⟩

example : Complete linux11 := fun _ _ => ⟨_, _, rfl, rfl⟩

/-- two threads race for the first call of `cudaMalloc` and of `cudaFree` -/
def raceEvents (w v : Wrapper) : List Event :=
  [.call 0 w, .call 1 w, .step 0, .step 1, .step 1, .step 0, .step 1, .step 0, .step 0, .step 1, .step 0, .step 0, .step 1,
    .call 0 v, .step 1, .step 0, .step 0, .step 0, .step 0, .step 0, .step 0]

example : ∃ w ∈ wrappers, ∃ v ∈ wrappers, w.api = "cudaMalloc" ∧ v.api = "cudaFree" ∧
    (run linux11 (raceEvents w v)).log = [(0, v, .called (some 8)), (1, w, .called (some 10)), (0, w, .called (some 10))] := by
  refine ⟨⟨.cudart, "cudaMalloc", "cudaMalloc", "cudaMalloc", "cudaMalloc", "cudaMalloc"⟩, by decide +kernel,
    ⟨.cudart, "cudaFree", "cudaFree", "cudaFree", "cudaFree", "cudaFree"⟩, by decide +kernel, rfl, rfl, ?_⟩
  decide +kernel

/-- no cuSPARSE, and a cuBLAS without `cublasSdot_v2` -/
def broken : World := ⟨.linux, fun _ => 11,
  fun n => if n = "libcusparse.so.11" then none else some (fun s => if s = "cublasSdot_v2" then none else some s.length), false⟩

def sdot : Wrapper := ⟨.cublas, "cublasSdot", "cublasSdot_v2", "cublasSdot", "cublasSdot", "cublasSdot"⟩
def spmv : Wrapper := ⟨.cusparse, "cusparseSpMV", "cusparseSpMV", "cusparseSpMV", "cusparseSpMV", "cusparseSpMV"⟩

example : sdot ∈ wrappers ∧ spmv ∈ wrappers ∧
    (run broken [.call 0 sdot, .step 0, .step 0, .step 0, .step 0, .call 0 spmv, .step 0, .step 0]).log =
      [(0, spmv, .thrown "libcusparse.so.11: cannot open shared object file"), (0, sdot, .undefined)] := by
  refine ⟨by decide +kernel, by decide +kernel, ?_⟩
  decide +kernel

example : ∃ s : State, s.running 0 = none ∧ s.table sdot.called = none ∧ s.pending 0 = some "some other library" :=
  ⟨⟨fun _ => none, fun _ => some "some other library", fun _ => none, [], 0⟩, rfl, rfl, rfl⟩

end Imate.Props
