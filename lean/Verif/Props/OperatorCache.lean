import Verif.Model.OperatorCache
import Verif.Spec.OperatorCache
import Mathlib.Tactic.SplitIfs
import Mathlib.Data.Nat.Notation
import Mathlib.Tactic.Common

/-!
# C06: operator reuse across CPU and GPU requests
-/

namespace Imate.Props

open Imate.Cache Imate.Spec

variable {M : Type}

/-- what holds of the cached objects after every history -/
structure CacheInv (A : M) (o : Obj M) : Prop where
  matrix : o.A = A
  cpu : ∀ h, o.cpuAop = .set h → h = ⟨A, false, 0⟩
  cpuFlag : o.initializedOnCpu = true → o.cpuAop = .set ⟨A, false, 0⟩
  gpu : ∀ h, o.gpuAop = .set h → h.matrix = A ∧ h.onGpu = true ∧ 1 ≤ h.devices
  gpuFlag : o.initializedOnGpu = false → o.gpuAop = .none

theorem CacheInv.new (A : M) : CacheInv A (Obj.new A) :=
  ⟨rfl, (by intro h hh; cases hh), (by intro h; cases h), (by intro h hh; cases hh), fun _ => rfl⟩

theorem newGpu_ok {e : Env} {A : M} {k : ℕ} {h : Handle M} (hk : newGpu e A k = .ok h) :
    h = ⟨A, true, meantDevices e.available k⟩ ∧ 1 ≤ h.devices := by
  unfold newGpu at hk
  cases hf : e.failure with
  | some x => rw [hf] at hk; dsimp only at hk; split_ifs at hk
  | none =>
    rw [hf] at hk
    dsimp only at hk
    split_ifs at hk with h0 h1 h2
    · cases hk; simp only [meantDevices, h1, if_true]; exact ⟨trivial, by omega⟩
    · cases hk; simp only [meantDevices, h1, if_false]; exact ⟨trivial, by omega⟩

theorem assignGpu_inv {A : M} {o : Obj M} (hA : o.A = A)
    (hcpu : ∀ h, o.cpuAop = .set h → h = ⟨A, false, 0⟩)
    (hflag : o.initializedOnCpu = true → o.cpuAop = .set ⟨A, false, 0⟩)
    (hgpu : ∀ h, o.gpuAop ≠ .set h) (hg : o.initializedOnGpu = false → o.gpuAop = .none)
    (e : Env) (k : ℕ) : CacheInv A (assignGpu e k o).2 := by
  unfold assignGpu
  cases hn : newGpu e o.A k with
  | error x => exact ⟨hA, hcpu, hflag, fun h hh => absurd hh (hgpu h), hg⟩
  | ok h =>
    obtain ⟨h1, h2⟩ := newGpu_ok hn
    refine ⟨hA, hcpu, hflag, ?_, fun h' => by cases h'⟩
    intro h' hh
    simp only [Attr.set.injEq] at hh
    subst hh; subst h1
    exact ⟨hA, rfl, h2⟩

theorem initializeBranch_inv {A : M} {o : Obj M} (hi : CacheInv A o) (e : Env) (gpu : Bool) (k : ℕ) :
    CacheInv A (initializeBranch e gpu k o).2 := by
  unfold initializeBranch
  split_ifs with h1 h2 h3 h4
  · have hn : o.gpuAop = .none := hi.gpuFlag (by simpa using h2)
    exact assignGpu_inv hi.matrix hi.cpu hi.cpuFlag (by simp [hn]) hi.gpuFlag e k
  · unfold changeGpu
    cases hd : allDevices e o with
    | error x => exact hi
    | ok all =>
      dsimp only
      split_ifs with h5
      · exact assignGpu_inv (o := { o with gpuAop := .missing }) hi.matrix hi.cpu hi.cpuFlag (by simp)
          (fun h => by simp_all) e k
      · exact hi
  · exact hi
  · unfold newCpu
    cases hf : e.failure with
    | some x => exact hi
    | none =>
      refine ⟨hi.matrix, ?_, ?_, hi.gpu, hi.gpuFlag⟩
      · intro h hh; simp only [Attr.set.injEq] at hh; rw [← hh, hi.matrix]
      · intro _; simp only [hi.matrix]
  · exact hi

theorem initializeOn_inv {A : M} {o : Obj M} (hi : CacheInv A o) (e : Env) (gpu : Bool) (k : ℕ) :
    CacheInv A (initializeOn e gpu k o).2 := by
  have := initializeBranch_inv hi e gpu k
  unfold initializeOn
  rcases hb : initializeBranch e gpu k o with ⟨x, o'⟩
  rw [hb] at this
  cases x with
  | some x => exact this
  | none => exact ⟨this.matrix, this.cpu, this.cpuFlag, this.gpu, this.gpuFlag⟩

theorem select_snd {a : Attr (Handle M)} {b : Bool} {A : M} {o : Obj M} (hi : CacheInv A o) :
    CacheInv A (select a b o).2 := by
  unfold select
  cases a with
  | missing => exact hi
  | none => exact hi
  | set h =>
    dsimp only
    split_ifs
    · exact ⟨hi.matrix, hi.cpu, hi.cpuFlag, hi.gpu, hi.gpuFlag⟩
    · exact hi

theorem getLinearOperator_inv {A : M} {o : Obj M} (hi : CacheInv A o) (e : Env) (gpu : Bool) (k : ℕ) :
    CacheInv A (getLinearOperator e gpu k o).2 := by
  have := initializeOn_inv hi e gpu k
  unfold getLinearOperator
  rcases hb : initializeOn e gpu k o with ⟨x, o'⟩
  rw [hb] at this
  cases x with
  | some x => exact this
  | none =>
    dsimp only
    split_ifs <;> exact select_snd this

theorem history_inv {A : M} (rs : List Request) : ∀ {o : Obj M}, CacheInv A o →
    CacheInv A (history rs o) := by
  induction rs with
  | nil => exact fun h => h
  | cons r rs ih => exact fun h => ih (getLinearOperator_inv h _ _ _)

theorem select_ok {a : Attr (Handle M)} {b : Bool} {o : Obj M} {h : Handle M}
    (hs : (select a b o).1 = .ok h) : a = .set h ∧ b = true := by
  unfold select at hs
  cases a with
  | missing => cases hs
  | none => cases hs
  | set h' =>
    dsimp only at hs
    split_ifs at hs with hb
    cases hs
    exact ⟨rfl, hb⟩

theorem getLinearOperator_ok {e : Env} {gpu : Bool} {k : ℕ} {o : Obj M} {h : Handle M}
    (hs : (getLinearOperator e gpu k o).1 = .ok h) :
    (initializeOn e gpu k o).1 = none ∧
    (if gpu then (initializeOn e gpu k o).2.gpuAop else (initializeOn e gpu k o).2.cpuAop) = .set h := by
  unfold getLinearOperator at hs
  rcases hb : initializeOn e gpu k o with ⟨x, o'⟩
  rw [hb] at hs
  cases x with
  | some x => cases hs
  | none =>
    refine ⟨rfl, ?_⟩
    dsimp only at hs ⊢
    split_ifs at hs ⊢ with hg
    · exact (select_ok hs).1
    · exact (select_ok hs).1

/-- C06 (CPU requests).  After every history of requests on an object made from the matrix `A`,
including requests that raised, a request for the CPU operator returns an operator of that same matrix
on the CPU if it returns at all, and it does return unless the construction itself raises. -/
theorem cpu_request_correct (A : M) (rs : List Request) (e : Env) (k : ℕ) :
    (∀ h, (getLinearOperator e false k (history rs (Obj.new A))).1 = .ok h →
      h = ⟨A, false, 0⟩) ∧
    (e.failure = none →
      (getLinearOperator e false k (history rs (Obj.new A))).1 = .ok ⟨A, false, 0⟩) := by
  have hi := history_inv rs (CacheInv.new A)
  generalize history rs (Obj.new A) = o at hi
  refine ⟨?_, ?_⟩
  · intro h hs
    exact (initializeOn_inv hi e false k).cpu h (by simpa using (getLinearOperator_ok hs).2)
  · intro hf
    unfold getLinearOperator initializeOn initializeBranch newCpu
    rw [hf]
    by_cases hc : o.initializedOnCpu = true
    · simp [hc, select, hi.cpuFlag hc]
    · simp [hc, select, hi.matrix]

/-- After a history with failures of every kind the CPU operator is still served. -/
example : (getLinearOperator ⟨0, none⟩ false 0
    (history [⟨true, 3, ⟨0, none⟩⟩, ⟨true, 1, ⟨2, some .importError⟩⟩, ⟨false, 0, ⟨2, some .typeError⟩⟩]
      (Obj.new "A"))).1 = .ok ⟨"A", false, 0⟩ :=
  (cpu_request_correct "A" _ _ _).2 rfl

/-- C06 (side and matrix of GPU requests).  After every history, a request for the GPU operator that
returns, returns an operator of the object's own matrix on at least one GPU device. -/
theorem gpu_request_side (A : M) (rs : List Request) (e : Env) (k : ℕ) (h : Handle M)
    (hs : (getLinearOperator e true k (history rs (Obj.new A))).1 = .ok h) :
    h.matrix = A ∧ h.onGpu = true ∧ 1 ≤ h.devices := by
  have hi := history_inv rs (CacheInv.new A)
  generalize history rs (Obj.new A) = o at hi hs
  exact (initializeOn_inv hi e true k).gpu h (by simpa using (getLinearOperator_ok hs).2)

example : (getLinearOperator ⟨4, none⟩ true 2 (history [⟨false, 0, ⟨4, none⟩⟩] (Obj.new "A"))).1 =
    .ok ⟨"A", true, 2⟩ := by decide +kernel

/-- what additionally holds of the device count while only GPU requests are made -/
def DevicesInv (N : ℕ) (o : Obj M) : Prop :=
  ∀ h, o.gpuAop = .set h → h.devices = meantDevices N o.numGpuDevices

theorem initializeOn_devices {N : ℕ} {A : M} {o : Obj M} (hi : CacheInv A o) (hd : DevicesInv N o)
    (e : Env) (he : e.available = N) (k : ℕ) : DevicesInv N (initializeOn e true k o).2 := by
  unfold initializeOn
  rcases hb : initializeBranch e true k o with ⟨x, o'⟩
  have key : ∀ (o : Obj M), (∀ h, o.gpuAop ≠ .set h) → ∀ x o', assignGpu e k o = (x, o') →
      (x = none → ∀ h, o'.gpuAop = .set h → h.devices = meantDevices N k) ∧
      (x ≠ none → ∀ h, o'.gpuAop ≠ .set h) := by
    intro o hno x o' ha
    unfold assignGpu at ha
    cases hn : newGpu e o.A k with
    | error y =>
      rw [hn] at ha
      cases ha
      exact ⟨fun h => (by cases h), fun _ => hno⟩
    | ok h =>
      rw [hn] at ha
      cases ha
      refine ⟨fun _ h' hh => ?_, fun h => absurd rfl h⟩
      simp only [Attr.set.injEq] at hh
      subst hh
      rw [(newGpu_ok hn).1, he]
  unfold initializeBranch at hb
  simp only [if_true] at hb
  split_ifs at hb with h1 h2
  · have hn : o.gpuAop = .none := hi.gpuFlag (by simpa using h1)
    obtain ⟨k1, k2⟩ := key o (by simp [hn]) x o' hb
    cases x with
    | none => exact fun h hh => k1 rfl h hh
    | some x => exact fun h hh => absurd hh (k2 (by simp) h)
  · unfold changeGpu at hb
    cases ha : allDevices e o with
    | error y => rw [ha] at hb; cases hb; exact hd
    | ok all =>
      rw [ha] at hb
      dsimp only at hb
      split_ifs at hb with h3
      · obtain ⟨k1, k2⟩ := key _ (by simp) x o' hb
        cases x with
        | none => exact fun h hh => k1 rfl h hh
        | some x => exact fun h hh => absurd hh (k2 (by simp) h)
      · cases hb
        have hall : all = N := by
          unfold allDevices at ha
          split at ha
          · cases ha; exact he
          · cases ha
        intro h hh
        rw [hd h hh]
        show meantDevices N o.numGpuDevices = meantDevices N k
        subst hall
        unfold reallocate at h3
        unfold meantDevices
        split_ifs at h3 with h4 h5
        · split_ifs <;> omega
        · split_ifs <;> omega
        · exact absurd rfl h3
  · cases hb
    intro h hh
    rw [hd h hh]
    simp only [not_not] at h2
    simp only [h2]

theorem getLinearOperator_devices {N : ℕ} {A : M} {o : Obj M} (hi : CacheInv A o)
    (hd : DevicesInv N o) (e : Env) (he : e.available = N) (k : ℕ) :
    DevicesInv N (getLinearOperator e true k o).2 := by
  have := initializeOn_devices hi hd e he k
  unfold getLinearOperator
  rcases hb : initializeOn e true k o with ⟨x, o'⟩
  rw [hb] at this
  cases x with
  | some x => exact this
  | none =>
    dsimp only
    simp only [if_true]
    unfold select
    cases hg : o'.gpuAop with
    | missing => exact this
    | none => exact this
    | set h =>
      dsimp only
      split_ifs
      · exact fun h' hh => this h' (by rw [hg]; exact hh)
      · exact this

theorem history_devices {N : ℕ} {A : M} (gs : List Request) (hgs : ∀ r ∈ gs, IsGpuOf N r) :
    ∀ {o : Obj M}, CacheInv A o → DevicesInv N o →
      CacheInv A (history gs o) ∧ DevicesInv N (history gs o) := by
  induction gs with
  | nil => exact fun h h' => ⟨h, h'⟩
  | cons r rs ih =>
    intro o h h'
    obtain ⟨h1, h2⟩ := hgs r (by simp)
    have hd := getLinearOperator_devices h h' r.env h2 r.numGpuDevices
    rw [← h1] at hd
    exact ih (fun r hr => hgs r (by simp [hr])) (getLinearOperator_inv h _ _ _) hd

theorem cpu_history_gpuAop {A : M} (cs : List Request) (hcs : ∀ r ∈ cs, IsCpu r) :
    ∀ {o : Obj M}, CacheInv A o → o.gpuAop = .none → (history cs o).gpuAop = .none := by
  induction cs with
  | nil => exact fun _ h => h
  | cons r rs ih =>
    intro o h h'
    refine ih (fun r hr => hcs r (by simp [hr])) (getLinearOperator_inv h _ _ _) ?_
    have hr : r.gpu = false := hcs r (by simp)
    have key : ∀ e k, (initializeOn e false k o).2.gpuAop = .none := by
      intro e k
      unfold initializeOn initializeBranch newCpu
      by_cases hc : o.initializedOnCpu = true
      · simp [hc, h']
      · cases hf : e.failure <;> simp [hc, h']
    rw [hr]
    unfold getLinearOperator
    have := key r.env r.numGpuDevices
    rcases hb : initializeOn r.env false r.numGpuDevices o with ⟨x, o'⟩
    rw [hb] at this
    cases x with
    | some x => exact this
    | none =>
      simp only [Bool.false_eq_true, if_false]
      unfold select
      cases o'.cpuAop with
      | missing => exact this
      | none => exact this
      | set h =>
        dsimp only
        split_ifs
        · exact this
        · exact this

/-- C06 (number of devices), partial: on a machine with `N` devices, after any history of CPU requests
followed by any history of GPU requests with any device counts (some of which may have raised), a GPU
request that returns, returns an operator of the object's matrix on the requested number of devices.
Missing: histories in which a CPU request comes after a GPU request; for those the statement is false,
see `gpu_device_count_stale`. -/
theorem gpu_request_devices_partial (A : M) (N : ℕ) (cs gs : List Request)
    (hcs : ∀ r ∈ cs, IsCpu r) (hgs : ∀ r ∈ gs, IsGpuOf N r) (failure : Option PyExc) (k : ℕ)
    (h : Handle M)
    (hs : (getLinearOperator ⟨N, failure⟩ true k (history gs (history cs (Obj.new A)))).1 = .ok h) :
    h = ⟨A, true, meantDevices N k⟩ := by
  have hi := history_inv cs (CacheInv.new A)
  have hn := cpu_history_gpuAop cs hcs (CacheInv.new A) rfl
  obtain ⟨h1, h2⟩ := history_devices gs hgs hi (fun h hh => by rw [hn] at hh; cases hh)
  have h3 := gpu_request_side A (cs ++ gs) ⟨N, failure⟩ k h (by
    have happ : ∀ (cs : List Request) (o : Obj M), history (cs ++ gs) o = history gs (history cs o) := by
      intro cs
      induction cs with
      | nil => intro o; rfl
      | cons r cs ih => intro o; exact ih _
    rw [happ]; exact hs)
  generalize history gs (history cs (Obj.new A)) = o at h1 h2 hs
  have h4 := (getLinearOperator_ok hs)
  have h5 := initializeOn_devices h1 h2 ⟨N, failure⟩ rfl k h (by simpa using h4.2)
  have h6 : (initializeOn ⟨N, failure⟩ true k o).2.numGpuDevices = k := by
    have h7 := h4.1
    unfold initializeOn at h7 ⊢
    rcases hb : initializeBranch ⟨N, failure⟩ true k o with ⟨x, o'⟩
    rw [hb] at h7
    cases x with
    | some x => cases h7
    | none => rfl
  rw [h6] at h5
  obtain ⟨a, b, c⟩ := h
  simp only at h3 h5
  rw [h3.1, h3.2.1, h5]

/-- A history with a CPU request, GPU requests of changing size and a failing one. -/
example : (getLinearOperator ⟨4, none⟩ true 0 (history [⟨true, 2, ⟨4, none⟩⟩, ⟨true, 3, ⟨4, none⟩⟩]
    (history [⟨false, 0, ⟨4, none⟩⟩] (Obj.new "A")))).1 = .ok ⟨"A", true, meantDevices 4 0⟩ := by
  decide +kernel

/-- C06 fails for the number of devices once a CPU request has come in between: on every machine with
`N ≥ 2` devices, a GPU request for one device, a CPU request, and a GPU request for all devices (given
as `0` or as `N`) returns the operator on one device. -/
theorem gpu_device_count_stale (A : M) (N : ℕ) (hN : 2 ≤ N) (k : ℕ) (hk : k = 0 ∨ k = N) :
    (getLinearOperator ⟨N, none⟩ true k
      (history [⟨true, 1, ⟨N, none⟩⟩, ⟨false, 0, ⟨N, none⟩⟩] (Obj.new A))).1 = .ok ⟨A, true, 1⟩ ∧
    meantDevices N k ≠ 1 := by
  have h0 : N ≠ 0 := by omega
  have h1 : ¬ N < 1 := by omega
  refine ⟨?_, by unfold meantDevices; split_ifs <;> omega⟩
  rcases hk with rfl | rfl
  · simp [history, getLinearOperator, initializeOn, initializeBranch, assignGpu, newGpu, newCpu,
      select, Obj.new, h0, h1]
  · simp [history, getLinearOperator, initializeOn, initializeBranch, assignGpu, newGpu, newCpu,
      select, Obj.new, h0, h1, changeGpu, allDevices, reallocate]

/-- the state a failed reallocation leaves behind -/
def Wedged (o : Obj M) : Prop := o.gpuAop = .missing ∧ o.initializedOnGpu = true

theorem Wedged.getLinearOperator {o : Obj M} (h : Wedged o) (e : Env) (gpu : Bool) (k : ℕ) :
    Wedged (getLinearOperator e gpu k o).2 ∧
    (gpu = true → (getLinearOperator e gpu k o).1 = .error .attributeError) := by
  obtain ⟨h1, h2⟩ := h
  cases gpu with
  | true =>
    by_cases hk : k = o.numGpuDevices
    · simp [Cache.getLinearOperator, initializeOn, initializeBranch, select, Wedged, h1, h2, hk]
    · simp [Cache.getLinearOperator, initializeOn, initializeBranch, changeGpu, allDevices, Wedged,
        h1, h2, hk]
  | false =>
    refine ⟨?_, by simp⟩
    by_cases hc : o.initializedOnCpu = true
    · cases ha : o.cpuAop <;>
        simp [Cache.getLinearOperator, initializeOn, initializeBranch, select, Wedged, h1, h2, hc, ha]
    · cases hf : e.failure <;>
        simp [Cache.getLinearOperator, initializeOn, initializeBranch, select, Wedged, newCpu, h1, h2,
          hc, hf]

theorem Wedged.history (rs : List Request) : ∀ {o : Obj M}, Wedged o → Wedged (history rs o) := by
  induction rs with
  | nil => exact fun h => h
  | cons r rs ih => exact fun h => ih (h.getLinearOperator _ _ _).1

/-- C06, crash points: when the construction of the operator on a different number of devices raises
(for example out of device memory), the old operator is gone and the object is not marked as
uninitialised.  Every later GPU request, after any further history and on any machine, raises
`AttributeError`, including a request for the number of devices that worked before.  No stale operator
is returned. -/
theorem failed_reallocation_is_permanent (A : M) (N k k' : ℕ) (x : PyExc) (hk : k ≤ N) (hN : 1 ≤ N)
    (hkk : meantDevices N k ≠ meantDevices N k') (rs : List Request) (e : Env) (j : ℕ) :
    (getLinearOperator ⟨N, none⟩ true k (Obj.new A)).1 = .ok ⟨A, true, meantDevices N k⟩ ∧
    (getLinearOperator e true j
      (history rs (history [⟨true, k, ⟨N, none⟩⟩, ⟨true, k', ⟨N, some x⟩⟩] (Obj.new A)))).1 =
        .error .attributeError := by
  have h0 : N ≠ 0 := by omega
  have h1 : ¬ N < k := by omega
  refine ⟨?_, ?_⟩
  · unfold meantDevices
    by_cases h2 : k = 0 <;>
      simp [getLinearOperator, initializeOn, initializeBranch, assignGpu, newGpu, select, Obj.new,
        h0, h1, h2]
  · refine ((Wedged.history rs ?_).getLinearOperator e true j).2 rfl
    have h3 : k' ≠ k := by rintro rfl; exact hkk rfl
    have h4 : reallocate k' k N = true := by
      unfold reallocate
      unfold meantDevices at hkk
      split_ifs with h4 h5
      · split_ifs at hkk <;> omega
      · split_ifs at hkk <;> omega
      · rfl
    by_cases h2 : k = 0
    · subst h2
      simp [Wedged, Cache.history, getLinearOperator, initializeOn, initializeBranch, assignGpu, newGpu,
        select, Obj.new, h0, changeGpu, allDevices, h3, h4]
    · simp [Wedged, Cache.history, getLinearOperator, initializeOn, initializeBranch, assignGpu, newGpu,
        select, Obj.new, h0, h1, h2, changeGpu, allDevices, h3, h4]

example : meantDevices 4 2 ≠ meantDevices 4 3 := by decide

/-- C06: a request for more devices than the machine has ends the process, on an object that has not
been initialised on the GPU. -/
theorem too_many_devices_abort (A : M) (N k : ℕ) (hN : 1 ≤ N) (hk : N < k) :
    (getLinearOperator ⟨N, none⟩ true k (Obj.new A)).1 = .error (.native .abort) := by
  have h0 : N ≠ 0 := by omega
  have h2 : k ≠ 0 := by omega
  simp [getLinearOperator, initializeOn, initializeBranch, assignGpu, newGpu, Obj.new, h0, h2, hk]

end Imate.Props
