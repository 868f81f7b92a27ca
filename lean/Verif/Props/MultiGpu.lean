import Verif.Lemmas.MultiGpu
import Verif.Props.OperatorCache
import Mathlib.Tactic.IntervalCases
import Mathlib.Tactic.NormNum

/-!
# C78: an operator on several GPU devices
-/

namespace Imate.Props

open Imate.MultiGpu Imate.Spec Imate.Cache

variable {α : Type} {r k : Nat} {host : Nat → α} {current : Nat → Nat} {h0 : List (Block α)} {s : State α}

/-- **C78 (copies).**  When the runtime gives a thread for each device, then in every interleaving of the threads each
of the devices ends up with its own copy of every array: whatever device a sample runs on, it reads the arrays of the
user from the memory of that device.  Allocations of others are not touched. -/
theorem every_device_reads_the_matrix (h : Built r k host (State.start h0 current) s) :
    (∀ i < k, ∀ j < r, read k s i j = .ok (host j)) ∧ Untouched (State.start h0 current) s ∧
      ((s.heap.drop h0.length).map (·.device)).all (· < k) := by
  have hd := Built.done h
  refine ⟨fun i hi j hj => hd.read (le_refl _) hi hj, hd.base, ?_⟩
  rw [List.all_eq_true]
  intro d hmem
  obtain ⟨b, hb, rfl⟩ := List.mem_map.1 hmem
  obtain ⟨m, hm, hbm⟩ := List.mem_iff_getElem.1 hb
  rw [List.getElem_drop] at hbm
  rw [List.length_drop] at hm
  obtain ⟨i, j, hi, hj, hp⟩ := hd.owner (h0.length + m) (by omega) (by omega)
  obtain ⟨a, h1, _, h3⟩ := hd.set i j hi hj
  rw [hp] at h1
  cases h1
  rw [List.getElem?_eq_getElem (by omega), hbm] at h3
  cases h3
  simpa using hi

/-- **C78 (release).**  Deleting the operator releases each of its blocks exactly once and nothing else. -/
theorem destroy_releases_all (h : Built r k host (State.start h0 current) s) :
    ∃ s', destroy r k s = .ok s' ∧ remaining (State.start h0 current) s' = [] ∧
      Untouched (State.start h0 current) s' := by
  have hd := Built.done h
  obtain ⟨s', h1, h2⟩ := destroy_done hd k (le_refl _)
  refine ⟨s', h1, ?_, ?_⟩
  · unfold remaining
    rw [List.filter_eq_nil_iff]
    intro b hb
    obtain ⟨m, hm, hbm⟩ := List.mem_iff_getElem.1 hb
    rw [List.getElem_drop] at hbm
    rw [List.length_drop] at hm
    change m < s'.heap.length - h0.length at hm
    have hm' : h0.length + m < s'.heap.length := by omega
    have hlt : h0.length + m < s.heap.length := by
      by_contra hc
      have h3 := h2.same (h0.length + m) fun i j hf hp => by
        obtain ⟨a, h4, _, h5⟩ := hd.set i j hf.1 hf.2
        rw [hp] at h4
        cases h4
        exact hc (List.getElem?_eq_some_iff.1 h5).1
      rw [List.getElem?_eq_getElem hm', List.getElem?_eq_none (by omega)] at h3
      cases h3
    obtain ⟨i, j, hi, hj, hp⟩ := hd.owner (h0.length + m) (by omega) hlt
    have h3 := h2.dead i j _ ⟨hi, hj⟩ hp
    rw [List.getElem?_eq_getElem hm', List.getElem?_eq_getElem hlt] at h3
    change s'.heap[h0.length + m] = b at hbm
    rw [hbm] at h3
    simp only [Option.map_some, Option.some.injEq] at h3
    rw [h3]
    simp
  · show s'.heap.take h0.length = h0
    conv_rhs => rw [← hd.base]
    apply List.ext_getElem?
    intro m
    rw [List.getElem?_take, List.getElem?_take]
    split
    · rename_i hm
      exact h2.same m fun i j hf hp => by
        obtain ⟨a, h4, h5, _⟩ := hd.set i j hf.1 hf.2
        rw [hp] at h4
        cases h4
        omega
    · rfl

/-- **C78 (the operator of a cached request).**  With as many devices for the samples as the operator was built for, no
sample meets a fault; `h` is what the cache returns for the first request of an object. -/
theorem first_request_samples (A : Nat → α) (N k' : Nat) (hN : 1 ≤ N) (hk : k' ≤ N) :
    ∃ h, (getLinearOperator ⟨N, none⟩ true k' (Obj.new A)).1 = .ok h ∧
      ∀ s, Built r h.devices h.matrix (State.start h0 current) s →
        ∀ i < samplingDevices N k', ∀ j < r, read h.devices s i j = .ok (A j) := by
  refine ⟨⟨A, true, samplingDevices N k'⟩, ?_, fun s hs => (every_device_reads_the_matrix hs).1⟩
  have h1 : newGpu ⟨N, none⟩ A k' = .ok ⟨A, true, samplingDevices N k'⟩ := by
    unfold newGpu samplingDevices
    rw [if_neg (by show ¬ N = 0; omega)]
    show (if k' = 0 then _ else _) = _
    split
    · rfl
    · rw [if_neg (by show ¬ N < k'; omega)]
  simp [getLinearOperator, initializeOn, initializeBranch, Obj.new, assignGpu, h1, select]

/-- **C78 (negation: an operator that was used on the CPU in between).**  On a machine with several devices, a request
for one device, a request for the CPU and a request for all devices: the operator lives on one device, but a thread for
every device draws samples; all but the first use a pointer beyond the end of the array. -/
theorem stale_operator_out_of_bounds (A : Nat → α) (N : Nat) (hN : 2 ≤ N) :
    ∃ h, (getLinearOperator ⟨N, none⟩ true 0
        (history [⟨true, 1, ⟨N, none⟩⟩, ⟨false, 0, ⟨N, none⟩⟩] (Obj.new A))).1 = .ok h ∧
      ∀ s, Built r h.devices h.matrix (State.start h0 current) s →
        ∀ i, 1 ≤ i → i < samplingDevices N 0 → ∀ j, read h.devices s i j = .error .outOfBounds := by
  have h1 : newGpu ⟨N, none⟩ A 1 = .ok ⟨A, true, 1⟩ := by
    unfold newGpu
    rw [if_neg (by show ¬ N = 0; omega)]
    show (if 1 = 0 then _ else _) = _
    rw [if_neg (by omega), if_neg (by show ¬ N < 1; omega)]
  refine ⟨⟨A, true, 1⟩, ?_, fun s hs i hi _ j => ?_⟩
  · simp [history, getLinearOperator, initializeOn, initializeBranch, Obj.new, assignGpu, h1, select, newCpu]
  · unfold MultiGpu.read
    rw [if_pos hi]

/-- **C78 (own device).**  What a sample reads on a device lies in the memory of that device, and is not released; a read
anywhere else is a fault. -/
theorem read_own_device {k i j : Nat} {s : State α} {x : α} (h : read k s i j = .ok x) :
    i < k ∧ ∃ a b, s.pointer i j = some a ∧ s.heap[a]? = some b ∧ b.device = i ∧ b.live = true ∧ b.content = some x := by
  unfold MultiGpu.read at h
  split at h
  · simp at h
  · rename_i hk
    split at h
    · simp at h
    · rename_i a ha
      split at h
      · simp at h
      · rename_i b hb
        split at h
        · rename_i hl
          split at h
          · rename_i hd
            split at h
            · rename_i y hy
              simp only [Except.ok.injEq] at h
              subst h
              exact ⟨by omega, a, b, ha, hb, hd, hl, hy⟩
            · simp at h
          · simp at h
        · simp at h

/-- **C78 (negation: fewer threads than devices).**  When the runtime gives fewer threads than devices (for instance
because of `OMP_THREAD_LIMIT`), the pointers of the other devices are never set, and deleting the operator releases
memory at an undefined address. -/
theorem thread_limit_undefined_release {team : Nat} (hteam : team < k) (hr : 1 ≤ r)
    (h : Built r team host (State.start h0 current) s) :
    (∀ i, team ≤ i → i < k → ∀ j, read k s i j = .error .undefined) ∧ destroy r k s = .error .undefined := by
  have hd := Built.done h
  refine ⟨fun i hi hk j => ?_, ?_⟩
  · unfold MultiGpu.read
    rw [if_neg (by omega), hd.unset i j hi]
  · obtain ⟨m, rfl⟩ : ∃ m, k = team + 1 + m := ⟨k - team - 1, by omega⟩
    exact destroy_fails hd hr m

/-- **C78 (requested devices).**  A matrix occupies exactly the requested devices. -/
theorem matrix_handles (N k' : Nat) : handleDevices false N k' = samplingDevices N k' := by
  simp [handleDevices, samplingDevices]

/-- **C78 (negation).**  An affine matrix function for one device creates handles on all devices of the machine. -/
theorem affine_handles_everywhere (N k' : Nat) (h1 : 1 ≤ k') (h2 : k' < N) :
    samplingDevices N k' < handleDevices true N k' := by
  unfold samplingDevices handleDevices
  rw [if_neg (by omega), if_pos rfl]
  exact h2

/-! ### Non-vacuity -/

/-- Every team can finish: the threads run one after another. -/
theorem built_exists (r team : Nat) (host : Nat → α) (h0 : List (Block α)) (current : Nat → Nat) :
    ∃ s, Built r team host (State.start h0 current) s := by
  have hstep : ∀ (m i : Nat) (s : State α), Inv r team host h0 s → i < team → s.pc i + m = 2 * r + 1 →
      ∃ is : List Nat, (∀ x ∈ is, x < team) ∧ (run r host is s).pc i = 2 * r + 1 ∧
        (∀ i', i' ≠ i → (run r host is s).pc i' = s.pc i') := by
    intro m
    induction m with
    | zero => exact fun i s _ _ h => ⟨[], by simp, by simpa [run] using h, fun _ _ => rfl⟩
    | succ m ih =>
      intro i s hI hi h
      have h1 : (step r host i s).pc = Function.update s.pc i (s.pc i + 1) := by
        unfold step
        by_cases e : s.pc i = 0
        · rw [if_pos e, e]
        · rw [if_neg e, if_pos (by omega)]
          dsimp only
          split
          · rfl
          · obtain ⟨a, ha, _⟩ := hI.alloc i ((s.pc i - 1) / 2) (by omega)
            rw [ha]
      obtain ⟨is, h2, h3, h4⟩ := ih i (step r host i s) (hI.step hi) hi (by rw [h1, Function.update_self]; omega)
      refine ⟨i :: is, ?_, h3, fun i' hi' => ?_⟩
      · intro x hx
        rcases List.mem_cons.1 hx with rfl | hx
        · exact hi
        · exact h2 x hx
      · show (run r host is (step r host i s)).pc i' = _
        rw [h4 i' hi', h1, Function.update_of_ne hi']
  have happ : ∀ (is js : List Nat) (s : State α), run r host (is ++ js) s = run r host js (run r host is s) := by
    intro is
    induction is with
    | nil => intro js s; rfl
    | cons i is ih => intro js s; exact ih js _
  have hall : ∀ m ≤ team, ∃ is : List Nat, (∀ x ∈ is, x < team) ∧
      (∀ i < m, (run r host is (State.start h0 current)).pc i = 2 * r + 1) ∧
      (∀ i, m ≤ i → (run r host is (State.start h0 current)).pc i = 0) := by
    intro m
    induction m with
    | zero => exact fun _ => ⟨[], by simp, by simp, fun _ _ => rfl⟩
    | succ m ih =>
      intro hm
      obtain ⟨is, h1, h2, h3⟩ := ih (by omega)
      have hI := Inv.run is (Inv.start (r := r) (team := team) (host := host) (h0 := h0) current) h1
      obtain ⟨js, h4, h5, h6⟩ := hstep (2 * r + 1) m _ hI (by omega) (by rw [h3 m (le_refl _)]; omega)
      refine ⟨is ++ js, ?_, fun i hi => ?_, fun i hi => ?_⟩
      · intro x hx
        rcases List.mem_append.1 hx with hx | hx
        · exact h1 x hx
        · exact h4 x hx
      · rw [happ]
        by_cases e : i = m
        · rw [e, h5]
        · rw [h6 i e, h2 i (by omega)]
      · rw [happ, h6 i (by omega), h3 i (by omega)]
  obtain ⟨is, h1, h2, _⟩ := hall team (le_refl _)
  exact ⟨_, is, h1, rfl, h2⟩

/-- A sparse matrix (three arrays) on two devices, built by two threads that alternate. -/
example : ∃ s s', s = run 3 (fun j => ["data", "indices", "pointer"].getD j "")
      [1, 0, 0, 1, 1, 0, 0, 1, 0, 1, 1, 1, 0, 0] (State.start [] fun _ => 0) ∧
    read 2 s 1 2 = .ok "pointer" ∧ destroy 3 2 s = .ok s' ∧ remaining (State.start [] fun _ => 0) s' = [] := by
  have hb : Built 3 2 (fun j => ["data", "indices", "pointer"].getD j "") (State.start [] fun _ => 0)
      (run 3 (fun j => ["data", "indices", "pointer"].getD j "") [1, 0, 0, 1, 1, 0, 0, 1, 0, 1, 1, 1, 0, 0]
        (State.start [] fun _ => 0)) :=
    ⟨_, by decide, rfl, by intro i hi; interval_cases i <;> rfl⟩
  obtain ⟨s', h1, h2, _⟩ := destroy_releases_all hb
  exact ⟨_, s', rfl, (every_device_reads_the_matrix hb).1 1 (by norm_num) 2 (by norm_num), h1, h2⟩

/-- A limit of one thread on a machine with two devices. -/
example (A : Nat → α) (current : Nat → Nat) : ∃ s, Built 1 1 A (State.start [] current) s ∧
    destroy 1 2 s = .error .undefined := by
  obtain ⟨s, hs⟩ := built_exists 1 1 A [] current
  exact ⟨s, hs, (thread_limit_undefined_release (by norm_num) (le_refl _) hs).2⟩

end Imate.Props
