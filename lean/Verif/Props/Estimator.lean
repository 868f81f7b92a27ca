import Verif.Lemmas.EstimatorKnown
import Mathlib.Data.Rat.Lemmas
import Mathlib.Algebra.Order.Ring.Rat
import Mathlib.Data.Nat.Sqrt
set_option linter.unusedSectionVars false

/-!
# Properties of the parallel sampling loop (C19, C20, C21, C24, C25, C28)

All theorems are about every schedule `ts` (a list of thread numbers, one per atomic action) that the
loop can execute from its initial state, and hold for any number type (`FloatLike V` has no laws).

`Separate cfg` means that every inquiry has its own Lanczos run: the operator does not know the
eigenvalue relation or there is one inquiry only.
-/

namespace Imate.Props
open Convergence Estimator

variable {V : Type} [FloatLike V]

/-! ## Concrete runs used as non-vacuity examples and counterexamples -/

/-- A square root on `ℚ`, exact on squares of rationals. -/
local instance : HasSqrt ℚ where
  sqrt x := (Nat.sqrt x.num.toNat : ℚ) / (Nat.sqrt x.den : ℚ)

/-- two threads, two inquiries, generic operator `A + tB`; inquiry 0 has constant samples, inquiry 1
varying ones -/
def exampleConfig : Config (XR ℚ) where
  numThreads := 2
  chunkSize := 1
  minNumSamples := 2
  maxNumSamples := 4
  numInquiries := 2
  relationKnown := false
  numProducts := 1
  z := .fin 2
  atol := .fin (1/10)
  rtol := .fin 0
  value := fun i j => if j = 0 then .fin 5 else .fin i
  mixedValue := fun _ _ => .fin 7
  garbageValue := fun _ _ => .fin 9

/-- as `exampleConfig`, but one Lanczos run serves both inquiries -/
def exampleKnown : Config (XR ℚ) := { exampleConfig with relationKnown := true }

/-- as `exampleConfig`, with one inquiry only -/
def exampleOne : Config (XR ℚ) := { exampleConfig with numInquiries := 1 }

/-- as `exampleKnown`, with one thread -/
def exampleKnownOneThread : Config (XR ℚ) := { exampleKnown with numThreads := 1 }

/-- a schedule of `exampleOne`: both threads take an iteration, then thread 1 runs first -/
def scheduleOne : List Nat :=
  [0, 1] ++ List.replicate 9 1 ++ List.replicate 9 0 ++ List.replicate 2 0 ++ [1, 1]

/-- Observe the outcome of a schedule that runs the loop to its end. -/
def outcome {α : Type} (cfg : Config V) (ts : List ℕ) (f : State V → α) : Option α :=
  (run cfg (init cfg) ts).bind (fun s =>
    if (List.range cfg.numThreads).all (fun t => (step cfg s t).isNone) then some (f s) else none)

theorem exists_of_outcome {α : Type} {cfg : Config V} {ts : List ℕ} {f : State V → α} {v : α}
    (h : outcome cfg ts f = some v) {P : State V → Prop} (hP : ∀ s, f s = v → P s) :
    ∃ s, run cfg (init cfg) ts = some s ∧ Finished cfg s ∧ P s := by
  unfold outcome at h
  obtain ⟨s, h1, h2⟩ := Option.bind_eq_some_iff.1 h
  split at h2
  · rename_i hall
    simp only [Option.some.injEq] at h2
    refine ⟨s, h1, ?_, hP s h2⟩
    intro t ht
    have := List.all_eq_true.1 hall t (List.mem_range.2 ht)
    simpa using this
  · simp at h2

/-! ## C19 -/

/-- C19: at any moment of any schedule, the samples entering the estimate of inquiry `j` (the first
`num_samples_used[j]` processed ones) were computed for inquiry `j` in this run, and no sample enters
twice. -/
theorem averaged_samples_computed {cfg : Config V} (hsep : Separate cfg) (hN : 0 < cfg.numInquiries)
    {ts : List ℕ} {s : State V} (hrun : run cfg (init cfg) ts = some s) {j : ℕ} {q : Inquiry V}
    (hq : s.inqs[j]? = some q) :
    (∀ i ∈ s.processed.take q.numSamplesUsed, ∃ own, s.samples i j = .computed own) ∧
    (s.processed.take q.numSamplesUsed).Nodup := by
  have h := inv_run hsep hN hrun
  refine ⟨(h.inq j q hq).computed, ?_⟩
  have hnd : (s.processed ++ s.skipped ++ s.threads.flatMap Thread.held).Nodup :=
    h.perm.nodup_iff.2 List.nodup_range
  rw [List.append_assoc] at hnd
  exact ((List.nodup_append.1 hnd).1).sublist (List.take_sublist _ _)

/-- C19, in terms of the returned trace: with one thread (or one inquiry) the trace of inquiry `j` is
the average of the numbers `value i j` of distinct samples `i` of this run. -/
theorem trace_is_average_of_values {cfg : Config V} (hsep : Separate cfg)
    (hN : 0 < cfg.numInquiries) (hex : Exclusive cfg) {ts : List ℕ} {s : State V}
    (hrun : run cfg (init cfg) ts = some s) {j : ℕ} {q : Inquiry V} (hq : s.inqs[j]? = some q)
    (errorZ outlierZ : V) :
    averaged cfg errorZ outlierZ s j =
      averageEstimate errorZ outlierZ ((s.processed.take q.numSamplesUsed).map (fun i => cfg.value i j)) := by
  have h := (averaged_samples_computed hsep hN hrun hq).1
  have ho := (ownInv_run hex hrun).samples
  unfold averaged
  rw [hq]
  dsimp only
  congr 1
  unfold column
  rw [← List.map_take]
  apply List.map_congr_left
  intro i hi
  obtain ⟨own, hown⟩ := h i hi
  have hne := ho i j
  rw [hown] at hne ⊢
  cases own with
  | true => rfl
  | false => exact absurd rfl hne

example : ∃ s, run exampleOne (init exampleOne) scheduleOne = some s ∧ Finished exampleOne s ∧
    s.inqs.map (·.numSamplesUsed) = [2] ∧ s.processed = [1, 0] ∧
    (averaged exampleOne (.fin 2) (.fin 3) s 0).trace = .fin 5 := by
  refine exists_of_outcome (f := fun s => (s.inqs.map (·.numSamplesUsed), s.processed,
    (averaged exampleOne (.fin 2) (.fin 3) s 0).trace)) (v := ([2], [1, 0], .fin 5))
    (by decide +kernel) ?_
  intro s h
  simpa using h

example : Separate exampleOne ∧ Exclusive exampleOne ∧ 0 < exampleOne.numInquiries ∧
    0 < exampleOne.numThreads := ⟨Or.inl rfl, Or.inr (by decide), by decide, by decide⟩

/-! ## C20 -/

/-- C20: when the loop ends, inquiry `j` is flagged as converged exactly when some number of samples
`n ≥ min_num_samples` met the tolerance, and then `num_samples_used[j]` is the first such number;
otherwise all processed samples were used and none of the prefixes met the tolerance. -/
theorem converged_meaning {cfg : Config V} (hsep : Separate cfg) (hN : 0 < cfg.numInquiries)
    {ts : List ℕ} {s : State V} (hrun : run cfg (init cfg) ts = some s) {j : ℕ} {q : Inquiry V}
    (hq : s.inqs[j]? = some q) :
    let met := fun n => cfg.minNumSamples ≤ n ∧ 0 < n ∧ n ≤ s.processed.length ∧
      meetsTol cfg.z cfg.atol cfg.rtol ((column cfg s j).take n) = true
    (q.converged = true → met q.numSamplesUsed ∧ ∀ n < q.numSamplesUsed, ¬ met n) ∧
    (q.converged = false → q.numSamplesUsed = s.processed.length ∧ ∀ n, ¬ met n) := by
  have h := (inv_run hsep hN hrun).inq j q hq
  constructor
  · intro hc
    obtain ⟨h1, h2, h3, h4, h5⟩ := h.conv hc
    refine ⟨⟨h1, h2, h3, h4⟩, ?_⟩
    rintro n hn ⟨m1, m2, m3, m4⟩
    rw [h5 n m1 m2 hn] at m4; simp at m4
  · intro hc
    obtain ⟨h1, h2⟩ := h.notConv hc
    refine ⟨h1, ?_⟩
    rintro n ⟨m1, m2, m3, m4⟩
    rw [h2 n m1 m2 m3] at m4; simp at m4

/-- C20: `all_converged` is true exactly when every inquiry is converged (and a sample was processed),
and if it is false at the end of the loop then all `max_num_samples` samples were processed. -/
theorem all_converged_meaning {cfg : Config V} (hsep : Separate cfg) (hN : 0 < cfg.numInquiries)
    (hT : 0 < cfg.numThreads) {ts : List ℕ} {s : State V} (hrun : run cfg (init cfg) ts = some s)
    (hf : Finished cfg s) :
    (s.allConverged = true ↔ ∀ j < cfg.numInquiries, flag s j = true) ∧
    (s.allConverged = false → s.processed.Perm (List.range cfg.maxNumSamples)) := by
  have h := inv_run hsep hN hrun
  have hp := h.toPart.finished hT hf
  constructor
  · rw [h.all]
    simp only [Bool.and_eq_true, decide_eq_true_eq, List.all_eq_true]
    constructor
    · rintro ⟨-, hall⟩ j hj
      have hj' : j < s.inqs.length := by rw [h.numInqs]; exact hj
      rw [flag_of_get (List.getElem?_eq_getElem hj')]
      exact hall _ (List.getElem_mem hj')
    · intro hall
      have hall' : ∀ q ∈ s.inqs, q.converged = true := by
        intro q hq
        obtain ⟨j, hj, rfl⟩ := List.mem_iff_getElem.1 hq
        have := hall j (by rw [← h.numInqs]; exact hj)
        rwa [flag_of_get (List.getElem?_eq_getElem hj)] at this
      refine ⟨?_, hall'⟩
      have h0 : 0 < s.inqs.length := by rw [h.numInqs]; exact hN
      obtain ⟨-, h2, h3, -⟩ := (h.inq 0 _ (List.getElem?_eq_getElem h0)).conv
        (hall' _ (List.getElem_mem h0))
      intro he
      rw [he] at h3
      simp at h3; omega
  · intro hac
    have hsk : s.skipped = [] := by
      by_contra hne
      rw [h.skipped hne] at hac; simp at hac
    rw [hsk, List.append_nil] at hp
    exact hp

/-- C20 for a run in which one Lanczos run serves several inquiries, with one thread: at the end each
flag tells whether all processed samples together meet the tolerance. -/
theorem converged_meaning_known {cfg : Config V} (hk : cfg.relationKnown = true)
    (hN : 1 < cfg.numInquiries) (h1 : cfg.numThreads = 1) {ts : List ℕ} {s : State V}
    (hrun : run cfg (init cfg) ts = some s) (hf : Finished cfg s) {j : ℕ} {q : Inquiry V}
    (hq : s.inqs[j]? = some q) :
    q.numSamplesUsed = s.processed.length ∧
    (q.converged = true ↔ cfg.minNumSamples ≤ s.processed.length ∧ 0 < s.processed.length ∧
      meetsTol cfg.z cfg.atol cfg.rtol (column cfg s j) = true) :=
  ⟨(kInv_run hk hN h1 hrun).used j q hq, ((kInv_run hk hN h1 hrun).finished hf).1 j q hq⟩

example : ∃ s, run exampleOne (init exampleOne) scheduleOne = some s ∧ Finished exampleOne s ∧
    s.allConverged = true ∧ s.skipped = [2, 3] ∧ s.inqs.map (·.converged) = [true] := by
  refine exists_of_outcome (f := fun s => (s.allConverged, s.skipped, s.inqs.map (·.converged)))
    (v := (true, [2, 3], [true])) (by decide +kernel) ?_
  intro s h
  simpa using h

example : ∃ s, run exampleKnownOneThread (init exampleKnownOneThread) (List.replicate 56 0) = some s ∧
    Finished exampleKnownOneThread s ∧ s.processed = [0, 1, 2, 3] ∧
    s.inqs.map (·.converged) = [true, false] := by
  refine exists_of_outcome (f := fun s => (s.processed, s.inqs.map (·.converged)))
    (v := ([0, 1, 2, 3], [true, false])) (by decide +kernel) ?_
  intro s h
  simpa using h

/-! ## C21 -/

/-- C21: when the loop ends, the number of samples used is at least `min_num_samples` (or all there
are) and at most `max_num_samples`; the processed indices are distinct and below `max_num_samples`. -/
theorem sample_accounting {cfg : Config V} (hsep : Separate cfg) (hN : 0 < cfg.numInquiries)
    (hT : 0 < cfg.numThreads) {ts : List ℕ} {s : State V} (hrun : run cfg (init cfg) ts = some s)
    (hf : Finished cfg s) {j : ℕ} {q : Inquiry V} (hq : s.inqs[j]? = some q) :
    min cfg.minNumSamples cfg.maxNumSamples ≤ q.numSamplesUsed ∧
    q.numSamplesUsed ≤ s.processed.length ∧ s.processed.length ≤ cfg.maxNumSamples ∧
    s.processed.Nodup ∧ ∀ i ∈ s.processed, i < cfg.maxNumSamples := by
  have h := inv_run hsep hN hrun
  have hp := h.toPart.finished hT hf
  have hlen := hp.length_eq
  rw [List.length_append, List.length_range] at hlen
  have hnd : (s.processed ++ s.skipped).Nodup := hp.nodup_iff.2 List.nodup_range
  have hi := h.inq j q hq
  refine ⟨?_, ?_, by omega, (List.nodup_append.1 hnd).1, ?_⟩
  · cases hc : q.converged with
    | true => exact Nat.le_trans (Nat.min_le_left _ _) (hi.conv hc).1
    | false =>
      rw [(hi.notConv hc).1]
      have hsk : s.skipped = [] := by
        by_contra hne
        have := h.all_flags (h.skipped hne) j q hq
        rw [hc] at this; simp at this
      rw [hsk] at hlen
      simp at hlen
      omega
  · cases hc : q.converged with
    | true => exact (hi.conv hc).2.2.1
    | false => rw [(hi.notConv hc).1]
  · intro i hmem
    exact List.mem_range.1 (hp.subset (List.mem_append_left _ hmem))

/-- C21: the samples reported to the user for inquiry `j` are the processed samples in processing
order, all of them computed, followed only by NaN. -/
theorem reported_samples {cfg : Config V} (hsep : Separate cfg) (hN : 0 < cfg.numInquiries)
    (hT : 0 < cfg.numThreads) {ts : List ℕ} {s : State V} (hrun : run cfg (init cfg) ts = some s)
    (hf : Finished cfg s) {j : ℕ} {q : Inquiry V} (hq : s.inqs[j]? = some q) (i : ℕ) :
    (i < q.numSamplesUsed → ∃ p own, s.processed[i]? = some p ∧ s.samples p j = .computed own ∧
      reportedSample cfg s i j = cfg.cellValue p j (.computed own)) ∧
    (q.numSamplesUsed ≤ i → reportedSample cfg s i j = FloatLike.nan) := by
  have hacc := sample_accounting hsep hN hT hrun hf hq
  constructor
  · intro hi
    have hlt : i < s.processed.length := by omega
    obtain ⟨own, ho⟩ := (averaged_samples_computed hsep hN hrun hq).1 s.processed[i]
      (List.mem_take_iff_getElem.2 ⟨i, by omega, rfl⟩)
    refine ⟨s.processed[i], own, List.getElem?_eq_getElem hlt, ho, ?_⟩
    unfold reportedSample
    rw [hq]
    dsimp only
    rw [if_pos hi, List.getElem?_eq_getElem hlt]
    dsimp only
    rw [ho]
  · intro hi
    unfold reportedSample
    rw [hq]
    dsimp only
    rw [if_neg (by omega)]

/-- C21, violated part: after an early stop `samples_processed_order` ends with zeros and so repeats
index 0 (only its first `num_samples_used` entries are meaningful). -/
theorem reported_order_repeats : ∃ s, run exampleOne (init exampleOne) scheduleOne = some s ∧
    Finished exampleOne s ∧ reportedOrder exampleOne s = [1, 0, 0, 0] :=
  exists_of_outcome (f := reportedOrder exampleOne) (by decide +kernel) (fun _ h => h)

/-! ## C28 -/

/-- C28: at any moment no sample index has been executed (or skipped) twice. -/
theorem each_index_at_most_once {cfg : Config V} {ts : List ℕ} {s : State V}
    (hrun : run cfg (init cfg) ts = some s) :
    (s.processed ++ s.skipped ++ s.threads.flatMap Thread.held).Nodup :=
  (part_run hrun).perm.nodup_iff.2 List.nodup_range

/-- C28: at the end each index below `max_num_samples` was processed or skipped, exactly once. -/
theorem each_index_exactly_once {cfg : Config V} (hT : 0 < cfg.numThreads) {ts : List ℕ} {s : State V}
    (hrun : run cfg (init cfg) ts = some s) (hf : Finished cfg s) :
    (s.processed ++ s.skipped).Perm (List.range cfg.maxNumSamples) :=
  (part_run hrun).finished hT hf

/-- C28: an index is skipped only if all inquiries have converged. -/
theorem skipped_only_if_converged {cfg : Config V} (hsep : Separate cfg) (hN : 0 < cfg.numInquiries)
    {ts : List ℕ} {s : State V} (hrun : run cfg (init cfg) ts = some s) (hsk : s.skipped ≠ []) :
    ∀ j < cfg.numInquiries, flag s j = true := by
  have h := inv_run hsep hN hrun
  intro j hj
  have hj' : j < s.inqs.length := by rw [h.numInqs]; exact hj
  rw [flag_of_get (List.getElem?_eq_getElem hj')]
  exact h.all_flags (h.skipped hsk) j _ (List.getElem?_eq_getElem hj')

/-- C28: with one thread the samples are processed in the order 0, 1, 2, … -/
theorem single_thread_order {cfg : Config V} (h1 : cfg.numThreads = 1) {ts : List ℕ} {s : State V}
    (hrun : run cfg (init cfg) ts = some s) : s.processed = List.range s.processed.length := by
  obtain ⟨th, -, h2, -⟩ := (seqInv_run h1 hrun).order
  have h3 : s.processed <+: List.range s.next :=
    ⟨s.skipped ++ th.held, by rw [← List.append_assoc]; exact h2⟩
  have h4 := List.prefix_iff_eq_take.1 h3
  rw [List.take_range] at h4
  have h5 := h3.length_le
  rw [List.length_range] at h5
  rw [Nat.min_eq_left h5] at h4
  exact h4

/-- C28: the loop always terminates — the number of actions of any schedule is bounded — and from any
reachable state it can be completed. -/
theorem loop_terminates (cfg : Config V) :
    (∃ B, ∀ ts s, run cfg (init cfg) ts = some s → ts.length ≤ B) ∧
    (∀ ts s, run cfg (init cfg) ts = some s → ∃ ts' s', run cfg s ts' = some s' ∧ Finished cfg s') := by
  refine ⟨⟨Estimator.measure cfg (init cfg), fun ts s h => ?_⟩, fun ts s _ => exists_finish s⟩
  have := run_length ts _ s h
  omega

/-! ## C24 -/

/-- schedule of the counterexample to C24 -/
def scheduleKnown : List ℕ :=
  -- thread 0 completes sample 0; thread 1 computes sample 1 up to its critical section
  List.replicate 14 0 ++ List.replicate 13 1 ++
  -- thread 0 resets the flags for sample 2; thread 1 records sample 1, inquiry 0 is now converged
  List.replicate 10 0 ++ [1] ++
  -- thread 0 skips inquiry 0 of sample 2; thread 1 resets the flags for sample 3
  List.replicate 3 0 ++ List.replicate 10 1 ++
  -- thread 0 records sample 2; thread 1 completes sample 3
  [0] ++ List.replicate 4 1

/-- C24 is violated: with two threads and two inquiries served by one Lanczos run there is a complete
schedule in which all four samples are used for inquiry 0 although sample 2 was never computed for
it, and the returned trace is NaN. -/
theorem known_relation_race : ∃ s, run exampleKnown (init exampleKnown) scheduleKnown = some s ∧
    Finished exampleKnown s ∧ s.processed = [0, 1, 2, 3] ∧ s.inqs.map (·.numSamplesUsed) = [4, 4] ∧
    s.samples 2 0 = .untouched ∧
    (averaged exampleKnown (.fin 2) (.fin 3) s 0).trace = .nan := by
  refine exists_of_outcome (f := fun s => (s.processed, s.inqs.map (·.numSamplesUsed), s.samples 2 0,
    (averaged exampleKnown (.fin 2) (.fin 3) s 0).trace))
    (v := ([0, 1, 2, 3], [4, 4], .untouched, .nan)) (by decide +kernel) ?_
  intro s h
  simpa using h

/-- C24, the part that holds: with one thread every processed sample is computed, with the operator
parameter that the shared Lanczos run needs, for every inquiry.  Missing: several threads, for which
`known_relation_race` shows the property to be false. -/
theorem known_relation_one_thread_partial {cfg : Config V} (hk : cfg.relationKnown = true)
    (hN : 1 < cfg.numInquiries) (h1 : cfg.numThreads = 1) {ts : List ℕ} {s : State V}
    (hrun : run cfg (init cfg) ts = some s) :
    ∀ i ∈ s.processed, ∀ j < cfg.numInquiries, s.samples i j = .computed true := by
  intro i hi j hj
  obtain ⟨own, ho⟩ := (kInv_run hk hN h1 hrun).computed i hi j hj
  have := (ownInv_run (Or.inl h1) hrun).samples i j
  rw [ho] at this ⊢
  cases own with
  | true => rfl
  | false => exact absurd rfl this

/-! ## C25 -/

/-- schedule of the counterexample to C25 -/
def scheduleParam : List ℕ :=
  -- thread 0 sets the parameter of inquiry 0; thread 1 completes inquiry 0 and sets that of inquiry 1
  List.replicate 4 0 ++ List.replicate 8 1 ++
  -- thread 0 makes its products with the parameter of inquiry 1
  List.replicate 11 0 ++ List.replicate 7 1 ++ List.replicate 30 0

/-- C25 is violated: the parameter is stored in the operator, which the threads share.  In this
complete schedule the sample 0 used for inquiry 0 was computed with the parameter of inquiry 1. -/
theorem parameter_race : ∃ s, run exampleConfig (init exampleConfig) scheduleParam = some s ∧
    Finished exampleConfig s ∧ s.processed = [0, 1, 2, 3] ∧ s.samples 0 0 = .computed false ∧
    s.inqs.map (·.numSamplesUsed) = [4, 4] ∧
    reportedSample exampleConfig s 0 0 = exampleConfig.mixedValue 0 0 := by
  refine exists_of_outcome (f := fun s => (s.processed, s.samples 0 0, s.inqs.map (·.numSamplesUsed),
    reportedSample exampleConfig s 0 0))
    (v := ([0, 1, 2, 3], .computed false, [4, 4], exampleConfig.mixedValue 0 0)) (by decide +kernel) ?_
  intro s h
  simpa using h

/-- C25, the part that holds: with one thread, or when a single Lanczos run is made per sample, no
sample is ever computed with a foreign parameter.  Missing: several threads and several Lanczos runs
per sample, for which `parameter_race` shows the property to be false. -/
theorem own_parameter_partial {cfg : Config V} (hex : cfg.numThreads = 1 ∨ cfg.required ≤ 1)
    {ts : List ℕ} {s : State V} (hrun : run cfg (init cfg) ts = some s) :
    ∀ i j, s.samples i j ≠ .computed false :=
  (ownInv_run hex hrun).samples

end Imate.Props
