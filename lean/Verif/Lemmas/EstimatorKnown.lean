import Verif.Lemmas.EstimatorMore
set_option linter.unusedSectionVars false
set_option linter.unusedVariables false

/-! Runs of one thread in which a single Lanczos run serves all inquiries. -/

namespace Imate.Estimator
open Convergence

variable {V : Type} [FloatLike V]

/-- flags describe all processed samples -/
def StatOK (cfg : Config V) (s : State V) : Prop :=
  (∀ (j : ℕ) (q : Inquiry V), s.inqs[j]? = some q → (q.converged = true ↔
    cfg.minNumSamples ≤ s.processed.length ∧ 0 < s.processed.length ∧
      meetsTol cfg.z cfg.atol cfg.rtol (column cfg s j) = true)) ∧
  (s.allConverged = true ↔ 0 < s.processed.length ∧
    ∀ (j : ℕ) (q : Inquiry V), s.inqs[j]? = some q → q.converged = true)

def KPc (cfg : Config V) (s : State V) : Pc → Prop
  | .ready => StatOK cfg s
  | .test _ j seen => StatOK cfg s ∧ ((j = 0 ∧ seen = []) ∨ (j = 1 ∧ ∃ own, seen = [some own]))
  | .setParam _ j seen => StatOK cfg s ∧ j = 0 ∧ seen = []
  | .lanczos _ j _ _ seen => StatOK cfg s ∧ j = 0 ∧ seen = []
  | .reset _ j seen => (∃ own, seen = [some own]) ∧ ∀ k < j, flag s k = false
  | .quad i j seen => (∃ own, seen = [some own]) ∧ (∀ k, flag s k = false) ∧
      ∀ k < j, k < cfg.numInquiries → IsComputed s i k
  | .critical i => (∀ k, flag s k = false) ∧ ∀ k < cfg.numInquiries, IsComputed s i k

structure KInv (cfg : Config V) (s : State V) : Prop extends Part cfg s where
  numInqs : s.inqs.length = cfg.numInquiries
  used : ∀ (j : ℕ) (q : Inquiry V), s.inqs[j]? = some q → q.numSamplesUsed = s.processed.length
  computed : ∀ i ∈ s.processed, ∀ j < cfg.numInquiries, IsComputed s i j
  thread : ∃ th, s.threads = [th] ∧ KPc cfg s th.pc

theorem kInv_init (cfg : Config V) (h1 : cfg.numThreads = 1) (hN : 1 < cfg.numInquiries) :
    KInv cfg (init cfg) := by
  refine ⟨part_init cfg, by simp [init], ?_, by simp [init], ⟨[], .ready⟩, by simp [init, h1], ?_, ?_⟩
  · intro j q hq
    simp only [init, List.getElem?_replicate] at hq
    split at hq
    · simp only [Option.some.injEq] at hq
      subst hq; rfl
    · simp at hq
  · intro j q hq
    simp only [init, List.getElem?_replicate] at hq
    split at hq
    · simp only [Option.some.injEq] at hq
      subst hq; simp [init]
    · simp at hq
  · simp [init]

theorem KInv.step {cfg : Config V} (hk : cfg.relationKnown = true) (hN : 1 < cfg.numInquiries)
    {s : State V} (h : KInv cfg s) {t : ℕ} {s' : State V} (hs : step cfg s t = some s') :
    KInv cfg s' := by
  have hpart := h.toPart.step hs
  have hreq : cfg.required = 1 := by simp [Config.required, hk]
  obtain ⟨th0, hth, hpc⟩ := h.thread
  unfold Estimator.step at hs
  split at hs
  · simp at hs
  rename_i th ht
  split at hs
  · simp at hs
  rename_i s1 th1 hst
  simp only [Option.some.injEq] at hs
  subst hs
  have ht' := ht
  rw [hth] at ht
  have ht0 : t = 0 := by
    by_contra hne
    rw [List.getElem?_eq_none (by simp; omega)] at ht; simp at ht
  subst ht0
  simp only [List.getElem?_cons_zero, Option.some.injEq] at ht
  subst ht
  have hset : ∀ x : Thread, s.threads.set 0 x = [x] := by intro x; simp [hth]
  obtain ⟨todo, pc⟩ := th0
  -- actions that leave samples, flags and the record alone
  have move : ∀ (next param : ℕ) (skipped : List ℕ) (th' : Thread),
      Part cfg { s with
        next := next, param := param, skipped := skipped, threads := s.threads.set 0 th' } →
      KPc cfg s th'.pc →
      KInv cfg { s with
        next := next, param := param, skipped := skipped, threads := s.threads.set 0 th' } := by
    intro next param skipped th' hp hok
    refine ⟨hp, h.numInqs, h.used, h.computed, th', hset th', ?_⟩
    cases hpc' : th'.pc <;> rw [hpc'] at hok <;> exact hok
  unfold stepThread at hst
  cases pc with
  | ready =>
    dsimp only at hst
    cases todo with
    | nil =>
      dsimp only at hst
      split at hst
      · simp only [Option.some.injEq, Prod.mk.injEq] at hst
        obtain ⟨rfl, rfl⟩ := hst
        exact move _ _ _ _ hpart hpc
      · simp at hst
    | cons i rest =>
      dsimp only at hst
      split at hst <;> simp only [Option.some.injEq, Prod.mk.injEq] at hst <;>
        obtain ⟨rfl, rfl⟩ := hst
      · exact move _ _ _ _ hpart hpc
      · exact move _ _ _ _ hpart ⟨hpc, Or.inl ⟨rfl, rfl⟩⟩
  | test i j seen =>
    obtain ⟨hstat, hseen⟩ := hpc
    dsimp only at hst
    rw [hreq] at hst
    rcases hseen with ⟨rfl, rfl⟩ | ⟨rfl, own, rfl⟩
    · rw [if_pos (by omega), if_neg (by simp; intro _; omega)] at hst
      simp only [Option.some.injEq, Prod.mk.injEq] at hst
      obtain ⟨rfl, rfl⟩ := hst
      exact move _ _ _ _ hpart ⟨hstat, rfl, rfl⟩
    · rw [if_neg (by omega)] at hst
      simp only [Option.some.injEq, Prod.mk.injEq] at hst
      obtain ⟨rfl, rfl⟩ := hst
      refine move _ _ _ _ hpart ?_
      have : afterLanczos cfg i [some own] = .reset i 0 [some own] := by
        simp [afterLanczos, hk, hN]
      rw [this]
      exact ⟨⟨own, rfl⟩, fun k hk => absurd hk (by omega)⟩
  | setParam i j seen =>
    simp only [Option.some.injEq, Prod.mk.injEq] at hst
    obtain ⟨rfl, rfl⟩ := hst
    exact move _ _ _ _ hpart hpc
  | lanczos i j k own seen =>
    obtain ⟨hstat, rfl, rfl⟩ := hpc
    cases k <;> simp only [Option.some.injEq, Prod.mk.injEq] at hst <;> obtain ⟨rfl, rfl⟩ := hst
    · exact move _ _ _ _ hpart ⟨hstat, Or.inr ⟨rfl, own, rfl⟩⟩
    · exact move _ _ _ _ hpart ⟨hstat, rfl, rfl⟩
  | reset i j seen =>
    obtain ⟨hseen, hfl⟩ := hpc
    dsimp only at hst
    split at hst <;> simp only [Option.some.injEq, Prod.mk.injEq] at hst <;>
      obtain ⟨rfl, rfl⟩ := hst
    · have hget : ∀ (k : ℕ) (q : Inquiry V), (clearFlag s j).inqs[k]? = some q →
          ∃ q0, s.inqs[k]? = some q0 ∧ q.numSamplesUsed = q0.numSamplesUsed ∧
            (k = j → q.converged = false) ∧ (k ≠ j → q = q0) := by
        intro k q hq
        simp only [clearFlag, List.getElem?_modify] at hq
        cases hq0 : s.inqs[k]? with
        | none => rw [hq0] at hq; simp at hq
        | some q0 =>
        rw [hq0] at hq
        simp only [Option.map_eq_map, Option.map_some, Option.some.injEq] at hq
        subst hq
        refine ⟨q0, rfl, ?_, ?_, ?_⟩
        · split <;> rfl
        · rintro rfl; simp
        · intro hne; rw [if_neg (by omega)]
      refine ⟨hpart, by simpa [clearFlag] using h.numInqs, ?_, h.computed, _, hset _, hseen, ?_⟩
      · intro k q hq
        obtain ⟨q0, h1, h2, -⟩ := hget k q hq
        rw [h2]; exact h.used k q0 h1
      · intro k hkj
        by_contra hf
        have hf' : flag (clearFlag s j) k = true := by
          have := Bool.eq_true_of_not_eq_false hf
          exact this
        obtain ⟨q, hq, hc⟩ := flag_get hf'
        obtain ⟨q0, h1, -, h3, h4⟩ := hget k q hq
        rcases Nat.lt_or_ge k j with hlt | hge
        · have e := h4 (by omega)
          subst e
          have := hfl k hlt
          rw [flag_of_get h1, hc] at this; simp at this
        · have := h3 (by omega)
          rw [hc] at this; simp at this
    · rename_i hlt
      refine move _ _ _ _ hpart ⟨hseen, ?_, fun k hk => absurd hk (by omega)⟩
      intro k
      rcases Nat.lt_or_ge k j with hkj | hkj
      · exact hfl k hkj
      · unfold flag
        rw [List.getElem?_eq_none (by rw [h.numInqs]; omega)]
  | quad i j seen =>
    obtain ⟨⟨own, rfl⟩, hfl, hcomp⟩ := hpc
    dsimp only at hst
    split at hst
    · rename_i hlt
      rw [if_neg (by simp [hfl j])] at hst
      simp only [Option.some.injEq, Prod.mk.injEq] at hst
      obtain ⟨rfl, rfl⟩ := hst
      have hq : quadCell cfg [some own] j = .computed own := by simp [quadCell, hk, hN]
      have hmon : ∀ i' j', IsComputed s i' j' → IsComputed ({ s with
            samples := fun i' j' => if i' = i ∧ j' = j then quadCell cfg [some own] j else s.samples i' j'
            threads := s.threads.set 0 ⟨todo, .quad i (j + 1) [some own]⟩ } : State V) i' j' := by
        intro i' j' hc
        unfold IsComputed
        dsimp only
        split
        · exact ⟨own, hq⟩
        · exact hc
      refine ⟨hpart, h.numInqs, h.used, fun i' hi' j' hj' => hmon i' j' (h.computed i' hi' j' hj'),
        _, hset _, ⟨own, rfl⟩, hfl, ?_⟩
      intro k hk1 hk2
      rcases Nat.lt_or_ge k j with h4 | h4
      · exact hmon i k (hcomp k h4 hk2)
      · have : k = j := by omega
        subst this
        unfold IsComputed
        dsimp only
        rw [if_pos ⟨rfl, rfl⟩]
        exact ⟨own, hq⟩
    · rename_i hlt
      simp only [Option.some.injEq, Prod.mk.injEq] at hst
      obtain ⟨rfl, rfl⟩ := hst
      exact move _ _ _ _ hpart ⟨hfl, fun k hk => hcomp k (by omega) hk⟩
  | critical i =>
    obtain ⟨hfl, hcomp⟩ := hpc
    simp only [Option.some.injEq, Prod.mk.injEq] at hst
    obtain ⟨rfl, rfl⟩ := hst
    have hconv0 : ∀ (j : ℕ) (q : Inquiry V), s.inqs[j]? = some q → q.converged = false := by
      intro j q hq
      rw [← flag_of_get hq]; exact hfl j
    set s1 : State V := { s with processed := s.processed ++ [i] } with hs1
    have hlen1 : s1.processed.length = s.processed.length + 1 := by simp [hs1]
    have hclen : ∀ j, (column cfg s1 j).length = s1.processed.length := by intro j; simp [column]
    set r := checkConvergence cfg.minNumSamples cfg.z cfg.atol cfg.rtol (column cfg s1)
      s1.processed.length s1.inqs with hr
    have hcs : criticalSection cfg i s = { s1 with inqs := r.1, allConverged := r.2 } := rfl
    have key : (∀ (j : ℕ) (q : Inquiry V), r.1[j]? = some q → q.numSamplesUsed = s1.processed.length ∧
          (q.converged = true ↔ cfg.minNumSamples ≤ s1.processed.length ∧ 0 < s1.processed.length ∧
            meetsTol cfg.z cfg.atol cfg.rtol (column cfg s1 j) = true)) ∧
        r.1.length = s.inqs.length ∧
        (r.2 = true ↔ 0 < s1.processed.length ∧
          ∀ (j : ℕ) (q : Inquiry V), r.1[j]? = some q → q.converged = true) := by
      rw [hr, checkConvergence]
      by_cases hlt : s1.processed.length < cfg.minNumSamples
      · rw [if_pos hlt]
        refine ⟨?_, by simp [hs1], ?_⟩
        · intro j q hq
          simp only [List.getElem?_map, Option.map_eq_some_iff] at hq
          obtain ⟨q0, -, rfl⟩ := hq
          refine ⟨rfl, ?_⟩
          constructor
          · intro hh; simp at hh
          · intro hh; omega
        · constructor
          · intro hh; simp at hh
          · rintro ⟨-, hh⟩
            have h0 : 0 < s1.inqs.length := by
              show 0 < s.inqs.length
              rw [h.numInqs]; omega
            have h0' : s1.inqs[0]? = some s1.inqs[0] := List.getElem?_eq_getElem h0
            have := hh 0 ⟨FloatLike.inf, s1.processed.length, false⟩ (by
              dsimp only
              rw [List.getElem?_map, h0', Option.map_some])
            simp at this
      · rw [if_neg hlt]
        have hq' : ∀ (j : ℕ) (q : Inquiry V), (s1.inqs.mapIdx (fun j q =>
            updateInquiry cfg.z cfg.atol cfg.rtol (column cfg s1 j) q))[j]? = some q →
            q = ⟨errorOf cfg.z (column cfg s1 j), s1.processed.length,
              meetsTol cfg.z cfg.atol cfg.rtol (column cfg s1 j)⟩ := by
          intro j q hq
          simp only [List.getElem?_mapIdx, Option.map_eq_some_iff] at hq
          obtain ⟨q0, hq0, rfl⟩ := hq
          simp [updateInquiry, hconv0 j q0 hq0, hclen]
        refine ⟨?_, by simp [hs1], ?_⟩
        · intro j q hq
          rw [hq' j q hq]
          exact ⟨rfl, fun hh => ⟨by omega, by omega, hh⟩, fun hh => hh.2.2⟩
        · simp only [List.all_eq_true]
          constructor
          · intro hh
            exact ⟨by omega, fun j q hq => hh q (List.mem_of_getElem? hq)⟩
          · rintro ⟨-, hh⟩ q hq
            obtain ⟨j, hj⟩ := List.mem_iff_getElem?.1 hq
            exact hh j q hj
    rw [hcs]
    refine ⟨hpart, ?_, fun j q hq => (key.1 j q hq).1, ?_, _, hset _, ?_, ?_⟩
    · show r.1.length = _
      rw [key.2.1]; exact h.numInqs
    · intro i' hi' j hj
      rcases List.mem_append.1 hi' with hm | hm
      · exact h.computed i' hm j hj
      · rw [List.mem_singleton] at hm
        subst hm
        exact hcomp j hj
    · intro j q hq
      exact (key.1 j q hq).2
    · exact key.2.2

theorem kInv_run {cfg : Config V} (hk : cfg.relationKnown = true) (hN : 1 < cfg.numInquiries)
    (h1 : cfg.numThreads = 1) {ts : List ℕ} {s : State V} (h : run cfg (init cfg) ts = some s) :
    KInv cfg s :=
  run_induction (fun _ _ _ hp hs => hp.step hk hN hs) ts _ s (kInv_init cfg h1 hN) h

/-- At the end of a run with one thread the flags describe all processed samples. -/
theorem KInv.finished {cfg : Config V} {s : State V} (h : KInv cfg s) (hf : Finished cfg s) :
    StatOK cfg s := by
  obtain ⟨th, hth, hpc⟩ := h.thread
  have h1 := hf 0 (by rw [← h.numThreads, hth]; simp)
  unfold Estimator.step at h1
  rw [hth] at h1
  simp only [List.getElem?_cons_zero] at h1
  split at h1
  · rename_i h2
    have := (stepThread_none h2).1
    rw [this] at hpc
    exact hpc
  · simp at h1

end Imate.Estimator
