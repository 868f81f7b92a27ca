import Verif.Lemmas.Sparse

/-!
# How far the sparse correlation matrix can exceed its arrays
-/

namespace Imate.Sample

variable {V : Type}

/-- A run in which every thread that reads `nnz` outside of the critical sections sees at least its present value: a
machine that shows every store to every thread at once. -/
inductive FreshRun (p : SparseProblem V) : SparseState V → Except Fault (SparseState V) → Prop where
  | done {s : SparseState V} : s.next ≥ p.n → (∀ th ∈ s.threads, th = ⟨.idle, []⟩) → FreshRun p s (.ok s)
  | fault {s : SparseState V} {m : SparseMove} {th : SparseThread} {f : Fault} :
      s.threads[m.thread]? = some th → m.Possible s → s.nnz ≤ m.seenNnz → sparseStep p s m th = .error f →
      FreshRun p s (.error f)
  | step {s s' : SparseState V} {m : SparseMove} {th : SparseThread} {out : Except Fault (SparseState V)} :
      s.threads[m.thread]? = some th → m.Possible s → s.nnz ≤ m.seenNnz → sparseStep p s m th = .ok s' →
      FreshRun p s' out → FreshRun p s out

theorem FreshRun.run {p : SparseProblem V} {s : SparseState V} {out : Except Fault (SparseState V)}
    (h : FreshRun p s out) : SparseRun p s out := by
  induction h with
  | done h1 h2 => exact .done h1 h2
  | fault h1 h2 _ h3 => exact .fault h1 h2 h3
  | step h1 h2 _ h3 _ ih => exact .step h1 h2 h3 ih

/-- What a thread may still store before it looks at `nnz` again. -/
def addWeight (th : SparseThread) : ℕ :=
  match th.pos with
  | .add _ _ => 2
  | _ => 0

theorem addWeight_le (th : SparseThread) : addWeight th ≤ 2 := by
  unfold addWeight
  split <;> omega

theorem sum_addWeight_le : ∀ l : List SparseThread, (l.map addWeight).sum ≤ 2 * l.length
  | [] => by simp
  | a :: l => by
    have := sum_addWeight_le l
    have := addWeight_le a
    simp only [List.map_cons, List.sum_cons, List.length_cons]
    omega

structure SpareInv (p : SparseProblem V) (cap T : ℕ) (s : SparseState V) : Prop where
  sizes : Sizes { p with maxNnz := cap } s
  len : s.threads.length = T
  bound : s.nnz + (s.threads.map addWeight).sum + 1 ≤ p.maxNnz + 2 * T

theorem Sizes.set_threads {p : SparseProblem V} {s : SparseState V} (h : Sizes p s) (l : List SparseThread) :
    Sizes p { s with threads := l } := ⟨h.rows, h.cols, h.data, h.nnz⟩

theorem spareStep {p : SparseProblem V} {T : ℕ} {s : SparseState V} {m : SparseMove} {th : SparseThread}
    (h : SpareInv p (p.maxNnz + 2 * T - 1) T s) (ht : s.threads[m.thread]? = some th) (hf : s.nnz ≤ m.seenNnz) :
    ∃ s', sparseStep p s m th = .ok s' ∧ SpareInv p (p.maxNnz + 2 * T - 1) T s' := by
  set cap := p.maxNnz + 2 * T - 1 with hcap
  have put : ∀ (s1 : SparseState V) th', Sizes { p with maxNnz := cap } s1 → s1.threads = s.threads →
      s1.nnz + addWeight th' ≤ s.nnz + addWeight th →
      SpareInv p cap T { s1 with threads := s1.threads.set m.thread th' } := by
    intro s1 th' z1 h2 h3
    refine ⟨z1.set_threads _, by simp [h2, h.len], ?_⟩
    have := sum_map_set addWeight s.threads m.thread th th' ht
    have := h.bound
    simp only [h2]
    omega
  obtain ⟨pos, rest⟩ := th
  unfold sparseStep
  cases pos with
  | idle =>
    cases rest with
    | cons i rest => exact ⟨_, rfl, put s _ h.sizes rfl (by simp [addWeight])⟩
    | nil =>
      simp only
      split_ifs
      · exact ⟨_, rfl, put { s with next := _ } _ ⟨h.sizes.rows, h.sizes.cols, h.sizes.data, h.sizes.nnz⟩ rfl
          (by simp [addWeight])⟩
      · exact ⟨_, rfl, h⟩
  | row i =>
    refine ⟨_, rfl, put s _ h.sizes rfl ?_⟩
    simp only [addWeight]
    split_ifs <;> simp
  | col i j =>
    simp only
    split_ifs with hj ha hge
    · exact ⟨_, rfl, put s _ h.sizes rfl (by simp [addWeight])⟩
    · refine ⟨_, rfl, h.sizes.set_threads _, by simp [h.len], ?_⟩
      have h1 := sum_addWeight_le (s.threads.set m.thread ⟨.add i j, rest⟩)
      rw [List.length_set, h.len] at h1
      simp only
      omega
    · exact ⟨_, rfl, put s _ h.sizes rfl (by simp [addWeight])⟩
    · exact ⟨_, rfl, put s _ h.sizes rfl (by simp [addWeight])⟩
  | stop i j =>
    exact ⟨_, rfl, put { s with success := false } _ ⟨h.sizes.rows, h.sizes.cols, h.sizes.data, h.sizes.nnz⟩ rfl
      (by simp [addWeight])⟩
  | add i j =>
    have hle : s.nnz + 2 ≤ cap := by
      obtain ⟨r, hr⟩ := le_sum_map addWeight s.threads m.thread _ ht
      have hb := h.bound
      rw [hr] at hb
      simp only [addWeight] at hb
      omega
    obtain ⟨s1, h1⟩ := sparseAdd_exists (p := { p with maxNnz := cap }) h.sizes i j (by
      simp only
      split_ifs <;> omega)
    have h1' : sparseAdd p s i j = .ok s1 := h1
    obtain ⟨z1, e1, x1, u1, t1⟩ := sparseAdd_ok (p := { p with maxNnz := cap }) h.sizes i j h1
    simp only [h1', bind, Except.bind]
    refine ⟨_, rfl, put s1 _ z1 t1 ?_⟩
    have hc := congrArg Multiset.card e1
    rw [Multiset.coe_card, Multiset.card_add, Multiset.coe_card, card_triples, z1.length, h.sizes.length] at hc
    simp only [addWeight]
    split_ifs at hc <;> omega

theorem freshRun_spare {p : SparseProblem V} {T : ℕ} {s : SparseState V} {out : Except Fault (SparseState V)}
    (hrun : FreshRun p s out) : SpareInv p (p.maxNnz + 2 * T - 1) T s → ∃ s', out = .ok s' := by
  induction hrun with
  | done _ _ => intro _; exact ⟨_, rfl⟩
  | fault ht _ hf hst =>
    intro h
    obtain ⟨s', h1, _⟩ := spareStep h ht hf
    rw [h1] at hst
    simp at hst
  | step ht _ hf hst _ ih =>
    intro h
    obtain ⟨s1, h1, hn1⟩ := spareStep h ht hf
    rw [h1, Except.ok.injEq] at hst
    subst hst
    exact ih hn1

end Imate.Sample
