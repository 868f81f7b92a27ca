import Verif.Model.Correlation
import Verif.Spec.SparseCorrelation
import Mathlib.Data.Multiset.Bind
import Mathlib.Algebra.Order.BigOperators.Group.List

/-!
# The sparse loop under every schedule
-/

namespace Imate.Sample

variable {V : Type}

/-! ### Lists -/

theorem sum_map_set {α M : Type*} [AddCommMonoid M] (f : α → M) : ∀ (l : List α) (t : ℕ) (x y : α), l[t]? = some x →
    ((l.set t y).map f).sum + f x = (l.map f).sum + f y
  | [], t, x, y, h => by simp at h
  | a :: l, 0, x, y, h => by
    simp at h
    subst h
    simp only [List.set_cons_zero, List.map_cons, List.sum_cons]
    abel
  | a :: l, t + 1, x, y, h => by
    have := sum_map_set f l t x y (by simpa using h)
    simp only [List.set_cons_succ, List.map_cons, List.sum_cons]
    rw [add_assoc, this, add_assoc]

theorem le_sum_map {α M : Type*} [AddCommMonoid M] (f : α → M) : ∀ (l : List α) (t : ℕ) (x : α), l[t]? = some x →
    ∃ r, (l.map f).sum = f x + r
  | [], t, x, h => by simp at h
  | a :: l, 0, x, h => by
    simp at h
    subst h
    exact ⟨_, rfl⟩
  | a :: l, t + 1, x, h => by
    obtain ⟨r, hr⟩ := le_sum_map f l t x (by simpa using h)
    refine ⟨f a + r, ?_⟩
    simp only [List.map_cons, List.sum_cons, hr]
    abel

theorem le_sum_map_two {α M : Type*} [AddCommMonoid M] (f : α → M) : ∀ (l : List α) (t u : ℕ) (x y : α), t ≠ u →
    l[t]? = some x → l[u]? = some y → ∃ r, (l.map f).sum = f x + f y + r
  | [], t, u, x, y, _, h, _ => by simp at h
  | a :: l, 0, 0, x, y, hne, _, _ => absurd rfl hne
  | a :: l, 0, u + 1, x, y, _, h, h' => by
    simp at h
    subst h
    obtain ⟨r, hr⟩ := le_sum_map f l u y (by simpa using h')
    refine ⟨r, ?_⟩
    simp only [List.map_cons, List.sum_cons, hr]
    abel
  | a :: l, t + 1, 0, x, y, _, h, h' => by
    simp at h'
    subst h'
    obtain ⟨r, hr⟩ := le_sum_map f l t x (by simpa using h)
    refine ⟨r, ?_⟩
    simp only [List.map_cons, List.sum_cons, hr]
    abel
  | a :: l, t + 1, u + 1, x, y, hne, h, h' => by
    obtain ⟨r, hr⟩ := le_sum_map_two f l t u x y (by omega) (by simpa using h) (by simpa using h')
    refine ⟨f a + r, ?_⟩
    simp only [List.map_cons, List.sum_cons, hr]
    abel

/-! ### What is left to do -/

/-- The pairs of the row `i` from the column `j` on. -/
def colPairs (p : SparseProblem V) (i j : ℕ) : Multiset (ℕ × ℕ) :=
  (((List.range' j (p.n - j)).filter fun j => p.above (p.entry i j)).map fun j => (i, j) : List (ℕ × ℕ))

theorem colPairs_end (p : SparseProblem V) {i j : ℕ} (h : ¬ j < p.n) : colPairs p i j = 0 := by
  have : p.n - j = 0 := by omega
  simp [colPairs, this]

theorem colPairs_step (p : SparseProblem V) {i j : ℕ} (h : j < p.n) :
    colPairs p i j = (if p.above (p.entry i j) then {(i, j)} else 0) + colPairs p i (j + 1) := by
  have : p.n - j = (p.n - (j + 1)) + 1 := by omega
  rw [colPairs, this, List.range'_succ, List.filter_cons]
  split_ifs
  · rw [List.map_cons, ← Multiset.cons_coe, ← Multiset.singleton_add]
    rfl
  · rw [zero_add]
    rfl

def rowsPairs (p : SparseProblem V) (l : List ℕ) : Multiset (ℕ × ℕ) := (l.map fun i => colPairs p i i).sum

def posPairs (p : SparseProblem V) : SparsePos → Multiset (ℕ × ℕ)
  | .idle => 0
  | .row i => colPairs p i i
  | .col i j => colPairs p i j
  | .stop i j => colPairs p i j
  | .add i j => {(i, j)} + colPairs p i (j + 1)

def threadPairs (p : SparseProblem V) (th : SparseThread) : Multiset (ℕ × ℕ) := posPairs p th.pos + rowsPairs p th.rest

def remaining (p : SparseProblem V) (s : SparseState V) : Multiset (ℕ × ℕ) :=
  rowsPairs p (List.range' s.next (p.n - s.next)) + (s.threads.map (threadPairs p)).sum

/-- The triples stored for a pair. -/
def triples (p : SparseProblem V) (q : ℕ × ℕ) : Multiset (ℕ × ℕ × V) :=
  {(q.1, q.2, p.entry q.1 q.2)} + if q.1 ≠ q.2 then {(q.2, q.1, p.entry q.1 q.2)} else 0

theorem card_triples (p : SparseProblem V) (q : ℕ × ℕ) :
    Multiset.card (triples p q) = if q.1 ≠ q.2 then 2 else 1 := by
  unfold triples
  split_ifs <;> simp

def allTriples (p : SparseProblem V) : Multiset (ℕ × ℕ × V) := (rowsPairs p (List.range' 0 p.n)).bind (triples p)

/-! ### Storing -/

theorem take_set {α : Type} (a : Array α) {k : ℕ} (h : k < a.size) (x : α) :
    (a.set k x).toList.take (k + 1) = a.toList.take k ++ [x] := by
  rw [Array.toList_set, List.take_succ, List.take_set_of_le le_rfl]
  simp [h]

structure Sizes (p : SparseProblem V) (s : SparseState V) : Prop where
  rows : s.rows.size = p.maxNnz
  cols : s.cols.size = p.maxNnz
  data : s.data.size = p.maxNnz
  nnz : s.nnz ≤ p.maxNnz

theorem Sizes.length {p : SparseProblem V} {s : SparseState V} (h : Sizes p s) : s.entries.length = s.nnz := by
  simp [SparseState.entries, h.rows, h.cols, h.data, h.nnz]

theorem sparsePush_ok {p : SparseProblem V} {s : SparseState V} (h : Sizes p s) (hlt : s.nnz < p.maxNnz) (i j : ℕ)
    (v : V) :
    ∃ s', sparsePush s i j v = .ok s' ∧ Sizes p s' ∧ s'.entries = s.entries ++ [(i, j, v)] ∧ s'.nnz = s.nnz + 1 ∧
      s'.next = s.next ∧ s'.success = s.success ∧ s'.threads = s.threads := by
  have h1 : s.nnz < s.rows.size := by rw [h.rows]; exact hlt
  have h2 : s.nnz < s.cols.size := by rw [h.cols]; exact hlt
  have h3 : s.nnz < s.data.size := by rw [h.data]; exact hlt
  refine ⟨{ s with nnz := s.nnz + 1, rows := s.rows.set s.nnz i, cols := s.cols.set s.nnz j,
                   data := s.data.set s.nnz v }, ?_, ⟨?_, ?_, ?_, ?_⟩, ?_, rfl, rfl, rfl, rfl⟩
  · simp [sparsePush, wr, h1, h2, h3, bind, Except.bind]
  · simp [h.rows]
  · simp [h.cols]
  · simp [h.data]
  · exact hlt
  · simp only [SparseState.entries]
    rw [take_set _ h1, take_set _ h2, take_set _ h3, List.zip_append, List.zip_append]
    · rfl
    · simp; omega
    · simp; omega

theorem sparsePush_error {p : SparseProblem V} {s : SparseState V} (h : Sizes p s) (hge : p.maxNnz ≤ s.nnz) (i j : ℕ)
    (v : V) : sparsePush s i j v = .error .outOfBounds := by
  have h1 : ¬ s.nnz < s.rows.size := by rw [h.rows]; omega
  simp [sparsePush, wr, h1, bind, Except.bind]

theorem sparseAdd_ok {p : SparseProblem V} {s : SparseState V} (h : Sizes p s) (i j : ℕ) {s' : SparseState V}
    (he : sparseAdd p s i j = .ok s') :
    Sizes p s' ∧ (s'.entries : Multiset (ℕ × ℕ × V)) = (s.entries : Multiset (ℕ × ℕ × V)) + triples p (i, j) ∧
      s'.next = s.next ∧ s'.success = s.success ∧ s'.threads = s.threads := by
  have hlt : s.nnz < p.maxNnz := by
    by_contra hc
    rw [sparseAdd, sparsePush_error h (not_lt.1 hc)] at he
    simp [bind, Except.bind] at he
  obtain ⟨s1, h1, z1, e1, n1, x1, u1, t1⟩ := sparsePush_ok h hlt i j (p.entry i j)
  rw [sparseAdd, h1] at he
  simp only [bind, Except.bind] at he
  by_cases hij : i = j
  · simp only [hij, ne_eq, not_true, if_false, Except.ok.injEq] at he
    subst he
    refine ⟨z1, ?_, x1, u1, t1⟩
    rw [e1, ← Multiset.coe_add]
    simp [triples, hij]
  · simp only [ne_eq, hij, not_false_eq_true, if_true] at he
    have hlt1 : s1.nnz < p.maxNnz := by
      by_contra hc
      rw [sparsePush_error z1 (not_lt.1 hc)] at he
      simp at he
    obtain ⟨s2, h2, z2, e2, n2, x2, u2, t2⟩ := sparsePush_ok z1 hlt1 j i (p.entry i j)
    rw [h2, Except.ok.injEq] at he
    subst he
    refine ⟨z2, ?_, x2.trans x1, u2.trans u1, t2.trans t1⟩
    rw [e2, e1, ← Multiset.coe_add, ← Multiset.coe_add, add_assoc]
    simp [triples, hij]

theorem sparseAdd_exists {p : SparseProblem V} {s : SparseState V} (h : Sizes p s) (i j : ℕ)
    (hroom : s.nnz + (if i ≠ j then 2 else 1) ≤ p.maxNnz) : ∃ s', sparseAdd p s i j = .ok s' := by
  obtain ⟨s1, h1, z1, e1, n1, x1, u1, t1⟩ := sparsePush_ok h (by split_ifs at hroom <;> omega) i j (p.entry i j)
  by_cases hij : i = j
  · subst hij
    exact ⟨s1, by simp [sparseAdd, h1, bind, Except.bind]⟩
  · rw [if_pos hij] at hroom
    obtain ⟨s2, h2, -⟩ := sparsePush_ok z1 (by omega) j i (p.entry i j)
    exact ⟨s2, by simp [sparseAdd, h1, hij, h2, bind, Except.bind]⟩

/-! ### The invariant -/

structure SparseInv (p : SparseProblem V) (s : SparseState V) : Prop where
  sizes : Sizes p s
  sum : s.success = true → (s.entries : Multiset (ℕ × ℕ × V)) + (remaining p s).bind (triples p) = allTriples p

theorem remaining_set {p : SparseProblem V} {s s1 : SparseState V} {t : ℕ} {th th' : SparseThread}
    (ht : s.threads[t]? = some th) (h1 : s1.next = s.next) (h2 : s1.threads = s.threads) :
    remaining p { s1 with threads := s1.threads.set t th' } + threadPairs p th =
      remaining p s + threadPairs p th' := by
  simp only [remaining, h1, h2]
  rw [add_assoc, sum_map_set (threadPairs p) s.threads t th th' ht, add_assoc]

theorem sparseStep_inv {p : SparseProblem V} {s s' : SparseState V} {m : SparseMove} {th : SparseThread}
    (h : SparseInv p s) (ht : s.threads[m.thread]? = some th) (hm : m.Possible s)
    (he : sparseStep p s m th = .ok s') : SparseInv p s' := by
  -- a move that stores nothing and leaves the pairs of the thread as they are
  have same : ∀ th', threadPairs p th' = threadPairs p th →
      SparseInv p { s with threads := s.threads.set m.thread th' } := by
    intro th' hth
    refine ⟨⟨h.sizes.rows, h.sizes.cols, h.sizes.data, h.sizes.nnz⟩, fun hs => ?_⟩
    have := remaining_set (p := p) (th' := th') ht (s1 := s) rfl rfl
    rw [hth] at this
    rw [add_right_cancel this]
    exact h.sum hs
  obtain ⟨pos, rest⟩ := th
  unfold sparseStep at he
  cases pos with
  | idle =>
    cases rest with
    | cons i rest =>
      simp only [Except.ok.injEq] at he
      subst he
      exact same _ (by simp [threadPairs, posPairs, rowsPairs])
    | nil =>
      simp only at he
      split_ifs at he with hlt
      · simp only [Except.ok.injEq] at he
        subst he
        refine ⟨⟨h.sizes.rows, h.sizes.cols, h.sizes.data, h.sizes.nnz⟩, fun hs => ?_⟩
        rw [← h.sum hs]
        have hsplit : List.range' s.next (p.n - s.next) =
            List.range' s.next (min (s.next + p.chunk) p.n - s.next) ++
              List.range' (min (s.next + p.chunk) p.n) (p.n - min (s.next + p.chunk) p.n) := by
          rw [show p.n - s.next = (min (s.next + p.chunk) p.n - s.next) + (p.n - min (s.next + p.chunk) p.n) by omega,
            ← List.range'_append_1, show s.next + (min (s.next + p.chunk) p.n - s.next) = min (s.next + p.chunk) p.n by
              omega]
        have hsum := sum_map_set (threadPairs p) s.threads m.thread _
          ⟨.idle, List.range' s.next (min (s.next + p.chunk) p.n - s.next)⟩ ht
        simp only [threadPairs, posPairs, rowsPairs, List.map_nil, List.sum_nil, add_zero, zero_add] at hsum
        congr 2
        simp only [remaining]
        rw [rowsPairs, rowsPairs, hsplit, List.map_append, List.sum_append]
        have hsum' : ((s.threads.set m.thread
            ⟨.idle, List.range' s.next (min (s.next + p.chunk) p.n - s.next)⟩).map (threadPairs p)).sum =
            (s.threads.map (threadPairs p)).sum +
              ((List.range' s.next (min (s.next + p.chunk) p.n - s.next)).map fun i => colPairs p i i).sum := hsum
        rw [hsum']
        abel
      · simp only [Except.ok.injEq] at he
        subst he
        exact h
  | row i =>
    simp only [Except.ok.injEq] at he
    subst he
    by_cases hseen : m.seenSuccess = true
    · simp only [hseen, if_true]
      exact same _ (by simp [threadPairs, posPairs])
    · refine ⟨⟨h.sizes.rows, h.sizes.cols, h.sizes.data, h.sizes.nnz⟩, fun hs => ?_⟩
      have := hm.1 (by simpa using hseen)
      exact absurd hs (by simp [this])
  | col i j =>
    simp only at he
    split_ifs at he with hj ha hn
    · simp only [Except.ok.injEq] at he
      subst he
      exact same _ (by simp [threadPairs, posPairs])
    · simp only [Except.ok.injEq] at he
      subst he
      refine same _ ?_
      simp only [threadPairs, posPairs]
      rw [colPairs_step p hj, if_pos ha]
    · simp only [Except.ok.injEq] at he
      subst he
      refine same _ ?_
      simp only [threadPairs, posPairs]
      rw [colPairs_step p hj, if_neg ha, zero_add]
    · simp only [Except.ok.injEq] at he
      subst he
      refine same _ ?_
      simp only [threadPairs, posPairs]
      rw [colPairs_end p hj]
  | stop i j =>
    simp only [Except.ok.injEq] at he
    subst he
    exact ⟨⟨h.sizes.rows, h.sizes.cols, h.sizes.data, h.sizes.nnz⟩, fun hs => by simp at hs⟩
  | add i j =>
    simp only at he
    cases ha : sparseAdd p s i j with
    | error f => rw [ha] at he; simp [bind, Except.bind] at he
    | ok s1 =>
      rw [ha] at he
      simp only [bind, Except.bind, Except.ok.injEq] at he
      subst he
      obtain ⟨z1, e1, x1, u1, t1⟩ := sparseAdd_ok h.sizes i j ha
      refine ⟨⟨z1.rows, z1.cols, z1.data, z1.nnz⟩, fun hs => ?_⟩
      have hs0 : s.success = true := by rw [← u1]; exact hs
      have hrem := remaining_set (p := p) (th' := ⟨.col i (j + 1), rest⟩) ht x1 t1
      have hrem' : remaining p { s1 with threads := s1.threads.set m.thread ⟨.col i (j + 1), rest⟩ } + {(i, j)} =
          remaining p s := by
        simp only [threadPairs, posPairs] at hrem
        refine add_right_cancel (b := colPairs p i (j + 1) + rowsPairs p rest) ?_
        rw [← hrem]
        abel
      rw [← h.sum hs0, ← hrem']
      have : ({ s1 with threads := s1.threads.set m.thread ⟨.col i (j + 1), rest⟩ } : SparseState V).entries =
          s1.entries := rfl
      rw [this, e1, Multiset.add_bind, Multiset.singleton_bind]
      abel

/-- While the flag is up, the number of stored triples and those of any two threads fit in the total. -/
theorem SparseInv.count {p : SparseProblem V} {s : SparseState V} (h : SparseInv p s) (hs : s.success = true) :
    s.nnz + Multiset.card ((remaining p s).bind (triples p)) = Multiset.card (allTriples p) := by
  rw [← h.sum hs, Multiset.card_add, Multiset.coe_card, h.sizes.length]

theorem SparseInv.room {p : SparseProblem V} {s : SparseState V} (h : SparseInv p s) (hs : s.success = true)
    {t : ℕ} {th : SparseThread} (ht : s.threads[t]? = some th) :
    s.nnz + Multiset.card ((threadPairs p th).bind (triples p)) ≤ Multiset.card (allTriples p) := by
  rw [← h.count hs]
  obtain ⟨r, hr⟩ := le_sum_map (threadPairs p) s.threads t th ht
  rw [remaining, hr]
  simp only [Multiset.add_bind, Multiset.card_add]
  omega

theorem SparseInv.room_two {p : SparseProblem V} {s : SparseState V} (h : SparseInv p s) (hs : s.success = true)
    {t u : ℕ} {th th' : SparseThread} (hne : t ≠ u) (ht : s.threads[t]? = some th) (hu : s.threads[u]? = some th') :
    s.nnz + Multiset.card ((threadPairs p th).bind (triples p)) + Multiset.card ((threadPairs p th').bind (triples p)) ≤
      Multiset.card (allTriples p) := by
  rw [← h.count hs]
  obtain ⟨r, hr⟩ := le_sum_map_two (threadPairs p) s.threads t u th th' hne ht hu
  rw [remaining, hr]
  simp only [Multiset.add_bind, Multiset.card_add]
  omega

/-- No thread is about to give up. -/
def NoStop (s : SparseState V) : Prop := s.success = true ∧ ∀ th ∈ s.threads, ∀ i j, th.pos ≠ .stop i j

/-- With room for all triples a step neither faults nor gives up. -/
theorem sparseStep_room {p : SparseProblem V} {s : SparseState V} {m : SparseMove} {th : SparseThread}
    (hroom : Multiset.card (allTriples p) ≤ p.maxNnz) (h : SparseInv p s) (hn : NoStop s)
    (ht : s.threads[m.thread]? = some th) (hm : m.Possible s) :
    ∃ s', sparseStep p s m th = .ok s' ∧ NoStop s' := by
  have put : ∀ (s1 : SparseState V) th', s1.success = true → s1.threads = s.threads →
      (∀ i j, th'.pos ≠ .stop i j) → NoStop { s1 with threads := s1.threads.set m.thread th' } := by
    intro s1 th' h1 h2 h3
    refine ⟨h1, fun x hx => ?_⟩
    rcases List.mem_or_eq_of_mem_set hx with hx | rfl
    · exact hn.2 x (by rw [← h2]; exact hx)
    · exact h3
  obtain ⟨pos, rest⟩ := th
  unfold sparseStep
  cases pos with
  | idle =>
    cases rest with
    | cons i rest => exact ⟨_, rfl, put s _ hn.1 rfl (by simp)⟩
    | nil =>
      simp only
      split_ifs
      · exact ⟨_, rfl, put { s with next := _ } _ hn.1 rfl (by simp)⟩
      · exact ⟨_, rfl, hn⟩
  | row i => exact ⟨_, rfl, put s _ hn.1 rfl (by intro i' j'; simp only; split_ifs <;> simp)⟩
  | col i j =>
    simp only
    split_ifs with hj ha hge
    · exfalso
      have hpairs : 1 ≤ Multiset.card ((threadPairs p ⟨.col i j, rest⟩).bind (triples p)) := by
        simp only [threadPairs, posPairs]
        rw [colPairs_step p hj, if_pos ha]
        simp only [Multiset.add_bind, Multiset.card_add, Multiset.singleton_bind, card_triples]
        split_ifs <;> omega
      rcases hm.2 with hle | ⟨heq, t, i', j', rest', hne, hij, hadd⟩
      · have := h.room hn.1 ht
        omega
      · have := h.room_two hn.1 hne hadd ht
        have h2 : 2 ≤ Multiset.card ((threadPairs p ⟨.add i' j', rest'⟩).bind (triples p)) := by
          simp only [threadPairs, posPairs, Multiset.add_bind, Multiset.card_add, Multiset.singleton_bind,
            card_triples]
          rw [if_pos hij]
          omega
        omega
    · exact ⟨_, rfl, put s _ hn.1 rfl (by simp)⟩
    · exact ⟨_, rfl, put s _ hn.1 rfl (by simp)⟩
    · exact ⟨_, rfl, put s _ hn.1 rfl (by simp)⟩
  | stop i j => exact absurd rfl (hn.2 _ (List.mem_of_getElem? ht) i j)
  | add i j =>
    have hr := h.room hn.1 ht
    obtain ⟨s1, h1⟩ := sparseAdd_exists h.sizes i j (by
      simp only [threadPairs, posPairs, Multiset.add_bind, Multiset.card_add, Multiset.singleton_bind,
        card_triples] at hr
      omega)
    obtain ⟨_, _, _, u1, t1⟩ := sparseAdd_ok h.sizes i j h1
    simp only [h1, bind, Except.bind]
    exact ⟨_, rfl, put s1 _ (by rw [u1]; exact hn.1) t1 (by simp)⟩

theorem sparseStart_inv (p : SparseProblem V) (zero : V) (threads : ℕ) : SparseInv p (sparseStart p zero threads) := by
  refine ⟨⟨by simp [sparseStart], by simp [sparseStart], by simp [sparseStart], by simp [sparseStart]⟩, fun _ => ?_⟩
  have : ((List.replicate threads (⟨.idle, []⟩ : SparseThread)).map (threadPairs p)).sum = 0 := by
    simp [threadPairs, posPairs, rowsPairs]
  simp only [remaining, sparseStart, this]
  simp [SparseState.entries, allTriples]

theorem sparseStart_noStop (p : SparseProblem V) (zero : V) (threads : ℕ) : NoStop (sparseStart p zero threads) := by
  refine ⟨rfl, fun th hth => ?_⟩
  obtain ⟨_, rfl⟩ := List.mem_replicate.1 hth
  simp

theorem sparseRun_inv {p : SparseProblem V} {s : SparseState V} {out : Except Fault (SparseState V)}
    (hrun : SparseRun p s out) : SparseInv p s → ∀ s', out = .ok s' → s'.success = true →
    (s'.entries : Multiset (ℕ × ℕ × V)) = allTriples p := by
  induction hrun with
  | @done s hnext hidle =>
    intro h s' he hs
    cases he
    rw [← h.sum hs]
    have h1 : p.n - s.next = 0 := by omega
    have h2 : (s.threads.map (threadPairs p)).sum = 0 := by
      refine List.sum_eq_zero fun x hx => ?_
      obtain ⟨th, hth, rfl⟩ := List.mem_map.1 hx
      rw [hidle th hth]
      simp [threadPairs, posPairs, rowsPairs]
    simp [remaining, h1, h2, rowsPairs]
  | fault => intro _ s' he; simp at he
  | step ht hm hst _ ih => intro h; exact ih (sparseStep_inv h ht hm hst)

theorem sparseRun_room {p : SparseProblem V} (hroom : Multiset.card (allTriples p) ≤ p.maxNnz) {s : SparseState V}
    {out : Except Fault (SparseState V)} (hrun : SparseRun p s out) : SparseInv p s → NoStop s →
    ∃ s', out = .ok s' ∧ s'.success = true := by
  induction hrun with
  | done _ _ => intro _ hn; exact ⟨_, rfl, hn.1⟩
  | fault ht hm hst =>
    intro h hn
    obtain ⟨s', h1, _⟩ := sparseStep_room hroom h hn ht hm
    rw [h1] at hst
    simp at hst
  | step ht hm hst _ ih =>
    intro h hn
    obtain ⟨s1, h1, hn1⟩ := sparseStep_room hroom h hn ht hm
    rw [h1, Except.ok.injEq] at hst
    subst hst
    exact ih (sparseStep_inv h ht hm h1) hn1

/-! ### Termination -/

def posWeight (n : ℕ) : SparsePos → ℕ
  | .idle => 0
  | .row _ => 3 * n + 2
  | .col _ j => 3 * (n - j) + 1
  | .stop _ _ => 1
  | .add _ j => 3 * (n - (j + 1)) + 2

def threadWeight (n : ℕ) (th : SparseThread) : ℕ := posWeight n th.pos + th.rest.length * (3 * n + 3)

def weight (p : SparseProblem V) (s : SparseState V) : ℕ :=
  (p.n - s.next) * (3 * p.n + 4) + (s.threads.map (threadWeight p.n)).sum

/-- A thread that has something to do. -/
def Busy (p : SparseProblem V) (s : SparseState V) (th : SparseThread) : Prop := th ≠ ⟨.idle, []⟩ ∨ s.next < p.n

theorem sparseStep_weight {p : SparseProblem V} (hc : 0 < p.chunk) {s s' : SparseState V} {m : SparseMove}
    {th : SparseThread} (ht : s.threads[m.thread]? = some th) (hb : Busy p s th)
    (he : sparseStep p s m th = .ok s') : weight p s' < weight p s := by
  have put : ∀ (s1 : SparseState V) th', s1.next = s.next → s1.threads = s.threads →
      threadWeight p.n th' < threadWeight p.n th →
      weight p { s1 with threads := s1.threads.set m.thread th' } < weight p s := by
    intro s1 th' h1 h2 h3
    have := sum_map_set (threadWeight p.n) s.threads m.thread th th' ht
    simp only [weight, h1, h2]
    omega
  obtain ⟨pos, rest⟩ := th
  unfold sparseStep at he
  cases pos with
  | idle =>
    cases rest with
    | cons i rest =>
      simp only [Except.ok.injEq] at he
      subst he
      refine put s _ rfl rfl ?_
      simp only [threadWeight, posWeight, List.length_cons, Nat.add_mul]
      omega
    | nil =>
      simp only at he
      split_ifs at he with hlt
      · simp only [Except.ok.injEq] at he
        subst he
        have := sum_map_set (threadWeight p.n) s.threads m.thread _
          ⟨.idle, List.range' s.next (min (s.next + p.chunk) p.n - s.next)⟩ ht
        simp only [threadWeight, posWeight, List.length_nil, List.length_range', zero_mul, add_zero, zero_add] at this
        simp only [weight]
        have h2 : ((s.threads.set m.thread
            ⟨.idle, List.range' s.next (min (s.next + p.chunk) p.n - s.next)⟩).map (threadWeight p.n)).sum =
            (s.threads.map (threadWeight p.n)).sum + (min (s.next + p.chunk) p.n - s.next) * (3 * p.n + 3) := this
        rw [h2]
        have h3 : p.n - s.next = (p.n - min (s.next + p.chunk) p.n) + (min (s.next + p.chunk) p.n - s.next) := by omega
        have h4 : 0 < min (s.next + p.chunk) p.n - s.next := by omega
        rw [h3]
        generalize min (s.next + p.chunk) p.n - s.next = k at h4 ⊢
        generalize p.n - min (s.next + p.chunk) p.n = l
        have : k * (3 * p.n + 4) = k * (3 * p.n + 3) + k := by ring
        rw [Nat.add_mul, this]
        omega
      · rcases hb with hb | hb
        · exact absurd rfl hb
        · exact absurd hb hlt
  | row i =>
    simp only [Except.ok.injEq] at he
    subst he
    refine put s _ rfl rfl ?_
    simp only [threadWeight]
    split_ifs <;> simp only [posWeight] <;> omega
  | col i j =>
    simp only at he
    split_ifs at he with hj ha hge <;> simp only [Except.ok.injEq] at he <;> subst he <;> refine put s _ rfl rfl ?_ <;>
      simp only [threadWeight, posWeight] <;> omega
  | stop i j =>
    simp only [Except.ok.injEq] at he
    subst he
    refine put { s with success := false } _ rfl rfl ?_
    simp only [threadWeight, posWeight]
    omega
  | add i j =>
    simp only at he
    cases ha : sparseAdd p s i j with
    | error f => rw [ha] at he; simp [bind, Except.bind] at he
    | ok s1 =>
      rw [ha] at he
      simp only [bind, Except.bind, Except.ok.injEq] at he
      subst he
      have hpush : ∀ {s s' : SparseState V} {i j v}, sparsePush s i j v = .ok s' →
          s'.next = s.next ∧ s'.threads = s.threads := by
        intro s s' i j v h
        unfold sparsePush at h
        simp only [bind, Except.bind] at h
        split at h
        · simp at h
        · split at h
          · simp at h
          · split at h
            · simp at h
            · simp only [Except.ok.injEq] at h
              subst h
              exact ⟨rfl, rfl⟩
      have hadd : s1.next = s.next ∧ s1.threads = s.threads := by
        unfold sparseAdd at ha
        simp only [bind, Except.bind] at ha
        split at ha
        · simp at ha
        · rename_i s0 h0
          have h0 := hpush h0
          split_ifs at ha
          · have h1 := hpush ha
            exact ⟨h1.1.trans h0.1, h1.2.trans h0.2⟩
          · simp only [Except.ok.injEq] at ha
            subst ha
            exact h0
      refine put s1 _ hadd.1 hadd.2 ?_
      simp only [threadWeight, posWeight]
      omega

/-- With room for all triples and at least one thread, there is a run that finishes. -/
theorem sparseRun_exists {p : SparseProblem V} (hc : 0 < p.chunk) (hroom : Multiset.card (allTriples p) ≤ p.maxNnz) :
    ∀ (w : ℕ) (s : SparseState V), weight p s = w → SparseInv p s → NoStop s → s.threads ≠ [] →
      ∃ s', SparseRun p s (.ok s') := by
  intro w
  induction w using Nat.strong_induction_on with
  | _ w ih =>
    intro s hw h hn hth
    by_cases hdone : s.next ≥ p.n ∧ ∀ th ∈ s.threads, th = ⟨.idle, []⟩
    · exact ⟨s, .done hdone.1 hdone.2⟩
    · have hbusy : ∃ (t : ℕ) (th : SparseThread), s.threads[t]? = some th ∧ Busy p s th := by
        by_cases hx : s.next < p.n
        · obtain ⟨th, l, hl⟩ := List.exists_cons_of_ne_nil hth
          exact ⟨0, th, by simp [hl], .inr hx⟩
        · have : ¬ ∀ th ∈ s.threads, th = ⟨.idle, []⟩ := fun h => hdone ⟨not_lt.1 hx, h⟩
          push Not at this
          obtain ⟨th, hmem, hne⟩ := this
          obtain ⟨t, ht, rfl⟩ := List.mem_iff_getElem.1 hmem
          exact ⟨t, _, List.getElem?_eq_getElem ht, .inl hne⟩
      obtain ⟨t, th, ht, hb⟩ := hbusy
      let m : SparseMove := ⟨t, s.success, s.nnz⟩
      have hm : m.Possible s := ⟨fun h => h, .inl le_rfl⟩
      obtain ⟨s1, h1, hn1⟩ := sparseStep_room (m := m) hroom h hn ht hm
      have hlt := sparseStep_weight (m := m) hc ht hb h1
      have hth1 : s1.threads ≠ [] := by
        intro hnil
        obtain ⟨pos, rest⟩ := th
        have hlen : s1.threads.length = s.threads.length := by
          unfold sparseStep at h1
          cases pos with
          | idle =>
            cases rest with
            | cons i rest => simp only [Except.ok.injEq] at h1; subst h1; simp
            | nil => simp only at h1; split_ifs at h1 <;> simp only [Except.ok.injEq] at h1 <;> subst h1 <;> simp
          | row i => simp only [Except.ok.injEq] at h1; subst h1; simp
          | col i j => simp only at h1; split_ifs at h1 <;> simp only [Except.ok.injEq] at h1 <;> subst h1 <;> simp
          | stop i j => simp only [Except.ok.injEq] at h1; subst h1; simp
          | add i j =>
            simp only at h1
            cases ha : sparseAdd p s i j with
            | error f => rw [ha] at h1; simp [bind, Except.bind] at h1
            | ok s2 =>
              rw [ha] at h1
              simp only [bind, Except.bind, Except.ok.injEq] at h1
              subst h1
              simp [(sparseAdd_ok h.sizes i j ha).2.2.2.2]
        rw [hnil] at hlen
        exact hth (List.eq_nil_of_length_eq_zero hlen.symm)
      obtain ⟨s', hr⟩ := ih _ (by omega) s1 rfl (sparseStep_inv h ht hm h1) hn1 hth1
      exact ⟨s', .step (m := m) ht hm h1 hr⟩

end Imate.Sample
