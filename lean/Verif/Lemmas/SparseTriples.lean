import Verif.Lemmas.Sparse
import Mathlib.Algebra.BigOperators.Intervals

/-!
# The triples of the sparse loop are those of the specification; a run with one thread
-/

namespace Imate.Sample

open Imate.Spec

variable {V : Type}

theorem sum_range' {M : Type*} [AddCommMonoid M] (f : ℕ → M) (a : ℕ) :
    ∀ k, ((List.range' a k).map f).sum = ∑ i ∈ Finset.Ico a (a + k), f i
  | 0 => by simp
  | k + 1 => by
    rw [List.range'_1_concat, List.map_append, List.sum_append, sum_range' f a k, ← add_assoc,
      Finset.sum_Ico_succ_top (by omega)]
    simp

theorem sum_square {M : Type*} [AddCommMonoid M] (g : ℕ → ℕ → M) (n : ℕ) :
    ∑ i ∈ Finset.Ico 0 n, ∑ j ∈ Finset.Ico i n, (g i j + if i ≠ j then g j i else 0) =
      ∑ i ∈ Finset.Ico 0 n, ∑ j ∈ Finset.Ico 0 n, g i j := by
  induction n with
  | zero => simp
  | succ n ih =>
    have h1 : ∑ i ∈ Finset.Ico 0 (n + 1), ∑ j ∈ Finset.Ico i (n + 1), (g i j + if i ≠ j then g j i else 0) =
        ∑ i ∈ Finset.Ico 0 n, (∑ j ∈ Finset.Ico i n, (g i j + if i ≠ j then g j i else 0) + (g i n + g n i)) +
          g n n := by
      rw [Finset.sum_Ico_succ_top (by omega)]
      congr 1
      · refine Finset.sum_congr rfl fun i hi => ?_
        have hi' := (Finset.mem_Ico.1 hi).2
        rw [Finset.sum_Ico_succ_top (by omega), if_pos (by omega)]
      · simp
    have h2 : ∑ i ∈ Finset.Ico 0 (n + 1), ∑ j ∈ Finset.Ico 0 (n + 1), g i j =
        ∑ i ∈ Finset.Ico 0 n, (∑ j ∈ Finset.Ico 0 n, g i j + g i n) + (∑ j ∈ Finset.Ico 0 n, g n j + g n n) := by
      rw [Finset.sum_Ico_succ_top (by omega)]
      congr 1
      · exact Finset.sum_congr rfl fun i _ => Finset.sum_Ico_succ_top (by omega) _
      · exact Finset.sum_Ico_succ_top (by omega) _
    rw [h1, h2, Finset.sum_add_distrib, Finset.sum_add_distrib, Finset.sum_add_distrib, ih]
    abel

theorem coe_flatMap {α β : Type*} (l : List α) (f : α → List β) :
    ((l.flatMap f : List β) : Multiset β) = (l.map fun x => (f x : Multiset β)).sum := by
  induction l with
  | nil => rfl
  | cons x l ih => rw [List.flatMap_cons, ← Multiset.coe_add, ih, List.map_cons, List.sum_cons]

theorem bind_sum {α β : Type*} (f : α → Multiset β) (l : List (Multiset α)) :
    l.sum.bind f = (l.map fun s => s.bind f).sum := by
  induction l with
  | nil => simp
  | cons x l ih => rw [List.sum_cons, Multiset.add_bind, ih, List.map_cons, List.sum_cons]

theorem colPairs_eq (p : SparseProblem V) (i : ℕ) : ∀ (k j : ℕ), p.n - j = k →
    colPairs p i j = ∑ j ∈ Finset.Ico j p.n, if p.above (p.entry i j) then {(i, j)} else 0
  | 0, j, h => by
    rw [colPairs_end p (by omega), Finset.Ico_eq_empty (by omega), Finset.sum_empty]
  | k + 1, j, h => by
    rw [colPairs_step p (by omega), colPairs_eq p i k (j + 1) (by omega),
      Finset.sum_eq_sum_Ico_succ_bot (show j < p.n by omega)]

theorem allTriples_eq (p : SparseProblem V) :
    allTriples p = (thresholdedEntries p.n p.entry p.above : Multiset (ℕ × ℕ × V)) := by
  let g : ℕ → ℕ → Multiset (ℕ × ℕ × V) := fun i j =>
    if p.above (p.entry (min i j) (max i j)) then {(i, j, p.entry (min i j) (max i j))} else 0
  have h1 : allTriples p =
      ∑ i ∈ Finset.Ico 0 p.n, ∑ j ∈ Finset.Ico i p.n, (g i j + if i ≠ j then g j i else 0) := by
    rw [allTriples, rowsPairs, bind_sum, List.map_map, sum_range', zero_add]
    refine Finset.sum_congr rfl fun i _ => ?_
    simp only [Function.comp]
    rw [colPairs_eq p i _ i rfl]
    have hb : ∀ s : Finset ℕ, (∑ j ∈ s, if p.above (p.entry i j) then ({(i, j)} : Multiset (ℕ × ℕ)) else 0).bind
        (triples p) = ∑ j ∈ s, if p.above (p.entry i j) then triples p (i, j) else 0 := by
      intro s
      induction s using Finset.induction_on with
      | empty => simp
      | insert a s ha ih =>
        rw [Finset.sum_insert ha, Finset.sum_insert ha, Multiset.add_bind, ih]
        congr 1
        split_ifs <;> simp
    rw [hb]
    refine Finset.sum_congr rfl fun j hj => ?_
    have hij := (Finset.mem_Ico.1 hj).1
    simp only [g, min_eq_left hij, max_eq_right hij, min_eq_right hij, max_eq_left hij, triples]
    by_cases ha : p.above (p.entry i j) = true <;> by_cases he : i = j <;> simp [ha, he]
  have h2 : (thresholdedEntries p.n p.entry p.above : Multiset (ℕ × ℕ × V)) =
      ∑ i ∈ Finset.Ico 0 p.n, ∑ j ∈ Finset.Ico 0 p.n, g i j := by
    rw [thresholdedEntries, coe_flatMap, List.range_eq_range', sum_range', zero_add]
    refine Finset.sum_congr rfl fun i _ => ?_
    rw [coe_flatMap, sum_range', zero_add]
    refine Finset.sum_congr rfl fun j _ => ?_
    simp only [g]
    split_ifs <;> rfl
  rw [h1, h2, sum_square]

/-- One thread that sees the present values. -/
def single (p : SparseProblem V) : ℕ → SparseState V → Option (Except Fault (SparseState V))
  | 0, _ => none
  | k + 1, s =>
    match s.threads with
    | [th] =>
      match sparseStep p s ⟨0, s.success, s.nnz⟩ th with
      | .error f => some (.error f)
      | .ok s' => single p k s'
    | _ => none

theorem single_sound {p : SparseProblem V} : ∀ {k : ℕ} {s : SparseState V} {f : Fault},
    single p k s = some (.error f) → SparseRun p s (.error f)
  | 0, s, f, h => by simp [single] at h
  | k + 1, s, f, h => by
    unfold single at h
    split at h
    · rename_i th hth
      have hm : SparseMove.Possible s ⟨0, s.success, s.nnz⟩ := ⟨fun h => h, .inl le_rfl⟩
      split at h
      · rename_i f' hf
        simp only [Option.some.injEq, Except.error.injEq] at h
        subst h
        exact .fault (m := ⟨0, s.success, s.nnz⟩) (by simp [hth]) hm hf
      · rename_i s' hs
        exact .step (m := ⟨0, s.success, s.nnz⟩) (by simp [hth]) hm hs (single_sound h)
    · simp at h

/-- Four rows with all entries above the threshold need 16 places; with 14 the second last pair is stored half outside
of the arrays. -/
theorem single_overflow (entry : ℕ → ℕ → V) (above : V → Bool) (h : ∀ i j, i < 4 → j < 4 → above (entry i j) = true)
    (zero : V) :
    single (⟨4, 4, 14, entry, above⟩ : SparseProblem V) 40 (sparseStart ⟨4, 4, 14, entry, above⟩ zero 1) =
      some (.error .outOfBounds) := by
  simp [sparseStart, single, sparseStep, sparseAdd, sparsePush, wr, bind, Except.bind, List.range', Array.replicate, h]

end Imate.Sample
