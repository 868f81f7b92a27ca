import Mathlib.Algebra.BigOperators.Intervals
import Mathlib.Algebra.Field.Rat
import Mathlib.Data.List.Permutation
import Mathlib.Tactic.FinCases
import Mathlib.Tactic.IntervalCases
import Mathlib.Tactic.NormNum
import Verif.Lemmas.Wrapper

/-!
# C61, C62, C63: the matrices of the user and the operators made from them
-/

namespace Imate.Props

open Imate.Wrapper Imate.Spec

variable {K : Type} [Field K]

/-- What SciPy promises of sorting one row: the same entries, in increasing order of the index. -/
def SortsRows (sort : List (ℕ × K) → List (ℕ × K)) : Prop :=
  ∀ l, (sort l).Perm l ∧ (sort l).Pairwise fun x y => x.1 ≤ y.1

omit [Field K] in
/-- Such a sorting exists. -/
theorem sortsRows_exists : ∃ sort : List (ℕ × K) → List (ℕ × K), SortsRows sort :=
  ⟨fun l => l.mergeSort fun x y => decide (x.1 ≤ y.1), fun l => ⟨List.mergeSort_perm _ _, by
    have := List.pairwise_mergeSort (le := fun x y : ℕ × K => decide (x.1 ≤ y.1))
      (fun a b c h1 h2 => by simp only [decide_eq_true_eq] at *; omega)
      (fun a b => by simp only [Bool.or_eq_true, decide_eq_true_eq]; omega) l
    exact this.imp (by simp)⟩⟩

/-- Two matrices that share either no array that is sorted in place, or all three arrays (as a matrix and its
transpose do). -/
def Separate (s : State K) (a o : ℕ) : Prop :=
  let x := s.objs a
  let y := s.objs o
  (y.data ≠ x.data ∧ y.indices ≠ x.indices ∧ y.indptr ≠ x.indices) ∨
    (y.data = x.data ∧ y.indices = x.indices ∧ y.indptr = x.indptr)

/-! ### C61: building an operator leaves the matrices of the user as they were -/

theorem ensureSorted_obj (sort : List (ℕ × K) → List (ℕ × K)) (s : State K) (a o : ℕ) :
    ∃ b, (s.ensureSorted sort a).objs o = { s.objs o with sortedFlag := b } := by
  unfold State.ensureSorted State.hasSorted
  cases hf : (s.objs a).sortedFlag with
  | some b =>
    simp only [hf]
    split_ifs
    · exact ⟨_, rfl⟩
    · by_cases ho : o = a
      · subst ho; exact ⟨some true, by simp⟩
      · exact ⟨(s.objs o).sortedFlag, by simp [ho]⟩
  | none =>
    simp only [hf]
    split_ifs
    · by_cases ho : o = a
      · subst ho; exact ⟨some _, by simp; rfl⟩
      · exact ⟨(s.objs o).sortedFlag, by simp [ho]⟩
    · by_cases ho : o = a
      · subst ho; exact ⟨some true, by simp⟩
      · exact ⟨(s.objs o).sortedFlag, by simp [ho]⟩

/-- The arrays after the check: unchanged, or sorted in place. -/
theorem ensureSorted_arrays (sort : List (ℕ × K) → List (ℕ × K)) (s : State K) (a : ℕ) :
    let x := s.objs a
    let t := sortIndices sort (s.idxs x.indptr) (s.idxs x.indices) (s.vals x.data)
    ((s.ensureSorted sort a).vals = s.vals ∧ (s.ensureSorted sort a).idxs = s.idxs) ∨
    ((s.ensureSorted sort a).vals = Function.update s.vals x.data t.2 ∧
      (s.ensureSorted sort a).idxs = Function.update s.idxs x.indices t.1) := by
  unfold State.ensureSorted State.hasSorted
  cases hf : (s.objs a).sortedFlag with
  | some b =>
    simp only [hf]
    split_ifs
    · exact .inl ⟨rfl, rfl⟩
    · exact .inr ⟨rfl, rfl⟩
  | none =>
    simp only [hf, Function.update_self]
    split_ifs
    · exact .inl ⟨rfl, rfl⟩
    · exact .inr ⟨rfl, rfl⟩

theorem ensureSorted_keeps {sort : List (ℕ × K) → List (ℕ × K)} (hs : SortsRows sort) (s : State K) {a o : ℕ}
    (hwf : (s.objs a).indices ≠ (s.objs a).indptr) (hsep : Separate s a o) {n m : ℕ} {M : Matrix (Fin n) (Fin m) K}
    (h : Represents (s.stored o) M) : Represents ((s.ensureSorted sort a).stored o) M := by
  obtain ⟨b, hb⟩ := ensureSorted_obj sort s a o
  rw [represents_iff] at h ⊢
  rw [hb]
  simp only
  rcases ensureSorted_arrays sort s a with ⟨h1, h2⟩ | ⟨h1, h2⟩
  · rw [h1, h2]; exact h
  · rw [h1, h2]
    rcases hsep with ⟨g1, g2, g3⟩ | ⟨g1, g2, g3⟩
    · rw [Function.update_of_ne g1, Function.update_of_ne g2, Function.update_of_ne g3]
      exact h
    · rw [g1, g2, g3, Function.update_self, Function.update_self, Function.update_of_ne hwf.symm]
      rw [g1, g2, g3] at h
      exact holds_sort h fun l => (hs l).1

/-- Making an operator of a matrix changes neither this matrix nor any other matrix that shares with it no array or all
its arrays (such as its transpose), and the operator holds the matrix: its products are those of the matrix
(`stored_dot_correct`).  Missing: matrices that share the indices only, see `shared_pattern_corrupted`. -/
theorem matrix_setup_partial {sort : List (ℕ × K) → List (ℕ × K)} (hs : SortsRows sort) (same : Bool) (s : State K)
    {a : ℕ} (hwf : (s.objs a).indices ≠ (s.objs a).indptr) :
    (∀ o, Separate s a o → ∀ {n m : ℕ} {M : Matrix (Fin n) (Fin m) K}, Represents (s.stored o) M →
      Represents ((newMatrix sort same s a).1.stored o) M) ∧
    ∀ {n m : ℕ} {M : Matrix (Fin n) (Fin m) K}, Represents (s.stored a) M →
      Represents ((newMatrix sort same s a).2.stored (newMatrix sort same s a).1) M := by
  refine ⟨fun o ho n m M h => ensureSorted_keeps hs s hwf ho h, fun {n m M} h => ?_⟩
  have h1 := ensureSorted_keeps hs s hwf (o := a) (.inr ⟨rfl, rfl, rfl⟩) h
  rw [represents_iff] at h1
  simp only [newMatrix, NativeOp.stored, capture]
  revert h1
  cases (((s.ensureSorted sort a).objs a).format) <;> cases same <;> exact id

theorem separate_ensureSorted {sort : List (ℕ × K) → List (ℕ × K)} {s : State K} (c : ℕ) {a o : ℕ}
    (h : Separate s a o) : Separate (s.ensureSorted sort c) a o := by
  obtain ⟨b, hb⟩ := ensureSorted_obj sort s c o
  obtain ⟨b', hb'⟩ := ensureSorted_obj sort s c a
  simp only [Separate, hb, hb'] at h ⊢
  exact h

/-- Making an affine matrix function of two matrices of the same type that share no array or all of them changes no
matrix that shares with either of them no array or all of them, and the operator holds both matrices.  Missing: `A` and
`B` with the same array of indices, see `affine_shared_pattern_wrong`. -/
theorem affine_setup_partial {sort : List (ℕ × K) → List (ℕ × K)} (hs : SortsRows sort) (same : Bool) (s : State K)
    {a b : ℕ} (hf : (s.objs a).format = (s.objs b).format) (ha : (s.objs a).indices ≠ (s.objs a).indptr)
    (hb : (s.objs b).indices ≠ (s.objs b).indptr) (hab : Separate s a b) (hba : Separate s b a) :
    ∃ s' pA pB, newAffine sort same s a b = .ok (s', pA, pB) ∧
      (∀ o, Separate s a o → Separate s b o → ∀ {n m : ℕ} {M : Matrix (Fin n) (Fin m) K},
        Represents (s.stored o) M → Represents (s'.stored o) M) ∧
      ∀ {n m : ℕ} {A B : Matrix (Fin n) (Fin m) K}, Represents (s.stored a) A → Represents (s.stored b) B →
        Represents (pA.stored s') A ∧ Represents (pB.stored s') B := by
  have hkeep : ∀ o, Separate s a o → Separate s b o → ∀ {n m : ℕ} {M : Matrix (Fin n) (Fin m) K},
      Represents (s.stored o) M → Represents (((s.ensureSorted sort a).ensureSorted sort b).stored o) M := by
    intro o ho1 ho2 n m M h
    refine ensureSorted_keeps hs _ ?_ (separate_ensureSorted a ho2) (ensureSorted_keeps hs s ha ho1 h)
    obtain ⟨x, hx⟩ := ensureSorted_obj sort s a b
    rw [hx]
    exact hb
  refine ⟨_, _, _, by simp only [newAffine, hf, ne_eq, not_true, if_false]; rfl, hkeep, fun {n m A B} hA hB => ?_⟩
  have h1 := hkeep a (.inr ⟨rfl, rfl, rfl⟩) hba hA
  have h2 := hkeep b hab (.inr ⟨rfl, rfl, rfl⟩) hB
  rw [represents_iff] at h1 h2
  constructor
  · simp only [NativeOp.stored, capture]
    revert h1
    cases (((s.ensureSorted sort a).ensureSorted sort b).objs a).format <;> cases same <;> exact id
  · simp only [NativeOp.stored, capture]
    revert h2
    cases (((s.ensureSorted sort a).ensureSorted sort b).objs b).format <;> cases same <;> exact id

/-- A matrix whose rows are sorted already is not written to, so then every other matrix is kept, whatever it shares
with this one. -/
theorem sorted_matrix_untouched (sort : List (ℕ × K) → List (ℕ × K)) (same : Bool) (s : State K) {a : ℕ}
    (hflag : (s.objs a).sortedFlag = some true ∨ (s.objs a).sortedFlag = none)
    (hsorted : rowsSorted (s.idxs (s.objs a).indptr) (s.idxs (s.objs a).indices) = true) (o : ℕ) :
    (newMatrix sort same s a).1.stored o = s.stored o := by
  have : (s.ensureSorted sort a).vals = s.vals ∧ (s.ensureSorted sort a).idxs = s.idxs := by
    unfold State.ensureSorted State.hasSorted
    rcases hflag with hf | hf <;> simp [hf, hsorted]
  obtain ⟨b, hb⟩ := ensureSorted_obj sort s a o
  simp only [newMatrix, State.stored, hb, this.1, this.2]

theorem csr_unique {n m : ℕ} {data : Array K} {idx ptr : Array ℕ} {M N : Matrix (Fin n) (Fin m) K}
    (h1 : CSRRepr data idx ptr M) (h2 : CSRRepr data idx ptr N) : M = N := by
  ext i j
  obtain ⟨lo, hi, a1, a2, -, -, -, a3⟩ := h1.2.2 i
  obtain ⟨lo', hi', b1, b2, -, -, -, b3⟩ := h2.2.2 i
  rw [a1] at b1
  rw [a2] at b2
  cases b1
  cases b2
  rw [a3, b3]

/-- Two matrices of size 2 with the same pattern, the first row of which is stored from right to left. -/
def sharedState : State ℚ where
  vals := fun i => if i = 0 then #[5, 7, 1] else #[1, 2, 1]
  idxs := fun i => if i = 0 then #[1, 0, 1] else #[0, 2, 3]
  objs := fun i => ⟨.csr, i, 0, 1, none⟩

def sharedA : Matrix (Fin 2) (Fin 2) ℚ := Matrix.of ![![7, 5], ![0, 1]]

def sharedB : Matrix (Fin 2) (Fin 2) ℚ := Matrix.of ![![2, 1], ![0, 1]]

theorem shared_represents : Represents (sharedState.stored 0) sharedA ∧ Represents (sharedState.stored 1) sharedB := by
  constructor
  · refine ⟨rfl, rfl, fun i => ?_⟩
    fin_cases i
    · refine ⟨0, 2, rfl, rfl, by norm_num, by simp [sharedState], ?_, ?_⟩
      · intro k _ hk
        interval_cases k
        · exact ⟨1, by norm_num, rfl⟩
        · exact ⟨0, by norm_num, rfl⟩
      · intro j; fin_cases j <;> simp [sharedState, sharedA, Finset.sum_range_succ]
    · refine ⟨2, 3, rfl, rfl, by norm_num, by simp [sharedState], ?_, ?_⟩
      · intro k hk1 hk
        interval_cases k
        exact ⟨1, by norm_num, rfl⟩
      · intro j; fin_cases j <;> simp [sharedState, sharedA]
  · refine ⟨rfl, rfl, fun i => ?_⟩
    fin_cases i
    · refine ⟨0, 2, rfl, rfl, by norm_num, by simp [sharedState], ?_, ?_⟩
      · intro k _ hk
        interval_cases k
        · exact ⟨1, by norm_num, rfl⟩
        · exact ⟨0, by norm_num, rfl⟩
      · intro j; fin_cases j <;> simp [sharedState, sharedB, Finset.sum_range_succ]
    · refine ⟨2, 3, rfl, rfl, by norm_num, by simp [sharedState], ?_, ?_⟩
      · intro k hk1 hk
        interval_cases k
        exact ⟨1, by norm_num, rfl⟩
      · intro j; fin_cases j <;> simp [sharedState, sharedB]

theorem sort_pair {sort : List (ℕ × ℚ) → List (ℕ × ℚ)} (hs : SortsRows sort) {i j : ℕ} (hij : j < i) (x y : ℚ) :
    sort [(i, x), (j, y)] = [(j, y), (i, x)] := by
  obtain ⟨h1, h2⟩ := hs [(i, x), (j, y)]
  have h3 : sort [(i, x), (j, y)] = [(i, x), (j, y)] ∨ sort [(i, x), (j, y)] = [(j, y), (i, x)] := by
    have := List.mem_permutations.2 h1
    simpa [List.permutations, List.permutationsAux, List.permutationsAux.rec, List.permutationsAux2] using this
  rcases h3 with h3 | h3
  · rw [h3] at h2
    simp at h2
    omega
  · exact h3

theorem sort_single {sort : List (ℕ × ℚ) → List (ℕ × ℚ)} (hs : SortsRows sort) (x : ℕ × ℚ) : sort [x] = [x] :=
  List.perm_singleton.1 (hs [x]).1

/-- What the first matrix leaves behind after its rows are sorted. -/
theorem shared_sorted {sort : List (ℕ × ℚ) → List (ℕ × ℚ)} (hs : SortsRows sort) :
    (sharedState.ensureSorted sort 0).vals = Function.update sharedState.vals 0 #[7, 5, 1] ∧
    (sharedState.ensureSorted sort 0).idxs = Function.update sharedState.idxs 0 #[0, 1, 1] := by
  have h1 := sort_pair hs (i := 1) (j := 0) (by norm_num) 5 7
  have h2 := sort_single hs (1, 1)
  have h3 : sortIndices sort #[0, 2, 3] #[1, 0, 1] #[5, 7, 1] = (#[0, 1, 1], #[7, 5, 1]) := by
    simp [sortIndices, List.range, List.range.loop, sortSegment, segment, splice, List.range', h1, h2]
    constructor
    · apply Array.ext
      · simp
      · intro i g1 g2
        simp at g2
        interval_cases i <;> simp
    · apply Array.ext
      · simp
      · intro i g1 g2
        simp at g2
        interval_cases i <;> simp
  have h4 : rowsSorted #[0, 2, 3] #[1, 0, 1] = false := by decide +kernel
  unfold State.ensureSorted State.hasSorted
  simp [sharedState, h3, h4]

theorem shared_after : Represents (.csr #[1, 2, 1] #[0, 1, 1] #[0, 2, 3] : StoredMatrix ℚ)
    (Matrix.of ![![1, 2], ![0, 1]] : Matrix (Fin 2) (Fin 2) ℚ) := by
  refine ⟨rfl, rfl, fun i => ?_⟩
  fin_cases i
  · refine ⟨0, 2, rfl, rfl, by norm_num, by simp, ?_, ?_⟩
    · intro k _ hk
      interval_cases k
      · exact ⟨0, by norm_num, rfl⟩
      · exact ⟨1, by norm_num, rfl⟩
    · intro j; fin_cases j <;> simp [Finset.sum_range_succ]
  · refine ⟨2, 3, rfl, rfl, by norm_num, by simp, ?_, ?_⟩
    · intro k hk1 hk
      interval_cases k
      exact ⟨1, by norm_num, rfl⟩
    · intro j; fin_cases j <;> simp

theorem shared_not_B : ¬ Represents (.csr #[1, 2, 1] #[0, 1, 1] #[0, 2, 3] : StoredMatrix ℚ) sharedB := by
  intro h
  have := congrFun (congrFun (csr_unique h shared_after) 0) 0
  simp [sharedB] at this

/-- The claim fails for matrices that share the indices: after an operator is made of `A`, another matrix `B` of the
user with the same unsorted array of indices (as `csr_matrix((data, A.indices, A.indptr))` has) is another matrix. -/
theorem shared_pattern_corrupted : ∃ (s : State ℚ) (A B : Matrix (Fin 2) (Fin 2) ℚ),
    Represents (s.stored 0) A ∧ Represents (s.stored 1) B ∧
    ∀ sort : List (ℕ × ℚ) → List (ℕ × ℚ), SortsRows sort → ∀ same,
      ¬ Represents ((newMatrix sort same s 0).1.stored 1) B := by
  refine ⟨sharedState, sharedA, sharedB, shared_represents.1, shared_represents.2, fun sort hs same h => ?_⟩
  obtain ⟨b, hb⟩ := ensureSorted_obj sort sharedState 0 1
  obtain ⟨h1, h2⟩ := shared_sorted hs
  rw [newMatrix] at h
  simp only [State.stored, hb, h1, h2] at h
  exact shared_not_B h

/-- An affine matrix function made of two matrices that share an unsorted array of indices holds another `B` than the
one it was given. -/
theorem affine_shared_pattern_wrong : ∃ (s : State ℚ) (A B : Matrix (Fin 2) (Fin 2) ℚ),
    Represents (s.stored 0) A ∧ Represents (s.stored 1) B ∧
    ∀ sort : List (ℕ × ℚ) → List (ℕ × ℚ), SortsRows sort → ∀ same,
      ∃ s' pA pB, newAffine sort same s 0 1 = .ok (s', pA, pB) ∧ ¬ Represents (pB.stored s') B := by
  refine ⟨sharedState, sharedA, sharedB, shared_represents.1, shared_represents.2, fun sort hs same => ?_⟩
  refine ⟨_, _, _, by simp only [newAffine, sharedState, ne_eq, not_true, if_false]; rfl, fun h => ?_⟩
  obtain ⟨h1, h2⟩ := shared_sorted hs
  obtain ⟨b, hb⟩ := ensureSorted_obj sort sharedState 0 1
  obtain ⟨b', hb'⟩ := ensureSorted_obj sort (sharedState.ensureSorted sort 0) 1 1
  have hflag : ((sharedState.ensureSorted sort 0).objs 1).sortedFlag = none := by
    have h4 : rowsSorted #[0, 2, 3] #[1, 0, 1] = false := by decide +kernel
    unfold State.ensureSorted State.hasSorted
    simp [sharedState, h4]
  have h5 : rowsSorted #[0, 2, 3] #[0, 1, 1] = true := by decide +kernel
  have h6 : ((sharedState.ensureSorted sort 0).ensureSorted sort 1).vals = (sharedState.ensureSorted sort 0).vals ∧
      ((sharedState.ensureSorted sort 0).ensureSorted sort 1).idxs = (sharedState.ensureSorted sort 0).idxs := by
    have h7 : rowsSorted ((sharedState.ensureSorted sort 0).idxs ((sharedState.ensureSorted sort 0).objs 1).indptr)
        ((sharedState.ensureSorted sort 0).idxs ((sharedState.ensureSorted sort 0).objs 1).indices) = true := by
      rw [h2, hb]
      exact h5
    rw [State.ensureSorted]
    simp only [State.hasSorted, hflag, h7, if_true, and_self]
  change Represents (NativeOp.stored ((sharedState.ensureSorted sort 0).ensureSorted sort 1)
    (capture same ((sharedState.ensureSorted sort 0).ensureSorted sort 1) 1)) sharedB at h
  simp only [NativeOp.stored, capture, hb', hb, h6.1, h6.2, h1, h2] at h
  cases same
  · exact shared_not_B h
  · simp only [if_true, IdxRef.read, h6.2, h2] at h
    exact shared_not_B h

/-- The hypotheses of `matrix_setup_partial` and `affine_setup_partial` are met by two matrices with arrays of their
own, one of them with unsorted rows. -/
example : let s : State ℚ := { sharedState with objs := fun i => ⟨.csr, i, if i = 0 then 0 else 2, if i = 0 then 1 else 3, none⟩ }
    Separate s 0 1 ∧ Separate s 1 0 ∧ (s.objs 0).indices ≠ (s.objs 0).indptr ∧ (s.objs 1).indices ≠ (s.objs 1).indptr ∧
      Represents (s.stored 0) sharedA ∧ rowsSorted (s.idxs 1) (s.idxs 0) = false := by
  refine ⟨.inl ?_, .inl ?_, ?_, ?_, shared_represents.1, ?_⟩
  · decide
  · decide
  · decide
  · decide
  · decide +kernel

/-! ### C62: an operator holds the matrix it was given, whatever its memory layout -/

/-- Every dense array that is accepted — row by row or column by column, at any place of a larger buffer, with any strides
along dimensions of length one — gives an operator of that matrix. -/
theorem dense_view_correct (buf : Array K) (v : View) (M : Matrix (Fin v.rows) (Fin v.cols) K)
    (hM : ∀ i j, ∃ k : ℕ, v.address i.1 j.1 = k ∧ buf[k]? = some (M i j)) (hoff : v.offset ≤ buf.size) {S : StoredMatrix K}
    (h : setDense buf v = .ok S) : Represents S M := by
  unfold setDense at h
  rcases Nat.eq_zero_or_pos v.rows with hr | hr
  · have : v.cContiguous = true := by simp [View.cContiguous, hr]
    rw [if_pos this] at h
    cases h
    refine ⟨by simp [hr, hoff], fun i => absurd i.2 (by omega)⟩
  rcases Nat.eq_zero_or_pos v.cols with hc | hc
  · have : v.cContiguous = true := by simp [View.cContiguous, hc]
    rw [if_pos this] at h
    cases h
    refine ⟨by simp [hc, hoff], fun i j => absurd j.2 (by omega)⟩
  have key : ∀ f : ℕ → ℕ → ℕ, (∀ i < v.rows, ∀ j < v.cols, v.address i j = ((v.offset + f i j : ℕ) : ℤ)) →
      (f (v.rows - 1) (v.cols - 1) + 1 = v.rows * v.cols) → (∀ i < v.rows, ∀ j < v.cols, f i j < v.rows * v.cols) →
      (buf.extract v.offset (v.offset + v.rows * v.cols)).size = v.rows * v.cols ∧
      ∀ (i : Fin v.rows) (j : Fin v.cols),
        (buf.extract v.offset (v.offset + v.rows * v.cols))[f i.1 j.1]? = some (M i j) := by
    intro f hf hl hb
    have hsize : v.offset + v.rows * v.cols ≤ buf.size := by
      obtain ⟨k, hk1, hk2⟩ := hM ⟨v.rows - 1, by omega⟩ ⟨v.cols - 1, by omega⟩
      have h1 := hf (v.rows - 1) (by omega) (v.cols - 1) (by omega)
      simp only at hk1
      rw [h1] at hk1
      have h2 : v.offset + f (v.rows - 1) (v.cols - 1) = k := by exact_mod_cast hk1
      obtain ⟨h3, -⟩ := Array.getElem?_eq_some_iff.1 hk2
      omega
    refine ⟨by rw [Array.size_extract]; omega, fun i j => ?_⟩
    obtain ⟨k, hk1, hk2⟩ := hM i j
    rw [hf i.1 i.2 j.1 j.2] at hk1
    have h2 : v.offset + f i.1 j.1 = k := by exact_mod_cast hk1
    have := hb i.1 i.2 j.1 j.2
    rw [Array.getElem?_extract, if_pos (by omega), h2, hk2]
  have hlast : (v.rows - 1) * v.cols + (v.cols - 1) + 1 = v.rows * v.cols := by
    obtain ⟨r, hr'⟩ := Nat.exists_eq_add_of_lt hr
    rw [hr']
    simp only [Nat.zero_add, Nat.add_sub_cancel, Nat.add_mul, Nat.one_mul]
    omega
  have hlast' : (v.rows - 1) + v.rows * (v.cols - 1) + 1 = v.rows * v.cols := by
    obtain ⟨r, hr'⟩ := Nat.exists_eq_add_of_lt hc
    rw [hr']
    simp only [Nat.zero_add, Nat.add_sub_cancel, Nat.mul_add, Nat.mul_one]
    omega
  have hr0 : v.rows ≠ 0 := by omega
  have hc0 : v.cols ≠ 0 := by omega
  split_ifs at h with h1 h2
  · cases h
    simp only [View.cContiguous, hr0, hc0, decide_false, Bool.false_or, Bool.and_eq_true, Bool.or_eq_true,
      decide_eq_true_eq] at h1
    refine key (fun i j => i * v.cols + j) ?_ hlast ?_
    · intro i hi j hj
      have e1 : (j : ℤ) * v.stride1 = j := by
        rcases h1.1 with e | e
        · have : j = 0 := by omega
          simp [this]
        · rw [e, mul_one]
      have e2 : (i : ℤ) * v.stride0 = i * v.cols := by
        rcases h1.2 with e | e
        · have : i = 0 := by omega
          simp [this]
        · rw [e]
      rw [View.address, e1, e2]
      push_cast
      ring
    · intro i hi j hj
      calc i * v.cols + j < i * v.cols + v.cols := by omega
        _ = (i + 1) * v.cols := by ring
        _ ≤ v.rows * v.cols := Nat.mul_le_mul_right _ hi
  · cases h
    simp only [View.fContiguous, hr0, hc0, decide_false, Bool.false_or, Bool.and_eq_true, Bool.or_eq_true,
      decide_eq_true_eq] at h2
    refine key (fun i j => i + v.rows * j) ?_ hlast' ?_
    · intro i hi j hj
      have e1 : (i : ℤ) * v.stride0 = i := by
        rcases h2.1 with e | e
        · have : i = 0 := by omega
          simp [this]
        · rw [e, mul_one]
      have e2 : (j : ℤ) * v.stride1 = j * v.rows := by
        rcases h2.2 with e | e
        · have : j = 0 := by omega
          simp [this]
        · rw [e]
      rw [View.address, e1, e2]
      push_cast
      ring
    · intro i hi j hj
      calc i + v.rows * j < v.rows + v.rows * j := by omega
        _ = v.rows * (j + 1) := by ring
        _ ≤ v.rows * v.cols := Nat.mul_le_mul_left _ hj

omit [Field K] in
/-- Which dense arrays with at least two rows and two columns are refused: all but those whose strides are the ones of a
whole array in C or Fortran order.  No slice with gaps, no reversed and no repeated axis passes silently. -/
theorem dense_view_refused (buf : Array K) (v : View) (hr : 2 ≤ v.rows) (hc : 2 ≤ v.cols) :
    (setDense buf v = .error .typeError ↔
      ¬ (v.stride0 = v.cols ∧ v.stride1 = 1) ∧ ¬ (v.stride0 = 1 ∧ v.stride1 = v.rows)) ∧
    (setDense buf v ≠ .error .typeError → ∃ S, setDense buf v = .ok S) := by
  have e1 : v.rows ≠ 0 := by omega
  have e2 : v.cols ≠ 0 := by omega
  have e3 : v.rows ≠ 1 := by omega
  have e4 : v.cols ≠ 1 := by omega
  have c1 : v.cContiguous = true ↔ (v.stride0 = v.cols ∧ v.stride1 = 1) := by
    simp [View.cContiguous, e1, e2, e3, e4, and_comm]
  have c2 : v.fContiguous = true ↔ (v.stride0 = 1 ∧ v.stride1 = v.rows) := by
    simp [View.fContiguous, e1, e2, e3, e4]
  rw [← c1, ← c2]
  unfold setDense
  split_ifs with h1 h2
  · simp [h1]
  · simp [h2]
  · simp [h1, h2]

/-- A column of a larger row-major array with one column only is accepted when NumPy calls it contiguous; a transposed
array and a block of whole rows meet the hypotheses of `dense_view_correct`. -/
example : ∃ S, setDense (#[1, 2, 3, 4, 5, 6, 7] : Array ℚ) ⟨2, 3, 1, 3, 1⟩ = .ok S ∧
    Represents S (Matrix.of ![![2, 3, 4], ![5, 6, 7]] : Matrix (Fin 2) (Fin 3) ℚ) :=
  ⟨_, rfl, dense_view_correct _ ⟨2, 3, 1, 3, 1⟩ _ (by
    intro i j
    fin_cases i <;> fin_cases j
    · exact ⟨1, by norm_num [View.address], rfl⟩
    · exact ⟨2, by norm_num [View.address], rfl⟩
    · exact ⟨3, by norm_num [View.address], rfl⟩
    · exact ⟨4, by norm_num [View.address], rfl⟩
    · exact ⟨5, by norm_num [View.address], rfl⟩
    · exact ⟨6, by norm_num [View.address], rfl⟩) (by simp) rfl⟩

example : setDense (#[1, 2, 3, 4, 5, 6, 7, 8] : Array ℚ) ⟨2, 2, 0, 4, 1⟩ = .error .typeError :=
  ((dense_view_refused _ _ (by simp) (by simp)).1).2 (by simp)

/-- The array of values of a sparse matrix is read correctly if its elements lie one after another. -/
theorem sparse_data_contiguous_partial (buf : Array K) (offset size : ℕ) (h : offset + size ≤ buf.size) :
    pointer buf offset size = elements buf offset 1 size := by
  apply Array.ext
  · simp [pointer, elements]; omega
  · intro i h1 h2
    simp only [pointer, elements, Array.size_extract, Array.size_ofFn] at h1 h2
    have : offset + i < buf.size := by omega
    simp [pointer, elements, this]

/-- The check on the layout that dense arrays get is missing for sparse ones: with values taken from every second element
of an array (`csr_matrix((x[::2], indices, indptr))`), the operator is one of another matrix. -/
theorem strided_data_wrong : ∃ (buf : Array ℚ) (idx ptr : Array ℕ) (M N : Matrix (Fin 1) (Fin 2) ℚ),
    Represents (.csr (elements buf 0 2 2) idx ptr) M ∧ Represents (.csr (pointer buf 0 2) idx ptr) N ∧ M ≠ N := by
  have key : ∀ x y : ℚ, Represents (.csr #[x, y] #[0, 1] #[0, 2]) (Matrix.of ![![x, y]] : Matrix (Fin 1) (Fin 2) ℚ) := by
    intro x y
    refine ⟨rfl, rfl, fun i => ?_⟩
    fin_cases i
    refine ⟨0, 2, rfl, rfl, by norm_num, by simp, ?_, ?_⟩
    · intro k _ hk
      interval_cases k
      · exact ⟨0, by norm_num, rfl⟩
      · exact ⟨1, by norm_num, rfl⟩
    · intro j; fin_cases j <;> simp [Finset.sum_range_succ]
  refine ⟨#[1, 2, 3], #[0, 1], #[0, 2], Matrix.of ![![1, 3]], _, ?_, key 1 2, ?_⟩
  · have : elements (#[1, 2, 3] : Array ℚ) 0 2 2 = #[1, 3] := by
      apply Array.ext
      · simp [elements]
      · intro i h1 h2
        simp [elements] at h1
        interval_cases i <;> simp [elements]
    rw [this]
    exact key 1 3
  · intro h
    have := congrFun (congrFun h 0) 1
    norm_num at this

/-! ### C63: an operator while its matrix lives on -/

/-- No array of the matrix is replaced by another one; the indices are not written to either if the operator has a copy of
them. -/
def InPlace (same : Bool) : Act K → Prop
  | .setData _ => False
  | .writeIdx .. => same = true
  | _ => True

omit [Field K] in
theorem act_obj (a : ℕ) (w : World K) (x : Act K) {same : Bool} (h : InPlace same x) : (w.act a x).objs = w.objs := by
  cases x with
  | setData id => exact h.elim
  | _ => rfl

omit [Field K] in
theorem run_obj (a : ℕ) {same : Bool} (acts : List (Act K)) (w : World K) (h : ∀ x ∈ acts, InPlace same x) :
    (acts.foldl (World.act a) w).objs = w.objs := by
  induction acts generalizing w with
  | nil => rfl
  | cons x l ih =>
    rw [List.foldl_cons, ih _ fun y hy => h y (List.mem_cons_of_mem _ hy), act_obj a w x (h x List.mem_cons_self)]

omit [Field K] in
theorem run_idxs (a : ℕ) (acts : List (Act K)) (w : World K) (h : ∀ x ∈ acts, InPlace false x) :
    (acts.foldl (World.act a) w).idxs = w.idxs := by
  induction acts generalizing w with
  | nil => rfl
  | cons x l ih =>
    rw [List.foldl_cons, ih _ fun y hy => h y (List.mem_cons_of_mem _ hy)]
    have := h x List.mem_cons_self
    cases x with
    | writeIdx => exact absurd this (by simp [InPlace])
    | _ => rfl

/-- Through every history in which the user writes to arrays and drops or takes references, but gives the matrix no new
array of values, the operator never reads released memory and multiplies by the matrix as it is at that moment.
Missing: `A.data = …` and what SciPy does when an entry is inserted, see `operator_after_rebind`. -/
theorem operator_follows_matrix_partial [DecidableEq K] (a : ℕ) (same : Bool) (w : World K) (acts : List (Act K))
    (h : ∀ x ∈ acts, InPlace same x) (n m : ℕ) (v c : Array K) :
    let w' := acts.foldl (World.act a) w
    w'.multiply a (capture same w.toState a) n m v c = (w'.stored a).dot n m v c := by
  intro w'
  have ho : w'.objs = w.objs := run_obj a acts w h
  have hal : w'.alive a (capture same w.toState a).data = true := by
    simp [World.alive, ho, capture]
  unfold World.multiply
  rw [if_pos hal]
  congr 1
  simp only [NativeOp.stored, State.stored, capture, ho]
  cases same with
  | true => rfl
  | false =>
    have hi : w'.idxs = w.idxs := run_idxs a acts w h
    simp only [Bool.false_eq_true, if_false, IdxRef.read, hi]

/-- After `A.data = …` the operator reads the old array: released memory, unless the user still refers to that array; if
they do, the product is the one of the old values. -/
theorem operator_after_rebind [DecidableEq K] (a : ℕ) (same : Bool) (w : World K) {id : ℕ}
    (hid : id ≠ (w.objs a).data) (n m : ℕ) (v c : Array K) :
    (w.act a (.setData id)).multiply a (capture same w.toState a) n m v c =
      if w.held (w.objs a).data then (w.stored a).dot n m v c else .error .invalid := by
  unfold World.multiply
  have : (w.act a (.setData id)).alive a (capture same w.toState a).data = w.held (w.objs a).data := by
    simp [World.alive, World.act, capture, hid]
  rw [this]
  split_ifs with h
  · congr 1
    simp only [NativeOp.stored, State.stored, capture, World.act]
    cases same <;> rfl
  · rfl

/-- So a reference that the user takes to the array of values before `A.data = …` keeps the operator usable (with the old
values), and dropping it makes the product a fault. -/
theorem rebind_after_hold [DecidableEq K] (a : ℕ) (same : Bool) (w : World K) {id : ℕ} (hid : id ≠ (w.objs a).data) (b : Bool)
    (n m : ℕ) (v c : Array K) :
    ((w.act a (.hold (w.objs a).data b)).act a (.setData id)).multiply a (capture same w.toState a) n m v c =
      if b then (w.stored a).dot n m v c else .error .invalid := by
  have := operator_after_rebind a same (w.act a (.hold (w.objs a).data b)) (id := id) hid n m v c
  have h2 : capture same (w.act a (.hold (w.objs a).data b)).toState a = capture same w.toState a := rfl
  have h3 : (w.act a (.hold (w.objs a).data b)).held ((w.act a (.hold (w.objs a).data b)).objs a).data = b := by
    simp [World.act]
  rw [h2, h3] at this
  exact this

/-- So there are a matrix, an operator and a history after which a product reads released memory although the matrix is
well-formed before and after. -/
theorem operator_use_after_free : ∃ (w : World ℚ) (A B : Matrix (Fin 2) (Fin 2) ℚ), Represents (w.stored 0) A ∧
    Represents ((w.act 0 (.setData 1)).stored 0) B ∧ ∀ same v c,
      (w.act 0 (.setData 1)).multiply 0 (capture same w.toState 0) 2 2 v c = .error .invalid := by
  refine ⟨⟨sharedState, fun _ => false⟩, sharedA, sharedB, shared_represents.1, ?_, fun same v c => ?_⟩
  · exact shared_represents.2
  · rw [operator_after_rebind 0 same _ (by decide)]
    rfl

/-- The operator on the GPU holds what was copied when it was made, the one on the CPU what the matrix is now: after one
write by the user they hold different matrices. -/
theorem gpu_snapshot_differs : ∃ (w : World ℚ) (x : Act ℚ) (A B : Matrix (Fin 2) (Fin 2) ℚ), InPlace true x ∧ A ≠ B ∧
    Represents ((capture true w.toState 0).stored w.toState) A ∧
    Represents ((capture true w.toState 0).stored (w.act 0 x).toState) B := by
  refine ⟨⟨sharedState, fun _ => true⟩, .writeVal 0 0 4, sharedA, Matrix.of ![![7, 4], ![0, 1]], trivial, ?_,
    shared_represents.1, ?_⟩
  · intro h
    have := congrFun (congrFun h 0) 1
    norm_num [sharedA] at this
  · change CSRRepr #[4, 7, 1] #[1, 0, 1] #[0, 2, 3] _
    refine ⟨rfl, rfl, fun i => ?_⟩
    fin_cases i
    · refine ⟨0, 2, rfl, rfl, by norm_num, by simp, ?_, ?_⟩
      · intro k _ hk
        interval_cases k
        · exact ⟨1, by norm_num, rfl⟩
        · exact ⟨0, by norm_num, rfl⟩
      · intro j; fin_cases j <;> simp [Finset.sum_range_succ]
    · refine ⟨2, 3, rfl, rfl, by norm_num, by simp, ?_, ?_⟩
      · intro k hk1 hk
        interval_cases k
        exact ⟨1, by norm_num, rfl⟩
      · intro j; fin_cases j <;> simp

/-- The hypothesis of `operator_follows_matrix_partial` is met by a history with writes and dropped references. -/
example : ∀ x ∈ ([.writeVal 0 1 3, .hold 0 false, .writeIdx 0 1 1, .hold 5 true] : List (Act ℚ)), InPlace true x := by
  intro x hx
  simp only [List.mem_cons, List.not_mem_nil, or_false] at hx
  rcases hx with rfl | rfl | rfl | rfl <;> simp [InPlace]

end Imate.Props
