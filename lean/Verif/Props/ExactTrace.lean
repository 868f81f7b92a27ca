import Verif.Lemmas.Direct
import Mathlib.LinearAlgebra.Matrix.Notation
import Mathlib.Tactic.FinCases
import Mathlib.Tactic.NormNum

/-!
# C33: `trace(A, method='exact')`
-/

namespace Imate.Props

open Imate.Hutchinson Imate.Direct Imate.Spec Matrix

variable {n m : ℕ}

theorem checkSquare_square {A : Array2 ℝ} {M : Matrix (Fin n) (Fin n) ℝ} (hA : A.value = square M)
    (gram : Bool) : checkSquare A gram = .ok () := by
  unfold checkSquare
  rw [hA, if_neg]
  rintro ⟨-, h⟩
  exact h rfl

theorem checkSquare_gram (A : Array2 ℝ) : checkSquare A true = .ok () := by
  unfold checkSquare
  rw [if_neg]
  rintro ⟨h, -⟩
  cases h

/-- The common core: the branches for an even and an odd exponent compute the trace of the power of the square
matrix they start from. -/
theorem exact_branches {A : Array2 ℝ} {gram : Bool} {M : Matrix (Fin n) (Fin n) ℝ}
    (hb : base A.value gram = square M) (hs : gram = true → M.IsSymm) {p : ℤ} (h0 : p ≠ 0)
    (h1 : p ≠ 1) :
    ∃ q, (if expEven (.int p) then exactEven A gram (.int p) else exactOdd A gram (.int p)) =
      .ok ((M ^ p.natAbs).trace, q) := by
  have heven : ∀ k : ℕ, exactEvenSum (square (M ^ k)) gram = .ok (M ^ (k + k)).trace := by
    intro k
    unfold exactEvenSum
    cases gram with
    | false => exact (sumMulTranspose_square _).trans (by rw [pow_add])
    | true =>
      rw [if_pos rfl]
      have : (M ^ k)ᵀ = M ^ k := by rw [transpose_pow, hs rfl]
      exact congrArg _ ((frobeniusSq_eq _).trans (by rw [this, pow_add]))
  by_cases hp : expEven (.int p) = true
  · rw [if_pos hp]
    have hp' : p % 2 = 0 := by simpa [expEven] using hp
    unfold exactEven
    by_cases h2 : (Exponent.int p).val = 2
    · rw [if_pos h2, hb]
      have h2' : p = 2 := by
        have : (p : ℚ) = 2 := h2
        exact_mod_cast this
      subst h2'
      have := heven 1
      rw [pow_one] at this
      rw [this]
      exact ⟨_, rfl⟩
    · rw [if_neg h2, hb]
      have h2' : p ≠ 2 := fun h => h2 (by rw [h]; rfl)
      obtain ⟨k, hk⟩ : ∃ k : ℕ, |p| / 2 = k := ⟨(|p| / 2).toNat, by
        have := abs_nonneg p
        omega⟩
      have hk1 : 1 ≤ k := by
        rcases abs_cases p with h | h <;> omega
      have hkk : p.natAbs = k + k := by
        rcases abs_cases p with h | h <;> omega
      simp only [expAbs, expHalf]
      rw [powerLoop_square M hk1 hk, Except.ok_bind', heven, Except.ok_bind', hkk]
      exact ⟨_, rfl⟩
  · rw [if_neg hp]
    unfold exactOdd
    rw [hb, expAbs, powerLoop_square M (k := p.natAbs) (by omega) (by rw [Int.abs_eq_natAbs]),
      Except.ok_bind', diagSum_square]
    exact ⟨_, rfl⟩

theorem val_ne {p c : ℤ} (h : p ≠ c) : (Exponent.int p).val ≠ (c : ℚ) := fun h' => by
  have : (p : ℚ) = c := h'
  exact h (by exact_mod_cast this)

/-- C33: for every square matrix, dense or sparse (even with positions stored more than once), and every
exponent `p ≥ 0`, the result is the trace of `A ^ p`. -/
theorem exact_trace {A : Array2 ℝ} {M : Matrix (Fin n) (Fin n) ℝ} (hA : A.value = square M) (p : ℕ) :
    ∃ q, traceExact A false (.int p) = .ok ((M ^ p).trace, q) := by
  unfold traceExact
  rw [checkSquare_square hA, Except.ok_bind']
  by_cases h0 : p = 0
  · subst h0
    rw [if_pos (by rfl), hA]
    refine ⟨.int (0 : ℕ), ?_⟩
    simp only [square, Nat.min_self, pow_zero, trace_one, Fintype.card_fin]
  by_cases h1 : p = 1
  · subst h1
    rw [if_neg (by simpa using val_ne (p := (1 : ℕ)) (c := 0) (by simp)), if_pos (by rfl)]
    unfold exactOne
    rw [if_neg (by simp), hA, diagSum_square, pow_one]
    exact ⟨_, rfl⟩
  · rw [if_neg (by simpa using val_ne (p := p) (c := 0) (by omega)),
      if_neg (by simpa using val_ne (p := p) (c := 1) (by omega))]
    exact exact_branches (by rw [base, if_neg (by simp), hA]) (by simp) (by omega) (by omega)

/-- No position is stored twice. -/
def NoDuplicates {K : Type} : Array2 K → Prop
  | .dense _ => True
  | .sparse _ _ entries => (entries.map fun e => (e.1, e.2.1)).Nodup

/-- The sum of the squares of the stored entries is the squared Frobenius norm if no position is stored
twice. -/
theorem sum_sq_entries {rows cols : ℕ} {entries : List (Fin rows × Fin cols × ℝ)}
    (h : (entries.map fun e => (e.1, e.2.1)).Nodup) :
    (entries.map fun e => e.2.2 ^ 2).sum = frobeniusSq ⟨rows, cols, entry entries⟩ := by
  unfold frobeniusSq
  simp only
  induction entries with
  | nil => simp [entry]
  | cons e es ih =>
    rw [List.map_cons, List.nodup_cons] at h
    rw [List.map_cons, List.sum_cons, ih h.2]
    have hz : entry es e.1 e.2.1 = 0 := by
      unfold entry
      apply List.sum_eq_zero
      intro x hx
      obtain ⟨f, hf, rfl⟩ := List.mem_map.1 hx
      rw [if_neg]
      rintro ⟨h1, h2⟩
      exact h.1 (List.mem_map.2 ⟨f, hf, by rw [h1, h2]⟩)
    have hc : ∀ i j, entry (e :: es) i j ^ 2 =
        (if e.1 = i then (if e.2.1 = j then e.2.2 ^ 2 else 0) else 0) + entry es i j ^ 2 := by
      intro i j
      have : entry (e :: es) i j = (if e.1 = i ∧ e.2.1 = j then e.2.2 else 0) + entry es i j := rfl
      rw [this]
      by_cases h1 : e.1 = i
      · by_cases h2 : e.2.1 = j
        · subst h1 h2
          rw [hz]
          simp
        · simp [h2]
      · simp [h1]
    simp only [hc, Finset.sum_add_distrib]
    congr 1
    rw [Finset.sum_eq_single e.1]
    · simp
    · intro b _ hb
      simp [hb.symm]
    · simp

/-- C33 for `gram=True`, any shape, `p ≥ 1`: the result is the trace of the power of the Gramian, provided
that no position is stored twice or `p ≥ 2`.  (Missing: `p = 0`, see `exact_gram_zero_partial`, and
`exact_gram_duplicates_wrong`.) -/
theorem exact_trace_gram_partial {A : Array2 ℝ} {M : Matrix (Fin m) (Fin n) ℝ} (hA : A.value = ⟨m, n, M⟩)
    {p : ℕ} (hp : 1 ≤ p) (hd : NoDuplicates A ∨ 2 ≤ p) :
    ∃ q, traceExact A true (.int p) = .ok (((Mᵀ * M) ^ p).trace, q) := by
  unfold traceExact
  rw [checkSquare_gram, Except.ok_bind', if_neg (by simpa using val_ne (p := p) (c := 0) (by omega))]
  have hsymm : (Mᵀ * M).IsSymm := by
    unfold Matrix.IsSymm
    rw [transpose_mul, transpose_transpose]
  by_cases h1 : p = 1
  · subst h1
    rw [if_pos (by rfl), pow_one, ← frobeniusSq_eq, ← hA]
    refine ⟨.int (1 : ℕ), ?_⟩
    congr 2
    unfold exactOne
    rw [if_pos rfl]
    rcases hd with hd | hd
    · cases A with
      | dense A => rfl
      | sparse r c es => exact sum_sq_entries hd
    · omega
  · rw [if_neg (by simpa using val_ne (p := p) (c := 1) (by omega))]
    exact exact_branches (by rw [base, if_pos rfl, hA]; rfl) (fun _ => hsymm) (by omega) (by omega)

/-- `p = 0` with `gram=True`: the smaller dimension.  It is the trace of the identity if the matrix does not
have more columns than rows. -/
theorem exact_gram_zero_partial {A : Array2 ℝ} {M : Matrix (Fin m) (Fin n) ℝ} (hA : A.value = ⟨m, n, M⟩)
    (h : n ≤ m) : ∃ q, traceExact A true (.int 0) = .ok (((Mᵀ * M) ^ 0).trace, q) := by
  unfold traceExact
  rw [checkSquare_gram, Except.ok_bind', if_pos (by rfl), hA]
  refine ⟨.int 0, ?_⟩
  simp only [Nat.min_eq_right h, pow_zero, trace_one, Fintype.card_fin]

/-- For a matrix with more columns than rows the result for `p = 0` is too small. -/
theorem exact_gram_zero_wide {A : Array2 ℝ} {M : Matrix (Fin m) (Fin n) ℝ} (hA : A.value = ⟨m, n, M⟩)
    (h : m < n) : ∃ t q, traceExact A true (.int 0) = .ok (t, q) ∧ t < ((Mᵀ * M) ^ 0).trace := by
  unfold traceExact
  rw [checkSquare_gram, Except.ok_bind', if_pos (by rfl), hA]
  refine ⟨_, _, rfl, ?_⟩
  simp only [Nat.min_eq_left h.le, pow_zero, trace_one, Fintype.card_fin]
  exact_mod_cast h

/-- A position stored twice makes `p = 1`, `gram=True` wrong: the 1 × 1 matrix `1 + 1` gives 2, not 4. -/
theorem exact_gram_duplicates_wrong :
    ∃ (A : Array2 ℝ) (M : Matrix (Fin 1) (Fin 1) ℝ) (t : ℝ) (q : Exponent), A.value = ⟨1, 1, M⟩ ∧
      traceExact A true (.int 1) = .ok (t, q) ∧ t ≠ ((Mᵀ * M) ^ 1).trace := by
  refine ⟨.sparse 1 1 [(0, 0, 1), (0, 0, 1)], Matrix.of fun _ _ => 2, 2, .int 1, ?_, ?_, ?_⟩
  · refine congrArg (Mat.mk 1 1) (Matrix.ext fun i j => ?_)
    simp only [entry, Subsingleton.elim i 0, Subsingleton.elim j 0, of_apply]
    norm_num
  · unfold traceExact
    rw [checkSquare_gram, Except.ok_bind', if_neg (by simp [Exponent.val]), if_pos (by rfl)]
    unfold exactOne
    norm_num
  · rw [pow_one, ← frobeniusSq_eq]
    unfold frobeniusSq
    norm_num

/-- A matrix that is not square raises without `gram`. -/
theorem exact_nonsquare_raises {A : Array2 ℝ} (h : A.value.rows ≠ A.value.cols) (p : Exponent) :
    traceExact A false p = .error .valueError := by
  unfold traceExact checkSquare
  rw [if_pos ⟨rfl, h⟩]
  rfl

/-- A negative exponent is documented to raise and is not rejected: the trace of `A ^ |p|` is returned. -/
theorem exact_negative_accepted {A : Array2 ℝ} {M : Matrix (Fin n) (Fin n) ℝ} (hA : A.value = square M)
    {p : ℤ} (hp : p < 0) : ∃ q, traceExact A false (.int p) = .ok ((M ^ p.natAbs).trace, q) := by
  unfold traceExact
  rw [checkSquare_square hA, Except.ok_bind', if_neg (by simpa using val_ne (p := p) (c := 0) (by omega)),
    if_neg (by simpa using val_ne (p := p) (c := 1) (by omega))]
  exact exact_branches (by rw [base, if_neg (by simp), hA]) (by simp) (by omega) (by omega)

/-- A float other than 0, 1 and 2 raises `TypeError`, including one with an integral value. -/
theorem exact_float_raises {A : Array2 ℝ} {M : Matrix (Fin n) (Fin n) ℝ} (hA : A.value = square M)
    (gram : Bool) {x : ℚ} (h0 : x ≠ 0) (h1 : x ≠ 1) (h2 : x ≠ 2) :
    traceExact A gram (.float x) = .error .typeError := by
  replace h0 : (Exponent.float x).val ≠ 0 := h0
  replace h1 : (Exponent.float x).val ≠ 1 := h1
  replace h2 : (Exponent.float x).val ≠ 2 := h2
  unfold traceExact
  rw [checkSquare_square hA, Except.ok_bind', if_neg h0, if_neg h1]
  split_ifs
  · unfold exactEven
    rw [if_neg h2]
    rfl
  · rfl

/-- … and the floats 0, 1 and 2 are the integers. -/
theorem exact_float_accepted (A : Array2 ℝ) (gram : Bool) {k : ℕ} (hk : k ≤ 2) :
    (traceExact A gram (.float k)).map Prod.fst = (traceExact A gram (.int k)).map Prod.fst := by
  have hv : (Exponent.float k).val = (Exponent.int k).val := by simp [Exponent.val]
  unfold traceExact
  cases checkSquare A gram with
  | error e => rfl
  | ok u =>
    simp only [Except.ok_bind', hv]
    split_ifs with a b c d d
    · rfl
    · rfl
    · unfold exactEven
      have h2 : (Exponent.int k).val = 2 := by
        have : k = 2 := by
          have : k ≠ 0 := fun h => a (by rw [h]; rfl)
          have : k ≠ 1 := fun h => b (by rw [h]; rfl)
          omega
        rw [this]; rfl
      rw [hv, if_pos h2, if_pos h2]
      cases exactEvenSum (base A.value gram) gram <;> rfl
    all_goals
      exfalso
      have h2 : k = 2 := by
        have : k ≠ 0 := fun h => a (by rw [h]; rfl)
        have : k ≠ 1 := fun h => b (by rw [h]; rfl)
        omega
      subst h2
      revert c
      try revert d
      decide +kernel

/-- The exponent reported in `info` is half the one given, for every even exponent from 4 on. -/
theorem exact_info_exponent_wrong {A : Array2 ℝ} {M : Matrix (Fin n) (Fin n) ℝ} (hA : A.value = square M)
    {k : ℕ} (hk : 2 ≤ k) :
    ∃ t, traceExact A false (.int (2 * k : ℕ)) = .ok (t, .int k) := by
  unfold traceExact
  rw [checkSquare_square hA, Except.ok_bind',
    if_neg (by simpa using val_ne (p := (2 * k : ℕ)) (c := 0) (by omega)),
    if_neg (by simpa using val_ne (p := (2 * k : ℕ)) (c := 1) (by omega)),
    if_pos (by simp [expEven])]
  unfold exactEven
  rw [if_neg (by simpa using val_ne (p := (2 * k : ℕ)) (c := 2) (by omega))]
  have hb : base A.value false = square M := by rw [base, if_neg (by simp), hA]
  have hh : expHalf (expAbs (.int (2 * k : ℕ))) = .int k := by
    simp only [expAbs, expHalf]
    congr 1
    rw [abs_of_nonneg (by positivity)]
    omega
  simp only [hb, hh]
  rw [powerLoop_square M (k := k) (by omega) rfl, Except.ok_bind']
  unfold exactEvenSum
  rw [if_neg (by simp), sumMulTranspose_square]
  exact ⟨_, rfl⟩

/-- The exponent reported in `info`, for every array and every integer exponent: the one given for 0, 2 and the odd
numbers, negative ones too; half its absolute value otherwise. -/
theorem exact_info_exponent {A : Array2 ℝ} {gram : Bool} {p : ℤ} {t : ℝ} {q : Exponent}
    (h : traceExact A gram (.int p) = .ok (t, q)) :
    q = .int (if p = 0 ∨ p = 2 ∨ p % 2 = 1 then p else |p| / 2) := by
  have split : ∀ {α β : Type} {x : Except PyExc α} {f : α → Except PyExc β} {y : β}, (x >>= f) = .ok y →
      ∃ a, x = .ok a ∧ f a = .ok y := by
    intro α β x f y h
    cases x with
    | error e => cases h
    | ok a => exact ⟨a, rfl, h⟩
  unfold traceExact at h
  obtain ⟨_, _, h⟩ := split h
  by_cases h0 : p = 0
  · subst h0
    rw [if_pos (by rfl)] at h
    injection h with h
    injection h with _ h
    rw [← h]; rfl
  rw [if_neg (by simpa using val_ne (p := p) (c := 0) h0)] at h
  by_cases h1 : p = 1
  · subst h1
    rw [if_pos (by rfl)] at h
    injection h with h
    injection h with _ h
    rw [← h]; rfl
  rw [if_neg (by simpa using val_ne (p := p) (c := 1) h1)] at h
  by_cases he : p % 2 = 0
  · rw [if_pos (by simpa [expEven] using he)] at h
    unfold exactEven at h
    by_cases h2 : p = 2
    · subst h2
      rw [if_pos (by rfl)] at h
      obtain ⟨_, _, h⟩ := split h
      injection h with h
      injection h with _ h
      rw [← h]; rfl
    · rw [if_neg (by simpa using val_ne (p := p) (c := 2) h2)] at h
      obtain ⟨_, _, h⟩ := split h
      obtain ⟨_, _, h⟩ := split h
      injection h with h
      injection h with _ h
      rw [← h, if_neg (by omega)]
      rfl
  · rw [if_neg (by simpa [expEven] using he)] at h
    unfold exactOdd at h
    obtain ⟨_, _, h⟩ := split h
    injection h with h
    injection h with _ h
    rw [← h, if_pos (by omega)]

example : ∃ t q, traceExact (.dense (square (1 : Matrix (Fin 2) (Fin 2) ℝ))) false (.int (-3)) = .ok (t, q) :=
  (exact_negative_accepted (A := .dense (square 1)) rfl (by norm_num)).imp' (fun _ => _) fun _ h => ⟨_, h⟩

/-- The hypotheses are met by a sparse matrix with a position stored twice. -/
example : ∃ q, traceExact (.sparse 2 2 [(0, 0, 1), (0, 1, 2), (0, 0, 3)] : Array2 ℝ) false (.int (3 : ℕ)) =
    .ok (((Matrix.of (entry [(0, 0, 1), (0, 1, 2), (0, 0, 3)]) : Matrix (Fin 2) (Fin 2) ℝ) ^ 3).trace, q) :=
  exact_trace rfl 3

example (M : Matrix (Fin 2) (Fin 3) ℝ) : ∃ q, traceExact (.dense ⟨2, 3, M⟩) true (.int (2 : ℕ)) =
    .ok (((Mᵀ * M) ^ 2).trace, q) :=
  exact_trace_gram_partial (A := .dense ⟨2, 3, M⟩) rfl (by norm_num) (.inl trivial)

end Imate.Props
