import Mathlib.Tactic.Ring
import Mathlib.Tactic.Linarith
import Mathlib.Tactic.NormNum
import Mathlib.Tactic.Positivity
import Verif.Lemmas.CudaKrylov
import Verif.Lemmas.MatrixOps
import Verif.Model.Machine

/-!
# Lemmas for machine integers
-/

namespace Imate.Machine

open MatrixOps Matrix

theorem fits_nat {w x : ℕ} : fits w (x : ℤ) = true ↔ x < 2 ^ (w - 1) := by
  unfold fits
  rw [Bool.and_eq_true, decide_eq_true_eq, decide_eq_true_eq]
  constructor
  · rintro ⟨-, h⟩
    exact_mod_cast h
  · intro h
    refine ⟨?_, by exact_mod_cast h⟩
    have : (0 : ℤ) < 2 ^ (w - 1) := by positivity
    omega

theorem mul_nat (w x y : ℕ) : mul w x y = if x * y < 2 ^ (w - 1) then .ok ((x * y : ℕ) : ℤ) else .error .invalid := by
  unfold mul
  have : ((x : ℤ) * y) = ((x * y : ℕ) : ℤ) := by push_cast; rfl
  rw [this]
  by_cases h : x * y < 2 ^ (w - 1)
  · rw [if_pos (fits_nat.2 h), if_pos h]
  · rw [if_neg (fun h' => h (fits_nat.1 h')), if_neg h]

theorem add_nat (w x y : ℕ) : add w x y = if x + y < 2 ^ (w - 1) then .ok ((x + y : ℕ) : ℤ) else .error .invalid := by
  unfold add
  have : ((x : ℤ) + y) = ((x + y : ℕ) : ℤ) := by push_cast; rfl
  rw [this]
  by_cases h : x + y < 2 ^ (w - 1)
  · rw [if_pos (fits_nat.2 h), if_pos h]
  · rw [if_neg (fun h' => h (fits_nat.1 h')), if_neg h]

theorem rdI_nat {α : Type _} (a : Array α) (k : ℕ) : rdI a (k : ℤ) = rd a k := by
  unfold rdI
  rw [if_neg (by omega)]
  rfl

theorem alloc_nat (k : ℕ) : alloc (k : ℤ) = .ok k := by
  unfold alloc
  rw [if_neg (by omega)]
  rfl

theorem narrow_nat {w x : ℕ} (hw : 1 ≤ w) (h : x < 2 ^ (w - 1)) : narrow w (x : ℤ) = x := by
  unfold narrow
  obtain ⟨w, rfl⟩ := Nat.exists_eq_add_of_le' hw
  simp only [Nat.add_sub_cancel] at h
  have h2 : (2 ^ (w + 1) : ℕ) = 2 * 2 ^ w := by ring
  rw [Int.bmod_def, if_pos]
  · rw [Int.emod_eq_of_lt (by omega)]
    rw [h2]; push_cast
    have : (x : ℤ) < 2 ^ w := by exact_mod_cast h
    have : (0 : ℤ) < 2 ^ w := by positivity
    omega
  · rw [Int.emod_eq_of_lt (by omega)]
    · rw [h2]; push_cast
      have : (x : ℤ) < 2 ^ w := by exact_mod_cast h
      omega
    · rw [h2]; push_cast
      have : (x : ℤ) < 2 ^ w := by exact_mod_cast h
      have : (0 : ℤ) < 2 ^ w := by positivity
      omega

/-- Between `2^(w-1)` and `2^w` the converted number is negative. -/
theorem narrow_wrap {w x : ℕ} (hw : 1 ≤ w) (h : 2 ^ (w - 1) ≤ x) (h' : x < 2 ^ w) :
    narrow w (x : ℤ) = (x : ℤ) - 2 ^ w := by
  unfold narrow
  obtain ⟨w, rfl⟩ := Nat.exists_eq_add_of_le' hw
  simp only [Nat.add_sub_cancel] at h
  have h2 : (2 ^ (w + 1) : ℕ) = 2 * 2 ^ w := by ring
  have e : ((2 ^ (w + 1) : ℕ) : ℤ) = 2 * 2 ^ w := by rw [h2]; push_cast; rfl
  have g1 : (2 : ℤ) ^ w ≤ x := by exact_mod_cast h
  have g2 : (x : ℤ) < 2 * 2 ^ w := by rw [← e]; exact_mod_cast h'
  rw [Int.bmod_def, Int.emod_eq_of_lt (by omega) (by rw [e]; exact g2), if_neg]
  · rw [e]; ring
  · rw [e]; omega

/-- Two loops whose bodies agree in the iterations that are made. -/
theorem loopN_congr {σ : Type _} {step : Nat} {b1 b2 : Nat → σ → Except Fault σ} : ∀ (c i : Nat) (s : σ),
    (∀ k < c, ∀ s, b1 (i + k * step) s = b2 (i + k * step) s) → loopN step b1 c i s = loopN step b2 c i s := by
  intro c
  induction c with
  | zero => intro i s _; rfl
  | succ c ih =>
    intro i s h
    simp only [loopN]
    have h0 := h 0 (by omega) s
    simp only [Nat.zero_mul, Nat.add_zero] at h0
    rw [h0]
    cases b2 i s with
    | error e => rfl
    | ok s1 =>
      simp only [Except.ok_bind']
      refine ih _ _ fun k hk s => ?_
      have := h (k + 1) (by omega) s
      rwa [show i + (k + 1) * step = i + step + k * step by ring] at this

theorem forRange_congr {σ : Type _} {b1 b2 : Nat → σ → Except Fault σ} {lo hi : Nat} (s : σ)
    (h : ∀ k, lo ≤ k → k < hi → ∀ s, b1 k s = b2 k s) : forRange lo hi b1 s = forRange lo hi b2 s := by
  unfold forRange
  refine loopN_congr _ _ _ fun k hk s => ?_
  simp only [Nat.mul_one]
  exact h _ (by omega) (by omega) s

/-- A loop that returns has made every iteration without a fault. -/
theorem loopN_ok_iter {σ : Type _} {step : Nat} {b : Nat → σ → Except Fault σ} : ∀ (c i : Nat) (s r : σ),
    loopN step b c i s = .ok r → ∀ k < c, ∃ s1 s2, b (i + k * step) s1 = .ok s2 := by
  intro c
  induction c with
  | zero => intro i s r _ k hk; omega
  | succ c ih =>
    intro i s r h k hk
    simp only [loopN] at h
    obtain ⟨s1, h1, h2⟩ := bind_ok_iff.1 h
    cases k with
    | zero => exact ⟨s, s1, by simpa using h1⟩
    | succ k =>
      obtain ⟨t1, t2, h3⟩ := ih _ _ _ h2 k (by omega)
      exact ⟨t1, t2, by rwa [show i + (k + 1) * step = i + step + k * step by ring]⟩

theorem forRange_ok_iter {σ : Type _} {b : Nat → σ → Except Fault σ} {lo hi : Nat} {s r : σ}
    (h : forRange lo hi b s = .ok r) {k : Nat} (h1 : lo ≤ k) (h2 : k < hi) : ∃ s1 s2, b k s1 = .ok s2 := by
  obtain ⟨s1, s2, h3⟩ := loopN_ok_iter _ _ _ _ h (k - lo) (by omega)
  rw [show lo + (k - lo) * 1 = k by omega] at h3
  exact ⟨s1, s2, h3⟩

section Dense

variable {K : Type _} [CommRing K] [DecidableEq K]

theorem plainDot_ok {a b : Nat → Except Fault K} {n : Nat} {r : K} (h : plainDot a b n = .ok r) {j : Nat} (hj : j < n) :
    ∃ x, a j = .ok x := by
  obtain ⟨s1, s2, h1⟩ := forRange_ok_iter h (Nat.zero_le j) hj
  obtain ⟨x, h2, -⟩ := bind_ok_iff.1 h1
  exact ⟨x, h2⟩

theorem chunkedDot_ok {a b : Nat → Except Fault K} {n : Nat} {r : K} (h : chunkedDot a b n = .ok r) {j : Nat}
    (hj : j < n) : ∃ x, a j = .ok x := by
  unfold chunkedDot at h
  obtain ⟨s, h1, h2⟩ := bind_ok_iff.1 h
  by_cases hc : n - n % 5 ≤ j
  · obtain ⟨s1, s2, h3⟩ := forRange_ok_iter h2 hc hj
    obtain ⟨x, h4, -⟩ := bind_ok_iff.1 h3
    exact ⟨x, h4⟩
  · unfold forStep at h1
    obtain ⟨s1, s2, h3⟩ := loopN_ok_iter _ _ _ _ h1 (j / 5) (by omega)
    have hd := Nat.div_add_mod j 5
    have hm := Nat.mod_lt j (show 0 < 5 by norm_num)
    simp only [Nat.zero_add] at h3
    obtain ⟨x0, g0, h3⟩ := bind_ok_iff.1 h3
    obtain ⟨y0, -, h3⟩ := bind_ok_iff.1 h3
    obtain ⟨x1, g1, h3⟩ := bind_ok_iff.1 h3
    obtain ⟨y1, -, h3⟩ := bind_ok_iff.1 h3
    obtain ⟨x2, g2, h3⟩ := bind_ok_iff.1 h3
    obtain ⟨y2, -, h3⟩ := bind_ok_iff.1 h3
    obtain ⟨x3, g3, h3⟩ := bind_ok_iff.1 h3
    obtain ⟨y3, -, h3⟩ := bind_ok_iff.1 h3
    obtain ⟨x4, g4, h3⟩ := bind_ok_iff.1 h3
    have h5 : j = j / 5 * 5 ∨ j = j / 5 * 5 + 1 ∨ j = j / 5 * 5 + 2 ∨ j = j / 5 * 5 + 3 ∨ j = j / 5 * 5 + 4 := by omega
    rcases h5 with e | e | e | e | e <;> rw [e]
    exacts [⟨_, g0⟩, ⟨_, g1⟩, ⟨_, g2⟩, ⟨_, g3⟩, ⟨_, g4⟩]

theorem rowMajorAt_eq (w : ℕ) (A : Array K) {m i j : ℕ} (h : i * m + j < 2 ^ (w - 1)) :
    rowMajorAt w A m i j = rd A (i * m + j) := by
  unfold rowMajorAt
  rw [mul_nat, if_pos (by omega)]
  simp only [Except.ok_bind']
  rw [add_nat, if_pos h]
  simp only [Except.ok_bind']
  exact rdI_nat _ _

theorem columnMajorAt_eq (w : ℕ) (A : Array K) {n i j : ℕ} (h : i + n * j < 2 ^ (w - 1)) :
    columnMajorAt w A n i j = rd A (i + n * j) := by
  unfold columnMajorAt
  rw [mul_nat, if_pos (by omega)]
  simp only [Except.ok_bind']
  rw [add_nat, if_pos h]
  simp only [Except.ok_bind']
  exact rdI_nat _ _

theorem rowMajorAt_overflow (w : ℕ) (A : Array K) {m i j : ℕ} (h : 2 ^ (w - 1) ≤ i * m + j) (x : K) :
    rowMajorAt w A m i j ≠ .ok x := by
  unfold rowMajorAt
  rw [mul_nat]
  split_ifs
  · simp only [Except.ok_bind']
    rw [add_nat, if_neg (by omega)]
    simp [Except.error_bind']
  · simp [Except.error_bind']

theorem columnMajorAt_overflow (w : ℕ) (A : Array K) {n i j : ℕ} (h : 2 ^ (w - 1) ≤ i + n * j) (x : K) :
    columnMajorAt w A n i j ≠ .ok x := by
  unfold columnMajorAt
  rw [mul_nat]
  split_ifs
  · simp only [Except.ok_bind']
    rw [add_nat, if_neg (by omega)]
    simp [Except.error_bind']
  · simp [Except.error_bind']

theorem row_index_lt {n m i j : ℕ} (hi : i < n) (hj : j < m) : i * m + j < n * m :=
  calc i * m + j < i * m + m := by omega
    _ = (i + 1) * m := by ring
    _ ≤ n * m := Nat.mul_le_mul_right _ hi

theorem col_index_lt {n m i j : ℕ} (hi : i < n) (hj : j < m) : i + n * j < n * m :=
  calc i + n * j < n + n * j := by omega
    _ = n * (j + 1) := by ring
    _ ≤ n * m := Nat.mul_le_mul_left _ hj

theorem chunkedDot_congr {a a' b : Nat → Except Fault K} {n : Nat} (h : ∀ j < n, a j = a' j) :
    chunkedDot a b n = chunkedDot a' b n := by
  unfold chunkedDot
  have h1 : forStep 5 (n - n % 5) (fun j s => do
      .ok (s + ((← a j) * (← b j) + (← a (j+1)) * (← b (j+1)) + (← a (j+2)) * (← b (j+2)) +
        (← a (j+3)) * (← b (j+3)) + (← a (j+4)) * (← b (j+4))))) (0 : K) =
      forStep 5 (n - n % 5) (fun j s => do
      .ok (s + ((← a' j) * (← b j) + (← a' (j+1)) * (← b (j+1)) + (← a' (j+2)) * (← b (j+2)) +
        (← a' (j+3)) * (← b (j+3)) + (← a' (j+4)) * (← b (j+4))))) 0 := by
    unfold forStep
    refine loopN_congr _ _ _ fun k hk s => ?_
    rw [h _ (by omega), h _ (by omega), h _ (by omega), h _ (by omega), h _ (by omega)]
  simp only [h1]
  congr 1
  funext s
  refine forRange_congr _ fun k _ hk s => ?_
  rw [h k hk]

theorem plainDot_congr {a a' b : Nat → Except Fault K} {n : Nat} (h : ∀ j < n, a j = a' j) :
    plainDot a b n = plainDot a' b n := by
  unfold plainDot
  refine forRange_congr _ fun k _ hk s => ?_
  rw [h k hk]

end Dense

end Imate.Machine

namespace Imate.Machine

open MatrixOps Matrix

section Products

variable {K : Type _} [CommRing K] [DecidableEq K]

theorem denseMatvec_same (w : ℕ) (A b c : Array K) {n m : ℕ} (h : n * m ≤ 2 ^ (w - 1)) (rm : Bool) :
    denseMatvec w A b n m rm c = MatrixOps.denseMatvec A b n m rm c := by
  unfold denseMatvec MatrixOps.denseMatvec
  cases rm
  · simp only [Bool.false_eq_true, if_false]
    refine forRange_congr _ fun i _ hi s => ?_
    rw [plainDot_congr fun j hj => columnMajorAt_eq w A (lt_of_lt_of_le (col_index_lt hi hj) h)]
  · simp only [if_true]
    refine forRange_congr _ fun i _ hi s => ?_
    rw [chunkedDot_congr fun j hj => rowMajorAt_eq w A (lt_of_lt_of_le (row_index_lt hi hj) h)]

theorem denseTransposedMatvec_same (w : ℕ) (A b c : Array K) {n m : ℕ} (h : n * m ≤ 2 ^ (w - 1)) (rm : Bool) :
    denseTransposedMatvec w A b n m rm c = MatrixOps.denseTransposedMatvec A b n m rm c := by
  unfold denseTransposedMatvec MatrixOps.denseTransposedMatvec
  cases rm
  · simp only [Bool.false_eq_true, if_false]
    refine forRange_congr _ fun j _ hj s => ?_
    rw [chunkedDot_congr fun i hi => columnMajorAt_eq w A (lt_of_lt_of_le (col_index_lt hi hj) h)]
  · simp only [if_true]
    refine forRange_congr _ fun j _ hj s => ?_
    rw [plainDot_congr fun i hi => rowMajorAt_eq w A (lt_of_lt_of_le (row_index_lt hi hj) h)]

theorem denseMatvecPlus_same (w : ℕ) (A b c : Array K) (alpha : K) {n m : ℕ} (h : n * m ≤ 2 ^ (w - 1)) (rm : Bool) :
    denseMatvecPlus w A b alpha n m rm c = MatrixOps.denseMatvecPlus A b alpha n m rm c := by
  unfold denseMatvecPlus MatrixOps.denseMatvecPlus
  split_ifs
  · rfl
  · refine forRange_congr _ fun i _ hi s => ?_
    rw [chunkedDot_congr fun j hj => rowMajorAt_eq w A (lt_of_lt_of_le (row_index_lt hi hj) h)]
  · refine forRange_congr _ fun i _ hi s => ?_
    rw [plainDot_congr fun j hj => columnMajorAt_eq w A (lt_of_lt_of_le (col_index_lt hi hj) h)]

theorem denseTransposedMatvecPlus_same (w : ℕ) (A b c : Array K) (alpha : K) {n m : ℕ} (h : n * m ≤ 2 ^ (w - 1))
    (rm : Bool) :
    denseTransposedMatvecPlus w A b alpha n m rm c = MatrixOps.denseTransposedMatvecPlus A b alpha n m rm c := by
  unfold denseTransposedMatvecPlus MatrixOps.denseTransposedMatvecPlus
  split_ifs
  · rfl
  · refine forRange_congr _ fun j _ hj s => ?_
    rw [plainDot_congr fun i hi => rowMajorAt_eq w A (lt_of_lt_of_le (row_index_lt hi hj) h)]
  · refine forRange_congr _ fun j _ hj s => ?_
    rw [chunkedDot_congr fun i hi => columnMajorAt_eq w A (lt_of_lt_of_le (col_index_lt hi hj) h)]

theorem last_row {w n m : ℕ} (hn : 0 < n) (hm : 0 < m) (h : 2 ^ (w - 1) < n * m) :
    2 ^ (w - 1) ≤ (n - 1) * m + (m - 1) := by
  obtain ⟨n, rfl⟩ : ∃ k, n = k + 1 := ⟨n - 1, by omega⟩
  have : (n + 1) * m = n * m + m := by ring
  simp only [Nat.add_sub_cancel]
  omega

theorem last_col {w n m : ℕ} (hn : 0 < n) (hm : 0 < m) (h : 2 ^ (w - 1) < n * m) :
    2 ^ (w - 1) ≤ (n - 1) + n * (m - 1) := by
  obtain ⟨m, rfl⟩ : ∃ k, m = k + 1 := ⟨m - 1, by omega⟩
  have : n * (m + 1) = n * m + n := by ring
  simp only [Nat.add_sub_cancel]
  omega

theorem denseMatvec_overflow (w : ℕ) (A b c r : Array K) {n m : ℕ} (hn : 0 < n) (hm : 0 < m)
    (h : 2 ^ (w - 1) < n * m) (rm : Bool) : denseMatvec w A b n m rm c ≠ .ok r := by
  intro e
  unfold denseMatvec at e
  cases rm
  · simp only [Bool.false_eq_true, if_false] at e
    obtain ⟨s1, s2, e⟩ := forRange_ok_iter e (Nat.zero_le (n - 1)) (by omega)
    obtain ⟨x, e, -⟩ := bind_ok_iff.1 e
    obtain ⟨y, e⟩ := plainDot_ok e (j := m - 1) (by omega)
    exact columnMajorAt_overflow w A (last_col hn hm h) y e
  · simp only [if_true] at e
    obtain ⟨s1, s2, e⟩ := forRange_ok_iter e (Nat.zero_le (n - 1)) (by omega)
    obtain ⟨x, e, -⟩ := bind_ok_iff.1 e
    obtain ⟨y, e⟩ := chunkedDot_ok e (j := m - 1) (by omega)
    exact rowMajorAt_overflow w A (last_row hn hm h) y e

theorem denseTransposedMatvec_overflow (w : ℕ) (A b c r : Array K) {n m : ℕ} (hn : 0 < n) (hm : 0 < m)
    (h : 2 ^ (w - 1) < n * m) (rm : Bool) : denseTransposedMatvec w A b n m rm c ≠ .ok r := by
  intro e
  unfold denseTransposedMatvec at e
  cases rm
  · simp only [Bool.false_eq_true, if_false] at e
    obtain ⟨s1, s2, e⟩ := forRange_ok_iter e (Nat.zero_le (m - 1)) (by omega)
    obtain ⟨x, e, -⟩ := bind_ok_iff.1 e
    obtain ⟨y, e⟩ := chunkedDot_ok e (j := n - 1) (by omega)
    exact columnMajorAt_overflow w A (last_col hn hm h) y e
  · simp only [if_true] at e
    obtain ⟨s1, s2, e⟩ := forRange_ok_iter e (Nat.zero_le (m - 1)) (by omega)
    obtain ⟨x, e, -⟩ := bind_ok_iff.1 e
    obtain ⟨y, e⟩ := plainDot_ok e (j := n - 1) (by omega)
    exact rowMajorAt_overflow w A (last_row hn hm h) y e

theorem denseMatvecPlus_overflow (w : ℕ) (A b c r : Array K) {alpha : K} (ha : alpha ≠ 0) {n m : ℕ} (hn : 0 < n)
    (hm : 0 < m) (h : 2 ^ (w - 1) < n * m) (rm : Bool) : denseMatvecPlus w A b alpha n m rm c ≠ .ok r := by
  intro e
  unfold denseMatvecPlus at e
  rw [if_neg ha] at e
  cases rm
  · simp only [Bool.false_eq_true, if_false] at e
    obtain ⟨s1, s2, e⟩ := forRange_ok_iter e (Nat.zero_le (n - 1)) (by omega)
    obtain ⟨x, e, -⟩ := bind_ok_iff.1 e
    obtain ⟨y, e⟩ := plainDot_ok e (j := m - 1) (by omega)
    exact columnMajorAt_overflow w A (last_col hn hm h) y e
  · simp only [if_true] at e
    obtain ⟨s1, s2, e⟩ := forRange_ok_iter e (Nat.zero_le (n - 1)) (by omega)
    obtain ⟨x, e, -⟩ := bind_ok_iff.1 e
    obtain ⟨y, e⟩ := chunkedDot_ok e (j := m - 1) (by omega)
    exact rowMajorAt_overflow w A (last_row hn hm h) y e

theorem denseTransposedMatvecPlus_overflow (w : ℕ) (A b c r : Array K) {alpha : K} (ha : alpha ≠ 0) {n m : ℕ}
    (hn : 0 < n) (hm : 0 < m) (h : 2 ^ (w - 1) < n * m) (rm : Bool) :
    denseTransposedMatvecPlus w A b alpha n m rm c ≠ .ok r := by
  intro e
  unfold denseTransposedMatvecPlus at e
  rw [if_neg ha] at e
  cases rm
  · simp only [Bool.false_eq_true, if_false] at e
    obtain ⟨s1, s2, e⟩ := forRange_ok_iter e (Nat.zero_le (m - 1)) (by omega)
    obtain ⟨x, e, -⟩ := bind_ok_iff.1 e
    obtain ⟨y, e⟩ := chunkedDot_ok e (j := n - 1) (by omega)
    exact columnMajorAt_overflow w A (last_col hn hm h) y e
  · simp only [if_true] at e
    obtain ⟨s1, s2, e⟩ := forRange_ok_iter e (Nat.zero_le (m - 1)) (by omega)
    obtain ⟨x, e, -⟩ := bind_ok_iff.1 e
    obtain ⟨y, e⟩ := plainDot_ok e (j := n - 1) (by omega)
    exact rowMajorAt_overflow w A (last_row hn hm h) y e

theorem castIndices_get (w : ℕ) (a : Array ℕ) (k : ℕ) :
    (castIndices w a)[k]? = (a[k]?).map fun x : ℕ => narrow w (x : ℤ) := by
  unfold castIndices
  rw [Array.getElem?_map]

theorem rd_cast {w : ℕ} (hw : 1 ≤ w) {a : Array ℕ} {k x : ℕ} (h : a[k]? = some x) (hx : x < 2 ^ (w - 1)) :
    rd (castIndices w a) k = .ok (x : ℤ) := by
  apply rd_ok
  rw [castIndices_get, h, Option.map_some, narrow_nat hw hx]

omit [DecidableEq K] in
theorem gather_same {w : ℕ} (hw : 1 ≤ w) (data b : Array K) {ix : Array ℕ} {lo hi m : ℕ} (hle : lo ≤ hi)
    (hix : ∀ k, lo ≤ k → k < hi → ∃ j < m, ix[k]? = some j) (hm : m ≤ 2 ^ (w - 1)) :
    gather data (castIndices w ix) b (lo : ℤ) (hi : ℤ) = MatrixOps.gather data ix b lo hi := by
  unfold gather MatrixOps.gather
  by_cases h : hi ≤ lo
  · have : hi = lo := le_antisymm h hle
    subst this
    rw [if_pos le_rfl]
    simp [forRange, loopN]
  · rw [if_neg (by omega), if_neg (by omega)]
    simp only [Int.toNat_natCast]
    refine forRange_congr _ fun k h1 h2 s => ?_
    obtain ⟨j, hj, e⟩ := hix k h1 h2
    rw [rd_cast hw e (by omega), rd_ok e]
    simp only [Except.ok_bind', rdI_nat]

theorem wrI_nat {α : Type _} (a : Array α) (k : ℕ) (x : α) : wrI a (k : ℤ) x = wr a k x := by
  unfold wrI
  rw [if_neg (by omega)]
  rfl

omit [DecidableEq K] in
theorem scatter_same {w : ℕ} (hw : 1 ≤ w) (data b c : Array K) (alpha : Option K) (p : ℕ) {ix : Array ℕ}
    {lo hi m : ℕ} (hle : lo ≤ hi) (hix : ∀ k, lo ≤ k → k < hi → ∃ j < m, ix[k]? = some j)
    (hm : m ≤ 2 ^ (w - 1)) :
    scatter data (castIndices w ix) b alpha p (lo : ℤ) (hi : ℤ) c = MatrixOps.scatter data ix b alpha p lo hi c := by
  unfold scatter MatrixOps.scatter
  by_cases h : hi ≤ lo
  · have : hi = lo := le_antisymm h hle
    subst this
    rw [if_pos le_rfl]
    simp [forRange, loopN]
  · rw [if_neg (by omega), if_neg (by omega)]
    simp only [Int.toNat_natCast]
    refine forRange_congr _ fun k h1 h2 s => ?_
    obtain ⟨j, hj, e⟩ := hix k h1 h2
    rw [rd_cast hw e (by omega), rd_ok e]
    simp only [Except.ok_bind', rdI_nat, wrI_nat]

end Products

end Imate.Machine
