import Verif.Lemmas.SparseSpare
import Verif.Lemmas.SparseTriples
import Verif.Props.BallRadius
import Verif.Props.DenseCorrelation

/-!
# C50: the sparse correlation matrix
-/

namespace Imate.Props

open Imate.Sample Imate.Spec Real

variable {V : Type}

/-- The entries of the matrix that has to be generated. -/
abbrev wanted (p : SparseProblem V) : List (ℕ × ℕ × V) := thresholdedEntries p.n p.entry p.above

/-- Under every schedule, a run that ends without a fault and reports success stored each wanted entry once, and
nothing else. -/
theorem sparse_success_correct (p : SparseProblem V) (zero : V) (threads : ℕ) {s : SparseState V}
    (h : SparseRun p (sparseStart p zero threads) (.ok s)) (hs : s.success = true) : s.entries.Perm (wanted p) := by
  have := sparseRun_inv h (sparseStart_inv p zero threads) s rfl hs
  rw [allTriples_eq] at this
  exact Multiset.coe_eq_coe.1 this

/-- Under every schedule, arrays with room for the wanted entries are never exceeded, and the run reports success. -/
theorem sparse_room_partial (p : SparseProblem V) (zero : V) (threads : ℕ) (hroom : (wanted p).length ≤ p.maxNnz)
    {out : Except Fault (SparseState V)} (h : SparseRun p (sparseStart p zero threads) out) :
    ∃ s, out = .ok s ∧ s.success = true := by
  refine sparseRun_room ?_ h (sparseStart_inv p zero threads) (sparseStart_noStop p zero threads)
  rw [allTriples_eq, Multiset.coe_card]
  exact hroom

/-- No schedule goes on for ever: there is no infinite sequence of steps of threads that have something to do. -/
theorem sparse_terminates (p : SparseProblem V) (hc : 0 < p.chunk) :
    ¬ ∃ σ : ℕ → SparseState V, ∀ k, ∃ m th, (σ k).threads[m.thread]? = some th ∧ Busy p (σ k) th ∧
      m.Possible (σ k) ∧ sparseStep p (σ k) m th = .ok (σ (k + 1)) := by
  rintro ⟨σ, hσ⟩
  have hlt : ∀ k, weight p (σ (k + 1)) < weight p (σ k) := by
    intro k
    obtain ⟨m, th, ht, hb, _, he⟩ := hσ k
    exact sparseStep_weight hc ht hb he
  have hle : ∀ k, weight p (σ k) + k ≤ weight p (σ 0) := by
    intro k
    induction k with
    | zero => simp
    | succ k ih => have := hlt k; omega
  have := hle (weight p (σ 0) + 1)
  omega

/-- A case: two threads and room for the entries of a matrix of size 3; there is a run. -/
example : ∃ s, SparseRun (⟨3, 1, 9, fun i j => i + j, fun v => decide (v < 3)⟩ : SparseProblem ℕ)
    (sparseStart ⟨3, 1, 9, fun i j => i + j, fun v => decide (v < 3)⟩ 0 2) (.ok s) := by
  refine sparseRun_exists (by norm_num) ?_ _ _ rfl (sparseStart_inv _ _ _) (sparseStart_noStop _ _ _) (by
    simp [sparseStart])
  rw [allTriples_eq, Multiset.coe_card]
  decide

/-- The chunk of rows handed to OpenMP, whose `schedule` needs a positive one, is positive for every size and every
number of threads, and no longer than the rows that there are. -/
theorem chunk_positive (n numThreads : ℕ) : 0 < chunkSize n numThreads ∧ chunkSize n numThreads ≤ max 1 n := by
  unfold chunkSize
  have := Nat.div_le_self n numThreads
  split_ifs <;> omega

/-- Whatever the arguments, no schedule of `correlation_matrix` with `sparse=True` goes on for ever, and every attempt
with a given number of threads ends. -/
theorem sparse_setup_terminates {kv : ℝ → ℝ → ℝ} {rand : ℕ → ℕ} {randMax size d : ℕ} {scale : ℝ} {kernel : String}
    {param : Option (XR ℝ)} {grid : Bool} {density : ℝ} {numThreads : ℕ} {p : SparseProblem (Option ℝ)}
    (hp : sparseSetup kv rand randMax size d scale kernel param grid density numThreads = .ok p) (m : ℕ) :
    ¬ ∃ σ : ℕ → SparseState (Option ℝ), ∀ k, ∃ mv th, (σ k).threads[mv.thread]? = some th ∧
      Busy { p with maxNnz := m } (σ k) th ∧ mv.Possible (σ k) ∧
      sparseStep { p with maxNnz := m } (σ k) mv th = .ok (σ (k + 1)) := by
  have hc : 0 < p.chunk := by
    simp only [sparseSetup, bind, Except.bind] at hp
    split at hp
    · simp at hp
    · split at hp
      · simp at hp
      · split at hp
        · simp at hp
        · simp only [Except.ok.injEq] at hp
          rw [← hp]
          exact (chunk_positive _ _).1
  exact sparse_terminates { p with maxNnz := m } hc

/-- The arrays of `p.maxNnz` elements with `spare` more elements behind each. -/
def spareStart (p : SparseProblem V) (zero : V) (threads spare : ℕ) : SparseState V :=
  { sparseStart p zero threads with
    rows := Array.replicate (p.maxNnz + spare) 0
    cols := Array.replicate (p.maxNnz + spare) 0
    data := Array.replicate (p.maxNnz + spare) zero }

/-- How far the arrays can be exceeded: on a machine where every store is seen at once, with `T` threads, no schedule
stores more than `2 T - 1` entries too many, so that many more elements would have made the matrix safe however small
the arrays are.  (`sparse_writes_out_of_bounds` shows that none is not enough, even for one thread.) -/
theorem sparse_overflow_bounded_partial (p : SparseProblem V) (zero : V) {threads : ℕ} (ht : 0 < threads)
    {out : Except Fault (SparseState V)} (h : FreshRun p (spareStart p zero threads (2 * threads - 1)) out) :
    ∃ s, out = .ok s := by
  refine freshRun_spare (T := threads) h ⟨⟨?_, ?_, ?_, ?_⟩, ?_, ?_⟩
  · simp [spareStart]; omega
  · simp [spareStart]; omega
  · simp [spareStart]; omega
  · simp [spareStart, sparseStart]
  · simp [spareStart, sparseStart]
  · have : ∀ k : ℕ, ((List.replicate k (⟨.idle, []⟩ : SparseThread)).map addWeight).sum = 0 := by
      intro k; simp [addWeight]
    simp only [spareStart, sparseStart, this]
    omega

/-- A case: one thread, arrays of two elements and a full matrix of size 2: the second entry is stored in the last
element and, opposite to it, in the spare one. -/
example : ∃ s, FreshRun (⟨2, 1, 2, fun i j => i + j, fun _ => true⟩ : SparseProblem ℕ)
    (spareStart ⟨2, 1, 2, fun i j => i + j, fun _ => true⟩ 0 1 1) (.ok s) ∧ s.nnz = 3 ∧ s.success = false := by
  refine ⟨_, .step (m := ⟨0, true, 0⟩) rfl ⟨by simp, .inl (by simp [spareStart, sparseStart])⟩ (by simp [spareStart, sparseStart]) rfl
    (.step (m := ⟨0, true, 0⟩) rfl ⟨by simp, .inl (by simp [spareStart, sparseStart])⟩ (by simp [spareStart, sparseStart]) rfl
    (.step (m := ⟨0, true, 0⟩) rfl ⟨by simp, .inl (by simp [spareStart, sparseStart])⟩ (by simp [spareStart, sparseStart]) rfl
    (.step (m := ⟨0, true, 0⟩) rfl ⟨by simp, .inl (by simp [spareStart, sparseStart])⟩ (by simp [spareStart, sparseStart]) rfl
    (.step (m := ⟨0, true, 0⟩) rfl ⟨by simp, .inl (by simp [spareStart, sparseStart])⟩ (by simp [spareStart, sparseStart]) rfl
    (.step (m := ⟨0, true, 1⟩) rfl ⟨by simp, .inl le_rfl⟩ le_rfl rfl
    (.step (m := ⟨0, true, 1⟩) rfl ⟨by simp, .inl le_rfl⟩ le_rfl rfl
    (.step (m := ⟨0, true, 3⟩) rfl ⟨by simp, .inl le_rfl⟩ le_rfl rfl
    (.step (m := ⟨0, true, 3⟩) rfl ⟨by simp, .inl le_rfl⟩ le_rfl rfl
    (.step (m := ⟨0, true, 3⟩) rfl ⟨by simp, .inl le_rfl⟩ le_rfl rfl
    (.step (m := ⟨0, true, 3⟩) rfl ⟨by simp, .inl le_rfl⟩ le_rfl rfl
    (.step (m := ⟨0, true, 3⟩) rfl ⟨by simp, .inl le_rfl⟩ le_rfl rfl
    (.step (m := ⟨0, true, 3⟩) rfl ⟨by simp, .inl le_rfl⟩ le_rfl rfl
    (.done ?_ ?_))))))))))))), ?_, ?_⟩
  all_goals first | rfl | decide | simp [spareStart, sparseStart]

/-- The loop that doubles the arrays returns exactly the wanted entries whenever it returns. -/
theorem sparse_retry_correct (p : SparseProblem V) (zero : V) (threads : ℕ) {m : ℕ}
    {out : Except Fault (List (ℕ × ℕ × V))} (h : SparseRetry p zero threads m out) :
    ∀ l, out = .ok l → l.Perm (wanted p) := by
  induction h with
  | @done m s hrun hs =>
    rintro l he
    cases he
    exact sparse_success_correct { p with maxNnz := m } zero threads hrun hs
  | fault _ => intro l he; simp at he
  | again _ _ _ ih => exact ih

/-- The arrays are only doubled while they are too small, so the loop ends. -/
theorem sparse_retry_only_if_small (p : SparseProblem V) (zero : V) (threads : ℕ) {s : SparseState V}
    (h : SparseRun p (sparseStart p zero threads) (.ok s)) (hs : s.success = false) :
    p.maxNnz < (wanted p).length := by
  by_contra hc
  obtain ⟨s', he, hs'⟩ := sparse_room_partial p zero threads (not_lt.1 hc) h
  cases he
  simp [hs] at hs'

theorem mem_thresholded {n : ℕ} {entry : ℕ → ℕ → V} {above : V → Bool} {i j : ℕ} {v : V} :
    (i, j, v) ∈ thresholdedEntries n entry above ↔
      i < n ∧ j < n ∧ v = entry (min i j) (max i j) ∧ above v = true := by
  simp only [thresholdedEntries, List.mem_flatMap, List.mem_range]
  constructor
  · rintro ⟨i', hi, j', hj, h⟩
    split_ifs at h with ha
    · simp only [List.mem_singleton, Prod.mk.injEq] at h
      obtain ⟨rfl, rfl, rfl⟩ := h
      exact ⟨hi, hj, rfl, ha⟩
    · simp at h
  · rintro ⟨hi, hj, rfl, ha⟩
    exact ⟨i, hi, j, hj, by simp [ha]⟩

/-- What `correlation_matrix` with `sparse=True` generates: for a usable kernel, on the grid or at random points,
under every schedule, when the call returns it holds the entry `(i, j)` of the dense matrix if and only if it is above
the threshold, and the threshold is the correlation at the tapering radius. -/
theorem sparse_correlation_correct_partial {kv : ℝ → ℝ → ℝ} (hkv : IsBesselK kv) (rand : ℕ → ℕ) {randMax : ℕ}
    (hr : ∀ k, rand k ≤ randMax) {size : ℕ} (d : ℕ) {scale : ℝ} (hs : 0 < scale) {kernel : String}
    {param : Option (XR ℝ)} {nu : ℝ} (hk : Chooses kernel param nu) (grid : Bool) (hg : grid = true → 2 ≤ size)
    {density : ℝ} {numThreads : ℕ} {p : SparseProblem (Option ℝ)}
    (hp : sparseSetup kv rand randMax size d scale kernel param grid density numThreads = .ok p) :
    let n := if grid then size ^ d else size
    ∃ (x : Fin n → EuclideanSpace ℝ (Fin d)) (τ : Option ℝ),
      HoldsPoints (generatePoints rand randMax size d grid) x ∧
      (∃ k, getKernel kv kernel = .ok k ∧
        kernelThreshold k (kernelParam kernel param) scale n d density = .ok τ) ∧
      ∀ threads l, SparseRetry p (some 0) threads p.maxNnz (.ok l) →
        ∀ (i j : Fin n) v, (i.1, j.1, v) ∈ l ↔
          v = some (correlationMatrix nu scale x i j) ∧ ∃ t, τ = some t ∧ t < correlationMatrix nu scale x i j := by
  intro n
  obtain ⟨x, hpts, _, _⟩ := generated_points rand hr d grid hg
  obtain ⟨hc, k, hgk, hkk⟩ := chosen_kernel hkv hk
  have hlen : (generatePoints rand randMax size d grid).length = n := by rw [hpts]; simp [n]
  cases hthr : kernelThreshold k (kernelParam kernel param) scale n d density with
  | error e =>
    simp only [sparseSetup, hc, hgk, hlen] at hp
    simp [ofNative, hthr, bind, Except.bind] at hp
  | ok τ =>
    simp only [sparseSetup, hc, hgk, hlen] at hp
    simp only [ofNative, hthr, bind, Except.bind, Except.ok.injEq] at hp
    refine ⟨x, τ, hpts, ⟨k, hgk, hthr⟩, fun threads l hl i j v => ?_⟩
    have hperm := sparse_retry_correct p (some 0) threads hl l rfl
    rw [hperm.mem_iff, mem_thresholded]
    have hentry : p.entry (min i.1 j.1) (max i.1 j.1) = some (correlationMatrix nu scale x i j) := by
      rw [← hp]
      simp only
      rcases le_total i j with h | h
      · rw [min_eq_left (show i.1 ≤ j.1 from h), max_eq_right (show i.1 ≤ j.1 from h), correlation_eq hs hpts hkk]
      · rw [min_eq_right (show j.1 ≤ i.1 from h), max_eq_left (show j.1 ≤ i.1 from h), correlation_eq hs hpts hkk,
          correlationMatrix_symm]
    have hn : p.n = n := by rw [← hp]
    have habove : ∀ v, p.above v = aboveThreshold τ v := by intro v; rw [← hp]
    rw [hentry, hn, habove]
    constructor
    · rintro ⟨_, _, rfl, ha⟩
      refine ⟨rfl, ?_⟩
      cases τ with
      | none => simp [aboveThreshold] at ha
      | some t => exact ⟨t, rfl, by simpa [aboveThreshold] using ha⟩
    · rintro ⟨rfl, t, rfl, ht⟩
      exact ⟨i.2, j.2, rfl, by simpa [aboveThreshold] using ht⟩

theorem ballRadius_line (v : ℝ) : ballRadius v 1 = v / 2 := by
  have hp : √π ≠ 0 := (sqrt_pos.2 pi_pos).ne'
  have hG : Gamma (((1 : ℕ) : ℝ) / 2 + 1) = 1 / 2 * √π := by
    rw [Nat.cast_one, Gamma_add_one (by norm_num), Gamma_one_half_eq]
  rw [ballRadius_eq, hG, Nat.cast_one, div_one, rpow_one]
  field_simp

theorem maxNnz_line (n : ℕ) (density : ℝ) : maxNnz n 1 density = 2 * ⌈density * (n : ℝ) ^ 2⌉₊ := by
  simp only [maxNnz, ballRadius_line]
  rw [show (1 : ℝ) / (1 / 2) * (⌈density * (n : ℝ) ^ 2⌉₊ : ℝ) = ((2 * ⌈density * (n : ℝ) ^ 2⌉₊ : ℕ) : ℝ) by
    push_cast; norm_num]
  exact Nat.ceil_natCast _

/-- Refuted: at random points a single thread writes outside of the arrays, whenever the four points are close to each
other.  The test compares the number of stored entries with the size of the arrays before two entries are stored. -/
theorem sparse_writes_out_of_bounds (kv : ℝ → ℝ → ℝ) (rand : ℕ → ℕ) {randMax : ℕ}
    (hclose : ∀ i j, i < 4 → j < 4 → |(rand i : ℝ) / randMax - rand j / randMax| ≤ 28 / 100) {scale : ℝ}
    (hs : 0 < scale) :
    ∃ p, sparseSetup kv rand randMax 4 1 scale "exponential" none false (43 / 100) 1 = .ok p ∧
      SparseRetry p (some 0) 1 p.maxNnz (.error .outOfBounds) := by
  set pts := generatePoints rand randMax 4 1 false with hpts
  have hlen : pts.length = 4 := by simp [hpts, generatePoints, randomPoints]
  have hget : ∀ i, i < 4 → pts.getD i [] = [some ((rand i : ℝ) / randMax)] := by
    intro i hi
    simp [hpts, generatePoints, randomPoints, List.getD_eq_getElem?_getD, hi]
  have hexp : ∀ x : ℝ, 0 ≤ x → ∀ param, exponentialKernel kv (some x) param = some (exp (-x)) := by
    intro x _ param
    by_cases h : x = 0 <;> simp [exponentialKernel, maternKernel, h]
  have hnnz : maxNnz 4 1 (43 / 100) = 14 := by
    rw [maxNnz_line]
    have : ⌈(43 / 100 : ℝ) * ((4 : ℕ) : ℝ) ^ 2⌉₊ = 7 := by
      rw [Nat.ceil_eq_iff (by norm_num)]
      norm_num
    rw [this]
  have hτ : kernelThreshold (exponentialKernel kv) (kernelParam "exponential" none) scale 4 1 (43 / 100) =
      .ok (some (exp (-(43 / 150 / scale)))) := by
    simp only [kernelThreshold, ballRadius_line]
    rw [if_neg (by norm_num), if_neg (by norm_num), hexp _ (by positivity)]
    norm_num
  refine ⟨⟨4, 4, 14, correlation (exponentialKernel kv) (kernelParam "exponential" none) scale pts,
    aboveThreshold (some (exp (-(43 / 150 / scale))))⟩, ?_, ?_⟩
  · simp only [sparseSetup, ← hpts, hlen]
    simp [checkKernel, getKernel, ofNative, bind, Except.bind, hτ, hnnz, chunkSize]
  · refine .fault (single_sound (k := 40) (single_overflow _ _ (fun i j hi hj => ?_) _))
    have hd : euclideanDistance (pts.getD i []) (pts.getD j []) scale =
        some (|(rand i : ℝ) / randMax - rand j / randMax| / scale) := by
      rw [hget i hi, hget j hj]
      simp [euclideanDistance, distance2, sqrt_sq_eq_abs]
    have hv : correlation (exponentialKernel kv) (kernelParam "exponential" none) scale pts i j =
        some (exp (-(|(rand i : ℝ) / randMax - rand j / randMax| / scale))) := by
      rw [correlation, hd, hexp _ (by positivity)]
    simp only [hv, aboveThreshold, gt_iff_lt, decide_eq_true_eq, exp_lt_exp, neg_lt_neg_iff]
    have := hclose i j hi hj
    gcongr
    linarith

/-- A case: four different points. -/
example : ∀ i j, i < 4 → j < 4 → |((1000 * i : ℕ) : ℝ) / (32767 : ℕ) - ((1000 * j : ℕ) : ℝ) / (32767 : ℕ)| ≤ 28 / 100 := by
  intro i j hi hj
  interval_cases i <;> interval_cases j <;> norm_num [abs_le]

/-- The number of integers `j` closer to `i` than `a / 2`. -/
theorem card_close {n : ℕ} {a : ℝ} (ha : 0 ≤ a) (i : ℕ) :
    (((Finset.range n).filter fun j : ℕ => |(i : ℝ) - j| < a / 2).card : ℝ) ≤ a + 1 := by
  set k := ⌈a / 2⌉₊ with hk
  rcases Nat.eq_zero_or_pos k with h0 | hpos
  · have : a / 2 ≤ 0 := by
      have := Nat.le_ceil (a / 2)
      rw [← hk, h0] at this
      simpa using this
    rw [Finset.filter_false_of_mem]
    · simp; linarith
    · intro j _ h
      linarith [abs_nonneg ((i : ℝ) - j)]
  · have hsub : ((Finset.range n).filter fun j : ℕ => |(i : ℝ) - j| < a / 2) ⊆ Finset.Icc (i + 1 - k) (i + k - 1) := by
      intro j hj
      have hj' := (Finset.mem_filter.1 hj).2
      have hlt : |(i : ℝ) - j| < k := hj'.trans_le (Nat.le_ceil _)
      rw [abs_lt] at hlt
      have h1 : (i : ℝ) < k + j := by linarith
      have h2 : (j : ℝ) < k + i := by linarith
      have h1' : i < k + j := by exact_mod_cast h1
      have h2' : j < k + i := by exact_mod_cast h2
      rw [Finset.mem_Icc]
      omega
    have hcard := Finset.card_le_card hsub
    rw [Nat.card_Icc] at hcard
    have h3 : ((Finset.range n).filter fun j : ℕ => |(i : ℝ) - j| < a / 2).card + 1 ≤ 2 * k := by omega
    have h4 : (k : ℝ) < a / 2 + 1 := Nat.ceil_lt_add_one (by positivity)
    have h5 : (((Finset.range n).filter fun j : ℕ => |(i : ℝ) - j| < a / 2).card : ℝ) + 1 ≤ 2 * k := by exact_mod_cast h3
    linarith

theorem length_thresholded {n : ℕ} {entry : ℕ → ℕ → V} {above : V → Bool} :
    (thresholdedEntries n entry above).length =
      ∑ i ∈ Finset.range n, ((Finset.range n).filter fun j => above (entry (min i j) (max i j)) = true).card := by
  have h : ∀ (l : List ℕ) (i : ℕ), (l.flatMap fun j => if above (entry (min i j) (max i j)) then
      [(i, j, entry (min i j) (max i j))] else []).length =
      (l.filter fun j => above (entry (min i j) (max i j))).length := by
    intro l i
    induction l with
    | nil => rfl
    | cons x l ih =>
      rw [List.flatMap_cons, List.length_append, ih, List.filter_cons]
      split_ifs <;> simp [Nat.add_comm]
  rw [thresholdedEntries, List.length_flatMap]
  simp only [h]
  rw [List.range_eq_range', sum_range', zero_add, ← Finset.range_eq_Ico]
  refine Finset.sum_congr rfl fun i _ => ?_
  rw [← List.range_eq_range', Finset.card_def, Finset.filter_val, Finset.range_val, Multiset.range,
    Multiset.filter_coe, Multiset.coe_card]
  simp only [Bool.decide_eq_true]

/-- On a line (the default dimension) with a grid of at least two points the arrays are always large enough: for
every usable kernel, density and schedule, no thread writes outside of the arrays and the first attempt succeeds. -/
theorem sparse_line_in_bounds {kv : ℝ → ℝ → ℝ} (hkv : IsBesselK kv) (rand : ℕ → ℕ) (randMax : ℕ)
    {size : ℕ} (hsize : 2 ≤ size) {scale : ℝ} (hs : 0 < scale) {kernel : String} {param : Option (XR ℝ)} {nu : ℝ}
    (hk : Chooses kernel param nu) {density : ℝ} {numThreads : ℕ} {p : SparseProblem (Option ℝ)}
    (hp : sparseSetup kv rand randMax size 1 scale kernel param true density numThreads = .ok p) (threads : ℕ)
    {out : Except Fault (SparseState (Option ℝ))} (h : SparseRun p (sparseStart p (some 0) threads) out) :
    ∃ s, out = .ok s ∧ s.success = true ∧ s.entries.Perm (wanted p) := by
  suffices hroom : (wanted p).length ≤ p.maxNnz by
    obtain ⟨s, rfl, hsucc⟩ := sparse_room_partial p (some 0) threads hroom h
    exact ⟨s, rfl, hsucc, sparse_success_correct p (some 0) threads h hsucc⟩
  obtain ⟨hc, k, hgk, hkk⟩ := chosen_kernel hkv hk
  have hsz : (2 : ℝ) ≤ size := by exact_mod_cast hsize
  have hg1 : 0 < (size : ℝ) - 1 := by linarith
  have hlen : (generatePoints rand randMax size 1 true).length = size := by simp [generatePoints, gridPoints]
  have hnot : ¬ density * (size : ℝ) < 1 := by
    intro hlt
    simp only [sparseSetup, hc, hgk, hlen] at hp
    simp [ofNative, kernelThreshold, hlt, bind, Except.bind] at hp
  have hden : 1 ≤ density * size := not_lt.1 hnot
  -- the tapering radius
  set r := 1 / ((size : ℝ) - 1) * (density * size / 2) with hrdef
  have hr0 : 0 ≤ r / scale := by positivity
  have hthr : kernelThreshold k (kernelParam kernel param) scale size 1 density =
      .ok (some (maternCorrelation nu (r / scale))) := by
    simp only [kernelThreshold, ballRadius_line, Nat.cast_one, div_one, rpow_one]
    rw [if_neg hnot, if_neg hg1.ne', ← hrdef, hkk _ hr0]
  simp only [sparseSetup, hc, hgk, hlen] at hp
  simp only [ofNative, hthr, bind, Except.bind, Except.ok.injEq] at hp
  -- the coordinate of the point `i`
  have hpt : ∀ i, i < size → (generatePoints rand randMax size 1 true).getD i [] =
      [some ((i : ℝ) / ((size : ℝ) - 1))] := by
    intro i hi
    have hlat : latticePoint size 1 i = [(i : ℝ)] := by
      rw [latticePoint_eq (by omega)]
      simp [digs, Nat.mod_eq_of_lt hi]
    simp [generatePoints, gridPoints, List.getD_eq_getElem?_getD, hi, hlat, scaleCoord, show size ≠ 1 by omega,
      div_eq_mul_inv]
  -- an entry above the threshold belongs to points that are close to each other
  have hclose : ∀ i j, i < size → j < size → p.above (p.entry (min i j) (max i j)) = true →
      |(i : ℝ) - j| < density * size / 2 := by
    intro i j hi hj ha
    have hmin : min i j < size := by omega
    have hmax : max i j < size := by omega
    have habs : |((min i j : ℕ) : ℝ) - (max i j : ℕ)| = |(i : ℝ) - j| := by
      rcases le_total i j with h | h
      · rw [min_eq_left h, max_eq_right h]
      · rw [min_eq_right h, max_eq_left h, abs_sub_comm]
    have hdist : euclideanDistance [some (((min i j : ℕ) : ℝ) / ((size : ℝ) - 1))]
        [some (((max i j : ℕ) : ℝ) / ((size : ℝ) - 1))] scale = some (|(i : ℝ) - j| / (size - 1) / scale) := by
      simp only [euclideanDistance, distance2, Option.map_some, add_zero, sqrt_sq_eq_abs]
      rw [← sub_div, abs_div, abs_of_pos hg1, habs]
    rw [← hp] at ha
    simp only [correlation, hpt _ hmin, hpt _ hmax, hdist] at ha
    rw [hkk _ (by positivity)] at ha
    simp only [aboveThreshold, gt_iff_lt, decide_eq_true_eq] at ha
    by_contra hge
    rw [not_lt] at hge
    obtain ⟨f, hf, he⟩ := (kernels_are_correlations_partial (kv := besselK) fun _ _ _ _ => rfl).1 nu hk.1
    have hval : ∀ x, 0 ≤ x → maternCorrelation nu x = f x := by
      intro x hx
      have := (maternKernel_spec (kv := besselK) (fun _ _ _ _ => rfl) hk.1 hx).symm.trans (he x hx)
      simpa using this
    rw [hval _ hr0, hval _ (by positivity)] at ha
    have hle : r / scale ≤ |(i : ℝ) - j| / (size - 1) / scale := by
      rw [hrdef, one_div_mul_eq_div]
      gcongr
    exact absurd (hf.2.2 _ _ hr0 hle) (not_le.2 ha)
  have hn : p.n = size := by rw [← hp]
  have hmaxnnz : p.maxNnz = 2 * ⌈density * (size : ℝ) ^ 2⌉₊ := by rw [← hp]; exact maxNnz_line _ _
  have hcount : ((wanted p).length : ℝ) ≤ ∑ i ∈ Finset.range size, (density * size + 1) := by
    rw [wanted, length_thresholded, hn, Nat.cast_sum]
    refine Finset.sum_le_sum fun i hi => ?_
    refine le_trans ?_ (card_close (n := size) (a := density * size) (by linarith) i)
    refine Nat.cast_le.2 (Finset.card_le_card fun j hj => ?_)
    rw [Finset.mem_filter] at hj ⊢
    exact ⟨hj.1, hclose i j (Finset.mem_range.1 hi) (Finset.mem_range.1 hj.1) hj.2⟩
  rw [Finset.sum_const, Finset.card_range, nsmul_eq_mul] at hcount
  have hceil := Nat.le_ceil (density * (size : ℝ) ^ 2)
  have : ((wanted p).length : ℝ) ≤ ((2 * ⌈density * (size : ℝ) ^ 2⌉₊ : ℕ) : ℝ) := by
    push_cast
    nlinarith
  rw [hmaxnnz]
  exact_mod_cast this

/-- A case: ten points and the density 1/2. -/
example : ∃ p, sparseSetup besselK (fun _ => 0) 1 10 1 (1 / 10) "exponential" none true (1 / 2) 4 = .ok p := by
  have hlen : (generatePoints (fun _ => 0) 1 10 1 true).length = 10 := by simp [generatePoints, gridPoints]
  have hthr : ∃ τ, kernelThreshold (exponentialKernel besselK) (kernelParam "exponential" none) (1 / 10) 10 1 (1 / 2) =
      .ok τ := by
    simp only [kernelThreshold]
    rw [if_neg (by norm_num), if_neg (by norm_num)]
    exact ⟨_, rfl⟩
  obtain ⟨τ, hτ⟩ := hthr
  simp only [sparseSetup, hlen, checkKernel, getKernel]
  simp [ofNative, bind, Except.bind, hτ, -one_div]

end Imate.Props
