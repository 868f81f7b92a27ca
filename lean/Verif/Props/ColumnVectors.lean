import Verif.Lemmas.ColumnVectors
import Verif.Spec.ColumnVectors
import Verif.Props.Random
import Verif.Lemmas.SlqExact
import Mathlib.LinearAlgebra.Span.Basic
import Mathlib.LinearAlgebra.Finsupp.LinearCombination

/-!
# C18: the random vectors of the Hutchinson method
-/

namespace Imate.Props

open Imate.Columns Imate.Spec Imate.Random Imate.Lanczos Matrix

variable {n : ℕ}

theorem row_eq {V : Array (Fin n → ℝ)} {i : ℕ} (h : i < V.size) : row V i = V[i] := by
  simp [Columns.row, Array.getD, h]

theorem rademacher_norm {z : Fin n → ℝ} (hz : Rademacher z) {eps : ℝ} (he : eps ≤ 1) :
    eps * Real.sqrt n ≤ norm Real.sqrt z := by
  unfold Lanczos.norm
  rw [rademacher_dot hz]
  nlinarith [Real.sqrt_nonneg (n : ℝ)]

theorem threshold_pos {eps : ℝ} (he : 0 < eps) (hn : 1 ≤ n) : 0 < eps * Real.sqrt n :=
  mul_pos he (Real.sqrt_pos.2 (by exact_mod_cast hn))

theorem mem_spanBelow_iff {f : ℕ → Fin n → ℝ} {t : ℕ} {v : Fin n → ℝ} :
    v ∈ spanBelow f t ↔ CombinationOf f t v := by
  have hset : {x | ∃ a < t, x = f a} = Set.range (fun a : Fin t => f a) := by
    ext x
    constructor
    · rintro ⟨a, ha, rfl⟩; exact ⟨⟨a, ha⟩, rfl⟩
    · rintro ⟨a, rfl⟩; exact ⟨a, a.2, rfl⟩
  unfold spanBelow CombinationOf
  rw [hset, Submodule.mem_span_range_iff_exists_fun]
  constructor
  · rintro ⟨c, hc⟩; exact ⟨c, hc.symm⟩
  · rintro ⟨c, hc⟩; exact ⟨c, hc.symm⟩

/-- C18 (soundness).  For vectors of length `n ≥ 1` with entries `±1` and a generator that produces such
vectors, orthogonalisation either ends the process or returns the same number of non-zero, pairwise
orthogonal vectors, the first one unchanged. -/
theorem orthogonalize_sound (hn : 1 ≤ n) {eps : ℝ} (he : 0 < eps) (he1 : eps ≤ 1)
    (regen : ℕ → Fin n → ℝ) (hr : ∀ k, Rademacher (regen k)) (V : Array (Fin n → ℝ))
    (hV : ∀ i (h : i < V.size), Rademacher V[i]) :
    orthogonalizeVectors Real.sqrt eps regen V V.size = .error .abort ∨
    ∃ V', orthogonalizeVectors Real.sqrt eps regen V V.size = .ok V' ∧ V'.size = V.size ∧
      PairwiseOrthogonal V' ∧ (∀ i (h : i < V'.size), V'[i] ≠ 0) ∧ V'[0]? = V[0]? := by
  have hd := threshold_pos he hn
  have hV' : ∀ k < V.size, eps * Real.sqrt n ≤ norm Real.sqrt (row V k) := by
    intro k hk; rw [row_eq hk]; exact rademacher_norm (hV k hk) he1
  unfold orthogonalizeVectors
  by_cases h2 : V.size < 2
  · rw [if_pos h2]
    refine Or.inr ⟨V, rfl, rfl, ?_, ?_, rfl⟩
    · intro i j hi hj hij; omega
    · intro i hi; exact rademacher_ne_zero (hV i hi) (by omega)
  · rw [if_neg h2]
    rcases outer_spec regen hd (fun k => rademacher_norm (hr k) he1) V V.size rfl hV' with
      h | ⟨s, h, h3, h4, h5⟩
    · left; rw [h, Except.error_bind']
    · right
      refine ⟨s.V, by rw [h, Except.ok_bind'], h3, ?_, ?_, ?_⟩
      · intro i j hi hj hij
        rw [← row_eq hi, ← row_eq hj]
        exact h4.orth i (by omega) j (by omega) hij
      · intro i hi h0
        have := dot_pos_of_norm hd (h4.long i (by omega))
        rw [row_eq hi, h0, zero_dotProduct] at this
        exact lt_irrefl _ this
      · have h0 : 0 < s.V.size := by omega
        have h0' : 0 < V.size := by omega
        rw [Array.getElem?_eq_getElem h0, Array.getElem?_eq_getElem h0', ← row_eq h0, ← row_eq h0', h5]

example : ∀ i (h : i < #[(fun _ => 1 : Fin 2 → ℝ), ![1, -1]].size),
    Rademacher (#[(fun _ => 1 : Fin 2 → ℝ), ![1, -1]][i]) := by
  intro i hi
  have : i = 0 ∨ i = 1 := by simp at hi; omega
  rcases this with rfl | rfl
  · intro k; left; rfl
  · intro k; fin_cases k
    · left; rfl
    · right; rfl

/-- C18 fails for more vectors than dimensions: the process is ended, whatever the vectors and whatever
the generator produces. -/
theorem orthogonalize_too_many (hn : 1 ≤ n) {eps : ℝ} (he : 0 < eps) (he1 : eps ≤ 1)
    (regen : ℕ → Fin n → ℝ) (hr : ∀ k, Rademacher (regen k)) (V : Array (Fin n → ℝ))
    (hV : ∀ i (h : i < V.size), Rademacher V[i]) (hnum : n < V.size) :
    orthogonalizeVectors Real.sqrt eps regen V V.size = .error .abort := by
  rcases orthogonalize_sound hn he he1 regen hr V hV with h | ⟨V', -, h2, h3, h4, -⟩
  · exact h
  · exfalso
    have := card_le_of_orth (i := V'.size) (f := row V')
      (fun a ha b hb hab => by rw [row_eq ha, row_eq hb]; exact h3 a b ha hb hab)
      (fun a ha h0 => by
        rw [row_eq ha] at h0
        exact h4 a ha (dotProduct_self_eq_zero.1 h0))
    omega

example : ∃ (V : Array (Fin 1 → ℝ)), (∀ i (h : i < V.size), Rademacher V[i]) ∧ 1 < V.size :=
  ⟨#[fun _ => 1, fun _ => -1], by
    intro i hi
    have : i = 0 ∨ i = 1 := by simp at hi; omega
    rcases this with rfl | rfl
    · intro k; left; rfl
    · intro k; right; rfl, by simp⟩

/-- C18, partial: when every input vector keeps a distance of at least `eps·√n` from all combinations of
the earlier ones, the call returns, no vector is drawn again, the vectors are pairwise orthogonal, and
each differs from its input by a combination of the earlier inputs (so the result is the classical
Gram-Schmidt basis).  Missing: inputs with a dependent vector, see `fixed_seed_dependent_aborts`. -/
theorem orthogonalize_far_partial (hn : 1 ≤ n) {eps : ℝ} (he : 0 < eps) (V : Array (Fin n → ℝ))
    (hfar : ∀ i (h : i < V.size), ∀ u, CombinationOf (fun a => V.getD a 0) i u →
      (eps * Real.sqrt n) ^ 2 ≤ (V[i] - u) ⬝ᵥ (V[i] - u)) (regen : ℕ → Fin n → ℝ) :
    ∃ V', orthogonalizeVectors Real.sqrt eps regen V V.size = .ok V' ∧ V'.size = V.size ∧
      PairwiseOrthogonal V' ∧
      ∀ i (h : i < V.size) (h' : i < V'.size),
        CombinationOf (fun a => V.getD a 0) i (V[i] - V'[i]) := by
  have hd := threshold_pos he hn
  unfold orthogonalizeVectors
  by_cases h2 : V.size < 2
  · rw [if_pos h2]
    refine ⟨V, rfl, rfl, ?_, ?_⟩
    · intro i j hi hj hij; omega
    · intro i hi _
      exact ⟨fun _ => 0, by simp⟩
  · rw [if_neg h2]
    obtain ⟨s, h, hf⟩ := outer_far regen hd V (by
      intro k hk u hu
      have h1 := hfar k hk u (mem_spanBelow_iff.1 hu)
      rw [row_eq hk]
      exact Real.le_sqrt_of_sq_le h1)
    refine ⟨s.V, by rw [h, Except.ok_bind'], hf.size, ?_, ?_⟩
    · intro i j hi hj hij
      have := hf.size
      rw [← row_eq hi, ← row_eq hj]
      exact hf.base.orth i (by omega) j (by omega) hij
    · intro i hi hi'
      rw [← row_eq hi, ← row_eq hi']
      exact mem_spanBelow_iff.1 (hf.step i hi)

/-- Two vectors at distance one. -/
example : ∀ i (h : i < #[(![1, 0] : Fin 2 → ℝ), ![0, 1]].size), ∀ u,
    CombinationOf (fun a => #[(![1, 0] : Fin 2 → ℝ), ![0, 1]].getD a 0) i u →
    ((1/2) * Real.sqrt (2 : ℕ)) ^ 2 ≤
      (#[(![1, 0] : Fin 2 → ℝ), ![0, 1]][i] - u) ⬝ᵥ (#[(![1, 0] : Fin 2 → ℝ), ![0, 1]][i] - u) := by
  intro i hi u hu
  obtain ⟨c, hc⟩ := hu
  rw [mul_pow, Real.sq_sqrt (by norm_num)]
  have : i = 0 ∨ i = 1 := by simp at hi; omega
  rcases this with rfl | rfl
  · have : u = 0 := by rw [hc]; simp
    subst this
    norm_num [dotProduct, Fin.sum_univ_two]
  · have : u = c 0 • ![1, 0] := by rw [hc]; simp [Array.getD]
    subst this
    norm_num [dotProduct, Fin.sum_univ_two]
    nlinarith [mul_self_nonneg (c 0)]

/-! ### With the random generator -/

theorem pyGenerate_spec (clock : ℕ → BitVec 64) (seed : BitVec 64) (m : ℕ) {x : Xoshiro}
    (hx : initGenerators 1 clock seed = .ok #[x]) :
    ∃ a, pyGenerateRandomArray clock seed (Array.replicate m (0 : ℝ)) m = .ok a ∧ a.size = m ∧
      ∀ k < m, a[k]? = some (if (draw x (k / 64)).getLsbD (k % 64) then 1 else -1) := by
  obtain ⟨a, g', h1, h2, h3, -, -⟩ := random_vector_rademacher (K := ℝ) #[x] 0 x rfl
    (Array.replicate m (0 : ℝ)) m (by simp)
  refine ⟨a, ?_, by simpa using h2, h3⟩
  unfold pyGenerateRandomArray
  rw [hx, Except.ok_bind', h1, Except.ok_bind']

theorem rowOf_drawn {x : Xoshiro} {a : Array ℝ} {m j : ℕ} (hj : (j + 1) * n ≤ m)
    (h : ∀ k < m, a[k]? = some (if (draw x (k / 64)).getLsbD (k % 64) then 1 else -1)) :
    rowOf n a j = drawnVector x n j := by
  funext k
  have hk : j * n + k.1 < m := by
    have := k.2
    have : (j + 1) * n = j * n + n := by ring
    omega
  have h1 := h _ hk
  unfold rowOf drawnVector
  rw [Array.getD_eq_getD_getElem?, h1]
  rfl

theorem drawnVector_rademacher (x : Xoshiro) (n j : ℕ) : Rademacher (drawnVector x n j) := by
  intro k
  unfold drawnVector
  split
  · exact Or.inl rfl
  · exact Or.inr rfl

theorem initGenerators_one (clock : ℕ → BitVec 64) (seed : BitVec 64) :
    initGenerators 1 clock seed = .ok #[(Xoshiro.construct (clock 0) seed).jump] := by
  unfold initGenerators
  rw [if_neg (by omega)]
  rfl

theorem initGenerators_seed (clock clock' : ℕ → BitVec 64) {seed : BitVec 64} (hs : 0 ≤ seed.toInt) :
    initGenerators 1 clock seed = initGenerators 1 clock' seed := by
  rw [initGenerators_one, initGenerators_one]
  unfold Xoshiro.construct splitMixInit
  simp only [if_pos hs]

theorem regenerated_eq (clock : ℕ → BitVec 64) (seed : BitVec 64) (n : ℕ) {x : Xoshiro}
    (hx : initGenerators 1 clock seed = .ok #[x]) :
    (regenerated clock seed n : Fin n → ℝ) = drawnVector x n 0 := by
  obtain ⟨a, h1, -, h3⟩ := pyGenerate_spec clock seed n hx
  unfold regenerated
  rw [h1]
  exact rowOf_drawn (by omega) h3

/-- the vectors drawn at first, before orthogonalisation -/
theorem initial_rows {x : Xoshiro} {a : Array ℝ} {num : ℕ}
    (h : ∀ k < n * num, a[k]? = some (if (draw x (k / 64)).getLsbD (k % 64) then 1 else -1)) :
    Array.ofFn (fun j : Fin num => rowOf n a j) = Array.ofFn (fun j : Fin num => drawnVector x n j) := by
  congr 1
  funext j
  refine rowOf_drawn ?_ h
  have := j.2
  calc (j.1 + 1) * n ≤ num * n := Nat.mul_le_mul_right _ (by omega)
    _ = n * num := Nat.mul_comm _ _

/-- C18 fails for a fixed seed and one thread (the setting the documentation asks for to get
reproducible results): every regenerated vector equals the first vector.  So as soon as one of the
random vectors drawn for the call is a combination of the earlier ones, the process is ended. -/
theorem fixed_seed_dependent_aborts (hn : 1 ≤ n) {eps : ℝ} (he : 0 < eps) (he1 : eps ≤ 1)
    (clock : ℕ → ℕ → BitVec 64) {seed : BitVec 64} (hs : 0 ≤ seed.toInt) {x : Xoshiro}
    (hx : initGenerators 1 (clock 0) seed = .ok #[x]) (num t : ℕ) (ht : t < num) (h2 : 2 ≤ num)
    (hdep : CombinationOf (drawnVector x n) t (drawnVector x n t)) :
    generateColumnVectors Real.sqrt eps clock seed n num true = .error .abort := by
  obtain ⟨a, h1, -, h3⟩ := pyGenerate_spec (clock 0) seed (n * num) hx
  unfold generateColumnVectors
  rw [h1, Except.ok_bind']
  simp only
  rw [initial_rows h3]
  have hreg : (fun k => (regenerated (clock (k + 1)) seed n : Fin n → ℝ)) =
      fun _ => drawnVector x n 0 := by
    funext k
    exact regenerated_eq _ _ _ (by rw [initGenerators_seed _ (clock 0) hs, hx])
  rw [hreg, if_pos trivial]
  set V := Array.ofFn (fun j : Fin num => drawnVector x n j) with hV
  have hsize : V.size = num := by simp [hV]
  have hrow : ∀ j < num, row V j = drawnVector x n j := by
    intro j hj
    rw [row_eq (by omega)]
    simp [hV]
  have := outer_dependent (threshold_pos he hn) V (by
    intro k hk
    rw [hrow k (by omega)]
    exact rademacher_norm (drawnVector_rademacher _ _ _) he1) (t := t) (by omega) (by
    rw [hrow t ht]
    obtain ⟨c, hc⟩ := hdep
    rw [mem_spanBelow_iff]
    refine ⟨c, ?_⟩
    rw [hc]
    refine Finset.sum_congr rfl (fun b _ => ?_)
    rw [hrow b (by have := b.2; omega)])
  rw [hsize, hrow 0 (by omega)] at this
  unfold orthogonalizeVectors
  rw [if_neg (by omega), this]
  rfl

/-- A concrete case: `traceinv(A, method='hutchinson', seed=0, num_threads=1)` for a `2×2` matrix (two
vectors of length two) ends the process, because the second vector drawn from seed `0` is the negative
of the first. -/
theorem seed_zero_aborts {eps : ℝ} (he : 0 < eps) (he1 : eps ≤ 1) (clock : ℕ → ℕ → BitVec 64) :
    generateColumnVectors Real.sqrt eps clock 0#64 2 2 true = .error .abort := by
  have hx : initGenerators 1 (clock 0) 0#64 = .ok #[(Xoshiro.construct 0 0#64).jump] := by
    rw [initGenerators_seed _ (fun _ => 0) (by decide), initGenerators_one]
  refine fixed_seed_dependent_aborts (by norm_num) he he1 clock (by decide) hx 2 1 (by norm_num) le_rfl ?_
  have v0 : drawnVector (Xoshiro.construct 0 0#64).jump 2 0 = fun _ => -1 := by
    funext k
    fin_cases k
    · exact if_neg (by decide +kernel)
    · exact if_neg (by decide +kernel)
  have v1 : drawnVector (Xoshiro.construct 0 0#64).jump 2 1 = fun _ => 1 := by
    funext k
    fin_cases k
    · exact if_pos (by decide +kernel)
    · exact if_pos (by decide +kernel)
  refine ⟨fun _ => -1, ?_⟩
  rw [Fin.sum_univ_one, v1]
  funext k
  show (1 : ℝ) = -1 * drawnVector (Xoshiro.construct 0 0#64).jump 2 0 k
  rw [v0]
  norm_num

theorem normalize_loop (V : Array (Fin n → ℝ)) (h0 : ∀ i (h : i < V.size), V[i] ≠ 0) :
    ∃ V', forRange 0 V.size (fun j V => normalizeRow Real.sqrt j V) V = .ok V' ∧ V'.size = V.size ∧
      ∀ i (h : i < V.size), row V' i = (1 / norm Real.sqrt V[i]) • V[i] := by
  obtain ⟨V', h1, h2, h3, h4⟩ := forRange_inv (body := fun j V => normalizeRow Real.sqrt j V)
    (fun j (W : Array (Fin n → ℝ)) => W.size = V.size ∧
      (∀ i, j ≤ i → row W i = row V i) ∧
      ∀ i (h : i < V.size), i < j → row W i = (1 / norm Real.sqrt V[i]) • V[i])
    (Nat.zero_le V.size) V ⟨rfl, fun _ _ => rfl, fun i _ hi => by omega⟩ (by
      rintro j - hj W ⟨h1, h2, h3⟩
      have hne : norm Real.sqrt V[j] ≠ 0 := by
        intro hz
        have := norm_sq V[j]
        rw [hz] at this
        exact h0 j hj (dotProduct_self_eq_zero.1 (by linarith [this.symm]))
      have hlt : j < W.size := by omega
      refine ⟨W.set j (fun i => row W j i / norm Real.sqrt (row W j)), ?_, by simp [h1], ?_, ?_⟩
      · simp only [normalizeRow]
        rw [rd_row hlt, Except.ok_bind']
        have : norm Real.sqrt (row W j) ≠ 0 := by rw [h2 j le_rfl, row_eq hj]; exact hne
        simp only [divide, this, if_false]
        exact wr_ok hlt _
      · intro i hi; rw [row_set, if_neg (by omega)]; exact h2 i (by omega)
      · intro i hi hij
        rw [row_set]
        split_ifs with hij'
        · subst hij'
          rw [h2 i le_rfl, row_eq hi]
          funext k
          simp only [Pi.smul_apply, smul_eq_mul]
          ring
        · exact h3 i hi (by omega))
  exact ⟨V', h1, h2, fun i hi => h4 i hi hi⟩

/-- C18 for the vectors the sampling uses.  For every seed, size `n ≥ 1` and number of vectors, the
generation (one thread) either ends the process, which can only happen when orthogonalisation is
requested, or returns that many unit vectors; requested orthogonalisation makes them pairwise
orthogonal, and then there are at most `n` of them (or just one); without orthogonalisation vector `j`
is the `j`-th drawn sign vector divided by `√n`. -/
theorem column_vectors_sound (hn : 1 ≤ n) {eps : ℝ} (he : 0 < eps) (he1 : eps ≤ 1)
    (clock : ℕ → ℕ → BitVec 64) (seed : BitVec 64) (num : ℕ) (orthogonalize : Bool) :
    (orthogonalize = true ∧
      generateColumnVectors Real.sqrt eps clock seed n num orthogonalize = .error .abort) ∨
    ∃ V, generateColumnVectors Real.sqrt eps clock seed n num orthogonalize = .ok V ∧ V.size = num ∧
      Units V ∧ (orthogonalize = true → PairwiseOrthogonal V ∧ num ≤ n) ∧
      (orthogonalize = false → ∃ x, initGenerators 1 (clock 0) seed = .ok #[x] ∧
        ∀ j (h : j < V.size), V[j] = (1 / Real.sqrt n) • drawnVector x n j) := by
  have hx := initGenerators_one (clock 0) seed
  set x := (Xoshiro.construct (clock 0 0) seed).jump with hxdef
  obtain ⟨a, h1, -, h3⟩ := pyGenerate_spec (clock 0) seed (n * num) hx
  unfold generateColumnVectors
  rw [h1, Except.ok_bind']
  simp only
  rw [initial_rows h3]
  set V0 := Array.ofFn (fun j : Fin num => drawnVector x n j) with hV0
  have hsize : V0.size = num := by simp [hV0]
  have hrow : ∀ j (h : j < V0.size), V0[j] = drawnVector x n j := by
    intro j hj; simp [hV0]
  have hrad : ∀ j (h : j < V0.size), Rademacher V0[j] := by
    intro j hj; rw [hrow j hj]; exact drawnVector_rademacher _ _ _
  have units : ∀ (W V : Array (Fin n → ℝ)), V.size = W.size →
      (∀ i (h : i < W.size), W[i] ≠ 0) →
      (∀ i (h : i < W.size), row V i = (1 / norm Real.sqrt W[i]) • W[i]) → Units V := by
    intro W V hs h0 hv i hi
    rw [← row_eq hi, hv i (by omega), smul_dotProduct, dotProduct_smul, smul_eq_mul, smul_eq_mul,
      ← norm_sq]
    have hne : norm Real.sqrt W[i] ≠ 0 := by
      intro hz
      have := norm_sq W[i]
      rw [hz] at this
      exact h0 i (by omega) (dotProduct_self_eq_zero.1 (by linarith [this.symm]))
    field_simp
  cases orthogonalize with
  | false =>
    right
    simp only [Bool.false_eq_true, if_false, Except.ok_bind', forall_const, IsEmpty.forall_iff]
    have hne : ∀ i (h : i < V0.size), V0[i] ≠ 0 := fun i hi => rademacher_ne_zero (hrad i hi) (by omega)
    obtain ⟨V, h4, h5, h6⟩ := normalize_loop V0 hne
    rw [hsize] at h4
    refine ⟨V, h4, by omega, units V0 V h5 hne h6, trivial, x, hx, ?_⟩
    intro j hj
    rw [← row_eq hj, h6 j (by omega), hrow j (by omega)]
    unfold Lanczos.norm
    rw [rademacher_dot (drawnVector_rademacher x n j)]
  | true =>
    simp only [if_true, true_and, forall_const]
    rcases orthogonalize_sound hn he he1 (fun k => regenerated (clock (k + 1)) seed n)
      (fun k => by
        simp only [regenerated_eq (clock (k + 1)) seed n (initGenerators_one _ _)]
        exact drawnVector_rademacher _ _ _) V0 hrad with h | ⟨W, h, h4, h5, h6, -⟩
    · left; rw [hsize] at h; rw [h]; rfl
    · right
      rw [hsize] at h
      rw [h, Except.ok_bind']
      obtain ⟨V, h7, h8, h9⟩ := normalize_loop W h6
      rw [h4, hsize] at h7
      have horth : PairwiseOrthogonal V := by
        intro i j hi hj hij
        rw [← row_eq hi, ← row_eq hj, h9 i (by omega), h9 j (by omega), smul_dotProduct,
          dotProduct_smul, h5 i j (by omega) (by omega) hij, smul_zero, smul_zero]
      have hunit := units W V h8 h6 h9
      refine ⟨V, h7, by omega, hunit, ⟨horth, ?_⟩, by simp⟩
      have := card_le_of_orth (i := V.size) (f := row V)
        (fun p hp q hq hpq => by rw [row_eq hp, row_eq hq]; exact horth p q hp hq hpq)
        (fun p hp => by rw [row_eq hp, hunit p hp]; norm_num)
      omega

/-- The success case occurs: one vector, or no orthogonalisation. -/
example (clock : ℕ → ℕ → BitVec 64) :
    ∃ V, generateColumnVectors Real.sqrt (1 / 10 ^ 15) clock 0#64 2 2 false = .ok V ∧ Units V := by
  rcases column_vectors_sound (n := 2) (by norm_num) (eps := 1 / 10 ^ 15) (by norm_num) (by norm_num)
    clock 0#64 2 false with h | ⟨V, h1, -, h2, -⟩
  · cases h.1
  · exact ⟨V, h1, h2⟩

end Imate.Props
