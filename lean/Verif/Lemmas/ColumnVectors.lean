import Verif.Model.ColumnVectors
import Verif.Lemmas.Mem
import Mathlib.Analysis.Real.Sqrt
import Mathlib.LinearAlgebra.Dimension.Constructions
import Mathlib.LinearAlgebra.Dimension.Finite
import Mathlib.LinearAlgebra.FiniteDimensional.Basic
import Mathlib.Tactic.Linarith
import Mathlib.Tactic.LinearCombination

/-! Helper lemmas about `orthogonalize_vectors`. -/

namespace Imate.Columns

open Imate.Lanczos Matrix

variable {n : ℕ}

/-- A loop that either stops with the error `e` or keeps the invariant. -/
theorem loopN_or {σ : Type _} {step : ℕ} {body : ℕ → σ → Except Fault σ} (e : Fault)
    (Inv : ℕ → σ → Prop) : ∀ (k i : ℕ) (s : σ), Inv 0 s →
      (∀ t < k, ∀ s, Inv t s → body (i + t * step) s = .error e ∨
        ∃ s', body (i + t * step) s = .ok s' ∧ Inv (t + 1) s') →
      loopN step body k i s = .error e ∨ ∃ s', loopN step body k i s = .ok s' ∧ Inv k s' := by
  intro k
  induction k generalizing Inv with
  | zero => intro i s h _; exact Or.inr ⟨s, rfl, h⟩
  | succ k ih =>
    intro i s h hb
    rcases hb 0 (by omega) s h with h1 | ⟨s1, h1, hi1⟩
    · left
      simp only [Nat.zero_mul, Nat.add_zero] at h1
      simp only [loopN, h1, Except.error_bind']
    · simp only [Nat.zero_mul, Nat.add_zero] at h1
      rcases ih (fun t s => Inv (t + 1) s) (i + step) s1 hi1 (by
        intro t ht s hs
        have := hb (t + 1) (by omega) s hs
        rwa [show i + (t + 1) * step = i + step + t * step by ring] at this) with h2 | ⟨s2, h2, hi2⟩
      · left; simp only [loopN, h1, Except.ok_bind', h2]
      · right; exact ⟨s2, by simp only [loopN, h1, Except.ok_bind', h2], hi2⟩

theorem forRange_or {σ : Type _} {body : ℕ → σ → Except Fault σ} (e : Fault)
    (Inv : ℕ → σ → Prop) {hi : ℕ} (s : σ) (h0 : Inv 0 s)
    (hb : ∀ i < hi, ∀ s, Inv i s → body i s = .error e ∨ ∃ s', body i s = .ok s' ∧ Inv (i + 1) s') :
    forRange 0 hi body s = .error e ∨ ∃ s', forRange 0 hi body s = .ok s' ∧ Inv hi s' := by
  have := loopN_or (step := 1) (body := body) e Inv (hi - 0) 0 s h0 (by
    intro t ht s hs
    have := hb t (by omega) s hs
    simpa using this)
  simpa [forRange] using this

/-- row `j` -/
def row (V : Array (Fin n → ℝ)) (j : ℕ) : Fin n → ℝ := V.getD j 0

theorem rd_row {V : Array (Fin n → ℝ)} {j : ℕ} (h : j < V.size) : rd V j = .ok (row V j) := by
  apply rd_ok
  simp [row, Array.getD, h]

theorem row_set {V : Array (Fin n → ℝ)} {i : ℕ} (h : i < V.size) (x : Fin n → ℝ) (j : ℕ) :
    row (V.set i x) j = if j = i then x else row V j := by
  unfold row
  by_cases hj : j = i
  · subst hj; simp [Array.getD, h]
  · simp only [Array.getD, Array.size_set, hj, if_false]
    split
    · exact Array.getElem_set_ne _ _ (fun h => hj h.symm)
    · rfl

theorem norm_nonneg' (v : Fin n → ℝ) : 0 ≤ norm Real.sqrt v := Real.sqrt_nonneg _

theorem dot_self_nonneg (v : Fin n → ℝ) : 0 ≤ v ⬝ᵥ v :=
  Finset.sum_nonneg (fun i _ => mul_self_nonneg (v i))

theorem norm_sq (v : Fin n → ℝ) : norm Real.sqrt v ^ 2 = v ⬝ᵥ v := Real.sq_sqrt (dot_self_nonneg v)

theorem dot_pos_of_norm {v : Fin n → ℝ} {d : ℝ} (hd : 0 < d) (h : d ≤ norm Real.sqrt v) :
    0 < v ⬝ᵥ v := by
  rw [← norm_sq]; exact pow_pos (lt_of_lt_of_le hd h) 2

/-- Rows `< i` are pairwise orthogonal and not shorter than `d`. -/
structure Base (d : ℝ) (V : Array (Fin n → ℝ)) (i : ℕ) : Prop where
  orth : ∀ a < i, ∀ b < i, a ≠ b → row V a ⬝ᵥ row V b = 0
  long : ∀ a < i, d ≤ norm Real.sqrt (row V a)

/-- Pairwise orthogonal non-zero vectors are at most as many as the dimension. -/
theorem card_le_of_orth {i : ℕ} {f : ℕ → Fin n → ℝ}
    (ho : ∀ a < i, ∀ b < i, a ≠ b → f a ⬝ᵥ f b = 0) (hp : ∀ a < i, f a ⬝ᵥ f a ≠ 0) : i ≤ n := by
  have hli : LinearIndependent ℝ (fun a : Fin i => f a) := by
    rw [linearIndependent_iff']
    intro s g hg a ha
    have h1 : (∑ b ∈ s, g b • f b) ⬝ᵥ f a = 0 := by rw [hg, zero_dotProduct]
    rw [sum_dotProduct, Finset.sum_eq_single a] at h1
    · rw [smul_dotProduct, smul_eq_mul] at h1
      exact (mul_eq_zero.1 h1).resolve_right (hp a a.2)
    · intro b _ hb
      rw [smul_dotProduct, ho b b.2 a a.2 (fun h => hb (Fin.ext h)), smul_zero]
    · intro h; exact absurd ha h
  have := hli.fintype_card_le_finrank
  simpa using this

theorem Base.le {d : ℝ} (hd : 0 < d) {V : Array (Fin n → ℝ)} {i : ℕ} (h : Base d V i) : i ≤ n :=
  card_le_of_orth h.orth (fun a ha => (dot_pos_of_norm hd (h.long a ha)).ne')

/-- The subspace spanned by the rows `< i`. -/
def spanBelow (f : ℕ → Fin n → ℝ) (i : ℕ) : Submodule ℝ (Fin n → ℝ) :=
  Submodule.span ℝ {x | ∃ a < i, x = f a}

theorem mem_spanBelow {f : ℕ → Fin n → ℝ} {i a : ℕ} (h : a < i) : f a ∈ spanBelow f i :=
  Submodule.subset_span ⟨a, h, rfl⟩

theorem spanBelow_mono {f : ℕ → Fin n → ℝ} {i j : ℕ} (h : i ≤ j) : spanBelow f i ≤ spanBelow f j :=
  Submodule.span_mono (fun _ ⟨a, ha, hx⟩ => ⟨a, by omega, hx⟩)

/-- A vector of the span that is orthogonal to the spanning vectors is zero. -/
theorem dot_self_of_span {f : ℕ → Fin n → ℝ} {i : ℕ} {w : Fin n → ℝ} (hw : w ∈ spanBelow f i)
    (ho : ∀ a < i, w ⬝ᵥ f a = 0) : w ⬝ᵥ w = 0 := by
  have : ∀ x ∈ spanBelow f i, w ⬝ᵥ x = 0 := by
    intro x hx
    induction hx using Submodule.span_induction with
    | mem x hx => obtain ⟨a, ha, rfl⟩ := hx; exact ho a ha
    | zero => exact dotProduct_zero _
    | add x y _ _ h1 h2 => rw [dotProduct_add, h1, h2, add_zero]
    | smul c x _ h => rw [dotProduct_smul, h, smul_zero]
  exact this w hw

/-- Effect of a pass for vector `i` up to index `j`. -/
structure PassInv (d : ℝ) (regen : ℕ → Fin n → ℝ) (s0 : OrthoState ℝ n) (i j : ℕ)
    (s : OrthoState ℝ n) : Prop where
  size : s.V.size = s0.V.size
  frame : ∀ k, k ≠ i → row s.V k = row s0.V k
  good : s.success = true → s.calls = s0.calls ∧ (∀ k < j, row s.V i ⬝ᵥ row s0.V k = 0) ∧
    d ≤ norm Real.sqrt (row s.V i) ∧ row s0.V i - row s.V i ∈ spanBelow (row s0.V) j
  bad : s.success = false → s.calls = s0.calls + 1 ∧ row s.V i = regen s0.calls ∧
    ∃ w, row s0.V i - w ∈ spanBelow (row s0.V) j ∧ norm Real.sqrt w < d

theorem orthoStep_inv {eps : ℝ} (regen : ℕ → Fin n → ℝ) {s0 : OrthoState ℝ n} {i j : ℕ}
    (hd : 0 < eps * Real.sqrt n) (hj : j < i) (hi : i < s0.V.size)
    (hb : Base (eps * Real.sqrt n) s0.V i) {s : OrthoState ℝ n}
    (hs : PassInv (eps * Real.sqrt n) regen s0 i j s) :
    ∃ s', orthoStep Real.sqrt eps regen i j s = .ok s' ∧
      PassInv (eps * Real.sqrt n) regen s0 i (j + 1) s' := by
  have hmono : spanBelow (row s0.V) j ≤ spanBelow (row s0.V) (j + 1) := spanBelow_mono (by omega)
  unfold orthoStep
  by_cases hsucc : s.success = true
  · rw [if_neg (by simp [hsucc])]
    have hs2 := hs.size
    obtain ⟨hcalls, horth, hlong, hspan⟩ := hs.good hsucc
    rw [rd_row (by omega), Except.ok_bind', hs.frame j (by omega), if_neg (not_lt.2 (hb.long j hj)),
      rd_row (by omega), Except.ok_bind']
    simp only
    set vj := row s0.V j with hvj
    set vi := row s.V i with hvi
    set w := vi - ((vi ⬝ᵥ vj) / norm Real.sqrt vj ^ 2) • vj with hw
    have hvjpos : 0 < vj ⬝ᵥ vj := dot_pos_of_norm hd (hb.long j hj)
    have hwspan : row s0.V i - w ∈ spanBelow (row s0.V) (j + 1) := by
      have : row s0.V i - w = (row s0.V i - vi) + ((vi ⬝ᵥ vj) / norm Real.sqrt vj ^ 2) • vj := by
        rw [hw]; abel
      rw [this]
      exact Submodule.add_mem _ (hmono hspan)
        (Submodule.smul_mem _ _ (mem_spanBelow (f := row s0.V) (by omega)))
    have hworth : ∀ k < j + 1, w ⬝ᵥ row s0.V k = 0 := by
      intro k hk
      rw [hw, sub_dotProduct, smul_dotProduct, smul_eq_mul]
      rcases Nat.lt_succ_iff_lt_or_eq.1 hk with h | rfl
      · rw [horth k h, hb.orth j hj k (by omega) (by omega), mul_zero, sub_zero]
      · rw [norm_sq, ← hvj, div_mul_cancel₀ _ hvjpos.ne', sub_self]
    have hlt : i < s.V.size := by omega
    split_ifs with h1
    · rw [wr_ok hlt, Except.ok_bind']
      refine ⟨_, rfl, ⟨by simp [hs2], ?_, by simp, ?_⟩⟩
      · intro k hk; rw [row_set, if_neg hk]; exact hs.frame k hk
      · intro _
        refine ⟨by simp [hcalls], ?_, w, hwspan, h1⟩
        rw [row_set, if_pos rfl, hcalls]
    · rw [wr_ok hlt, Except.ok_bind']
      refine ⟨_, rfl, ⟨by simp [hs2], ?_, ?_, by simp⟩⟩
      · intro k hk; rw [row_set, if_neg hk]; exact hs.frame k hk
      · intro _
        rw [row_set, if_pos rfl]
        exact ⟨hcalls, hworth, not_lt.1 h1, hwspan⟩
  · rw [if_pos (by simp [hsucc])]
    refine ⟨s, rfl, ⟨hs.size, hs.frame, fun h => absurd h hsucc, ?_⟩⟩
    intro h
    obtain ⟨h1, h2, w, h3, h4⟩ := hs.bad h
    exact ⟨h1, h2, w, hmono h3, h4⟩

theorem orthoPass_spec {eps : ℝ} (regen : ℕ → Fin n → ℝ) {s0 : OrthoState ℝ n} {i : ℕ}
    (hd : 0 < eps * Real.sqrt n) (hi : i < s0.V.size)
    (hb : Base (eps * Real.sqrt n) s0.V i) (hv : eps * Real.sqrt n ≤ norm Real.sqrt (row s0.V i)) :
    ∃ s, orthoPass Real.sqrt eps regen i s0 = .ok s ∧ PassInv (eps * Real.sqrt n) regen s0 i i s := by
  have hin : i ≤ n := hb.le hd
  unfold orthoPass startJ
  rw [if_neg (by omega)]
  refine forRange_inv (PassInv (eps * Real.sqrt n) regen s0 i) (Nat.zero_le i) _ ?_ ?_
  · exact ⟨rfl, fun _ _ => rfl, fun _ => ⟨rfl, by intro k hk; omega, hv, by simp⟩,
      fun h => by cases h⟩
  · intro j _ hj s hs
    exact orthoStep_inv regen hd hj hi hb hs

/-- The result for vector `i`: abort, or a vector orthogonal to the previous ones. -/
theorem orthoVector_spec {eps : ℝ} (regen : ℕ → Fin n → ℝ) (hd : 0 < eps * Real.sqrt n)
    (hr : ∀ k, eps * Real.sqrt n ≤ norm Real.sqrt (regen k)) (i : ℕ) :
    ∀ (left : ℕ) (s0 : OrthoState ℝ n), i < s0.V.size → Base (eps * Real.sqrt n) s0.V i →
      eps * Real.sqrt n ≤ norm Real.sqrt (row s0.V i) →
      orthoVector Real.sqrt eps regen i left s0 = .error .abort ∨
      ∃ s, orthoVector Real.sqrt eps regen i left s0 = .ok s ∧ s.V.size = s0.V.size ∧
        (∀ k, k ≠ i → row s.V k = row s0.V k) ∧ (∀ k < i, row s.V i ⬝ᵥ row s0.V k = 0) ∧
        eps * Real.sqrt n ≤ norm Real.sqrt (row s.V i) ∧ (i = 0 → row s.V i = row s0.V i) := by
  intro left
  induction left with
  | zero => intro s0 _ _ _; exact Or.inl rfl
  | succ left ih =>
    intro s0 hi hb hv
    obtain ⟨s, hs, hp⟩ := orthoPass_spec regen hd hi hb hv
    unfold orthoVector
    rw [hs, Except.ok_bind']
    by_cases hsucc : s.success = true
    · rw [if_pos hsucc]
      obtain ⟨-, h2, h3, h4⟩ := hp.good hsucc
      refine Or.inr ⟨s, rfl, hp.size, hp.frame, h2, h3, ?_⟩
      intro h0
      subst h0
      have : spanBelow (row s0.V) 0 = ⊥ := by
        unfold spanBelow
        rw [Submodule.span_eq_bot]
        rintro x ⟨a, ha, -⟩
        omega
      rw [this, Submodule.mem_bot] at h4
      exact (sub_eq_zero.1 h4).symm
    · rw [if_neg hsucc]
      obtain ⟨h1, h2, w, h3, h4⟩ := hp.bad (by simpa using hsucc)
      have hi0 : i ≠ 0 := by
        rintro rfl
        have : spanBelow (row s0.V) 0 = ⊥ := by
          unfold spanBelow
          rw [Submodule.span_eq_bot]
          rintro x ⟨a, ha, -⟩
          omega
        rw [this, Submodule.mem_bot, sub_eq_zero] at h3
        rw [← h3] at h4
        exact absurd hv (not_le.2 h4)
      have hb' : Base (eps * Real.sqrt n) s.V i :=
        ⟨fun a ha b hb2 hab => by
            rw [hp.frame a (by omega), hp.frame b (by omega)]; exact hb.orth a ha b hb2 hab,
          fun a ha => by rw [hp.frame a (by omega)]; exact hb.long a ha⟩
      rcases ih s (by rw [hp.size]; exact hi) hb' (by rw [h2]; exact hr _) with h5 | ⟨s', h5, h6, h7, h8, h9, h10⟩
      · exact Or.inl h5
      · refine Or.inr ⟨s', h5, by rw [h6, hp.size], ?_, ?_, h9, fun h => absurd h hi0⟩
        · intro k hk; rw [h7 k hk, hp.frame k hk]
        · intro k hk
          have := h8 k hk
          rwa [hp.frame k (by omega)] at this

/-- The outer loop. -/
theorem outer_spec {eps : ℝ} (regen : ℕ → Fin n → ℝ) (hd : 0 < eps * Real.sqrt n)
    (hr : ∀ k, eps * Real.sqrt n ≤ norm Real.sqrt (regen k)) (V : Array (Fin n → ℝ)) (num : ℕ)
    (hsize : V.size = num) (hV : ∀ k < num, eps * Real.sqrt n ≤ norm Real.sqrt (row V k)) :
    forRange 0 num (fun i s => orthoVector Real.sqrt eps regen i 20 s) ⟨V, 0, true⟩ = .error .abort ∨
    ∃ s, forRange 0 num (fun i s => orthoVector Real.sqrt eps regen i 20 s) ⟨V, 0, true⟩ = .ok s ∧
      s.V.size = num ∧ Base (eps * Real.sqrt n) s.V num ∧ (row s.V 0 = row V 0) := by
  have := forRange_or (body := fun i s => orthoVector Real.sqrt eps regen i 20 s) .abort
    (fun i s => s.V.size = num ∧ Base (eps * Real.sqrt n) s.V i ∧
      (∀ k, i ≤ k → row s.V k = row V k) ∧ row s.V 0 = row V 0) (hi := num) ⟨V, 0, true⟩
    ⟨hsize, ⟨fun a ha => by omega, fun a ha => by omega⟩, fun _ _ => rfl, rfl⟩ (by
      rintro i hi s ⟨h1, h2, h3, h4⟩
      rcases orthoVector_spec regen hd hr i 20 s (by omega) h2
        (by rw [h3 i le_rfl]; exact hV i hi) with h | ⟨s', h5, h6, h7, h8, h9, h10⟩
      · exact Or.inl h
      · refine Or.inr ⟨s', h5, by omega, ⟨?_, ?_⟩, ?_, ?_⟩
        · intro a ha b hb hab
          rcases Nat.lt_succ_iff_lt_or_eq.1 ha with ha' | rfl <;>
            rcases Nat.lt_succ_iff_lt_or_eq.1 hb with hb' | rfl
          · rw [h7 a (by omega), h7 b (by omega)]; exact h2.orth a ha' b hb' hab
          · rw [dotProduct_comm, h7 a (by omega)]; exact h8 a ha'
          · rw [h7 b (by omega)]; exact h8 b hb'
          · exact absurd rfl hab
        · intro a ha
          rcases Nat.lt_succ_iff_lt_or_eq.1 ha with ha' | rfl
          · rw [h7 a (by omega)]; exact h2.long a ha'
          · exact h9
        · intro k hk; rw [h7 k (by omega)]; exact h3 k (by omega)
        · by_cases h0 : i = 0
          · subst h0; rw [h10 rfl]; exact h4
          · rw [h7 0 (fun h => h0 h.symm)]; exact h4)
  rcases this with h | ⟨s, h, h1, h2, -, h4⟩
  · exact Or.inl h
  · exact Or.inr ⟨s, h, h1, h2, h4⟩

/-! ### Runs without a regeneration -/

/-- What holds as long as every pass so far succeeded at once. -/
structure Fresh (d : ℝ) (V : Array (Fin n → ℝ)) (i : ℕ) (s : OrthoState ℝ n) : Prop where
  size : s.V.size = V.size
  base : Base d s.V i
  rest : ∀ k, i ≤ k → row s.V k = row V k
  first : row s.V 0 = row V 0
  step : ∀ k < i, row V k - row s.V k ∈ spanBelow (row V) k
  span : ∀ k ≤ i, spanBelow (row s.V) k = spanBelow (row V) k

theorem spanBelow_congr {f g : ℕ → Fin n → ℝ} {i : ℕ} (h : ∀ k < i, f k = g k) :
    spanBelow f i = spanBelow g i := by
  unfold spanBelow
  congr 1
  ext x
  constructor
  · rintro ⟨a, ha, rfl⟩; exact ⟨a, ha, h a ha⟩
  · rintro ⟨a, ha, rfl⟩; exact ⟨a, ha, (h a ha).symm⟩

/-- Replacing each vector by itself minus a combination of earlier ones keeps the spans. -/
theorem spanBelow_succ_eq {f g : ℕ → Fin n → ℝ} {i : ℕ} (h : spanBelow f i = spanBelow g i)
    (hs : g i - f i ∈ spanBelow g i) : spanBelow f (i + 1) = spanBelow g (i + 1) := by
  apply le_antisymm
  · unfold spanBelow
    rw [Submodule.span_le]
    rintro x ⟨a, ha, rfl⟩
    rcases Nat.lt_succ_iff_lt_or_eq.1 ha with ha' | rfl
    · exact spanBelow_mono (by omega) (h ▸ mem_spanBelow ha')
    · have : f a = g a - (g a - f a) := by abel
      rw [this]
      exact Submodule.sub_mem _ (mem_spanBelow (by omega)) (spanBelow_mono (by omega) hs)
  · unfold spanBelow
    rw [Submodule.span_le]
    rintro x ⟨a, ha, rfl⟩
    rcases Nat.lt_succ_iff_lt_or_eq.1 ha with ha' | rfl
    · exact spanBelow_mono (by omega) (h.symm ▸ mem_spanBelow ha')
    · have : g a = f a + (g a - f a) := by abel
      rw [this]
      exact Submodule.add_mem _ (mem_spanBelow (by omega)) (spanBelow_mono (by omega) (h.symm ▸ hs))

/-- A first pass for vector `i`. -/
theorem Fresh.pass {eps : ℝ} (regen : ℕ → Fin n → ℝ) {V : Array (Fin n → ℝ)} {i : ℕ}
    {s0 : OrthoState ℝ n} (hd : 0 < eps * Real.sqrt n) (hi : i < V.size)
    (hf : Fresh (eps * Real.sqrt n) V i s0)
    (hv : eps * Real.sqrt n ≤ norm Real.sqrt (row V i)) :
    ∃ s, orthoPass Real.sqrt eps regen i s0 = .ok s ∧
      PassInv (eps * Real.sqrt n) regen s0 i i s ∧
      (s.success = true → Fresh (eps * Real.sqrt n) V (i + 1) s) := by
  obtain ⟨s, hs, hp⟩ := orthoPass_spec regen hd (by rw [hf.size]; exact hi) hf.base
    (by rw [hf.rest i le_rfl]; exact hv)
  refine ⟨s, hs, hp, fun hsucc => ?_⟩
  obtain ⟨-, h2, h3, h4⟩ := hp.good hsucc
  rw [hf.rest i le_rfl, hf.span i le_rfl] at h4
  have hlow : ∀ k < i, row s.V k = row s0.V k := fun k hk => hp.frame k (by omega)
  refine ⟨by rw [hp.size, hf.size], ⟨?_, ?_⟩, ?_, ?_, ?_, ?_⟩
  · intro a ha b hb hab
    rcases Nat.lt_succ_iff_lt_or_eq.1 ha with ha' | rfl <;>
      rcases Nat.lt_succ_iff_lt_or_eq.1 hb with hb' | rfl
    · rw [hlow a ha', hlow b hb']; exact hf.base.orth a ha' b hb' hab
    · rw [dotProduct_comm, hlow a ha']; exact h2 a ha'
    · rw [hlow b hb']; exact h2 b hb'
    · exact absurd rfl hab
  · intro a ha
    rcases Nat.lt_succ_iff_lt_or_eq.1 ha with ha' | rfl
    · rw [hlow a ha']; exact hf.base.long a ha'
    · exact h3
  · intro k hk; rw [hp.frame k (by omega)]; exact hf.rest k (by omega)
  · by_cases h0 : i = 0
    · subst h0
      have : spanBelow (row V) 0 = ⊥ := by
        unfold spanBelow
        rw [Submodule.span_eq_bot]
        rintro x ⟨a, ha, -⟩
        omega
      rw [this, Submodule.mem_bot] at h4
      exact (sub_eq_zero.1 h4).symm
    · rw [hlow 0 (by omega)]; exact hf.first
  · intro k hk
    rcases Nat.lt_succ_iff_lt_or_eq.1 hk with hk' | rfl
    · rw [hlow k hk']; exact hf.step k hk'
    · exact h4
  · have hspan : ∀ k ≤ i, spanBelow (row s.V) k = spanBelow (row V) k := by
      intro k hk
      rw [spanBelow_congr (g := row s0.V) (fun a ha => hlow a (by omega))]
      exact hf.span k hk
    intro k hk
    rcases Nat.lt_succ_iff_lt_or_eq.1 (Nat.lt_succ_of_le hk) with hk' | rfl
    · exact hspan k (by omega)
    · exact spanBelow_succ_eq (hspan i le_rfl) h4

/-- If every input vector is far from the span of the earlier ones, no vector is regenerated. -/
theorem outer_far {eps : ℝ} (regen : ℕ → Fin n → ℝ) (hd : 0 < eps * Real.sqrt n)
    (V : Array (Fin n → ℝ))
    (hfar : ∀ k < V.size, ∀ u ∈ spanBelow (row V) k, eps * Real.sqrt n ≤ norm Real.sqrt (row V k - u)) :
    ∃ s, forRange 0 V.size (fun i s => orthoVector Real.sqrt eps regen i 20 s) ⟨V, 0, true⟩ = .ok s ∧
      Fresh (eps * Real.sqrt n) V V.size s := by
  refine forRange_inv (Fresh (eps * Real.sqrt n) V) (Nat.zero_le _) _ ?_ ?_
  · exact ⟨rfl, ⟨fun a ha => by omega, fun a ha => by omega⟩, fun _ _ => rfl, rfl,
      fun k hk => by omega, fun _ _ => rfl⟩
  · intro i _ hi s hf
    have hv : eps * Real.sqrt n ≤ norm Real.sqrt (row V i) := by
      have := hfar i hi 0 (Submodule.zero_mem _)
      rwa [sub_zero] at this
    obtain ⟨s', h1, hp, h2⟩ := hf.pass regen hd hi hv
    have hsucc : s'.success = true := by
      by_contra hne
      obtain ⟨-, -, w, h3, h4⟩ := hp.bad (by simpa using hne)
      rw [hf.rest i le_rfl, hf.span i le_rfl] at h3
      have := hfar i hi _ h3
      rw [sub_sub_cancel] at this
      exact absurd this (not_le.2 h4)
    refine ⟨s', ?_, h2 hsucc⟩
    show orthoVector Real.sqrt eps regen i 20 s = .ok s'
    unfold orthoVector
    rw [h1, Except.ok_bind', if_pos hsucc]

/-- Regenerating the first vector can never repair a dependent one. -/
theorem orthoVector_first {eps : ℝ} (v0 : Fin n → ℝ) (hd : 0 < eps * Real.sqrt n)
    (h0 : eps * Real.sqrt n ≤ norm Real.sqrt v0) {i : ℕ} (hi0 : 0 < i) :
    ∀ (left : ℕ) (s0 : OrthoState ℝ n), i < s0.V.size → Base (eps * Real.sqrt n) s0.V i →
      row s0.V 0 = v0 → row s0.V i = v0 →
      orthoVector Real.sqrt eps (fun _ => v0) i left s0 = .error .abort := by
  intro left
  induction left with
  | zero => intro s0 _ _ _ _; rfl
  | succ left ih =>
    intro s0 hi hb hz hv
    obtain ⟨s, hs, hp⟩ := orthoPass_spec (fun _ => v0) hd hi hb (by rw [hv]; exact h0)
    have hsucc : s.success = false := by
      by_contra hne
      obtain ⟨-, h2, h3, h4⟩ := hp.good (by simpa using hne)
      have hw : row s.V i ∈ spanBelow (row s0.V) i := by
        have h5 : row s0.V i ∈ spanBelow (row s0.V) i := by
          rw [hv, ← hz]; exact mem_spanBelow hi0
        have := Submodule.sub_mem _ h5 h4
        rwa [sub_sub_cancel] at this
      have := dot_self_of_span hw h2
      exact absurd this (dot_pos_of_norm hd h3).ne'
    obtain ⟨-, h2, -⟩ := hp.bad hsucc
    unfold orthoVector
    rw [hs, Except.ok_bind', if_neg (by simp [hsucc])]
    refine ih s (by rw [hp.size]; exact hi) ⟨?_, ?_⟩ (by rw [hp.frame 0 (by omega)]; exact hz) h2
    · intro a ha b hb2 hab
      rw [hp.frame a (by omega), hp.frame b (by omega)]; exact hb.orth a ha b hb2 hab
    · intro a ha; rw [hp.frame a (by omega)]; exact hb.long a ha

/-- If the generator can only repeat the first vector and some vector depends on the earlier ones, the
function aborts. -/
theorem outer_dependent {eps : ℝ} (hd : 0 < eps * Real.sqrt n) (V : Array (Fin n → ℝ))
    (hV : ∀ k < V.size, eps * Real.sqrt n ≤ norm Real.sqrt (row V k)) {t : ℕ} (ht : t < V.size)
    (hdep : row V t ∈ spanBelow (row V) t) :
    forRange 0 V.size (fun i s => orthoVector Real.sqrt eps (fun _ => row V 0) i 20 s) ⟨V, 0, true⟩ =
      .error .abort := by
  have hpos : 0 < V.size := by omega
  have := forRange_or (body := fun i s => orthoVector Real.sqrt eps (fun _ => row V 0) i 20 s) .abort
    (Fresh (eps * Real.sqrt n) V) (hi := V.size) ⟨V, 0, true⟩
    ⟨rfl, ⟨fun a ha => by omega, fun a ha => by omega⟩, fun _ _ => rfl, rfl,
      fun k hk => by omega, fun _ _ => rfl⟩ (by
      intro i hi s hf
      obtain ⟨s', h1, hp, h2⟩ := hf.pass (fun _ => row V 0) hd hi (hV i hi)
      by_cases hsucc : s'.success = true
      · right
        refine ⟨s', ?_, h2 hsucc⟩
        show orthoVector Real.sqrt eps (fun _ => row V 0) i 20 s = .ok s'
        unfold orthoVector
        rw [h1, Except.ok_bind', if_pos hsucc]
      · left
        obtain ⟨-, h3, w, h4, h5⟩ := hp.bad (by simpa using hsucc)
        have hi0 : 0 < i := by
          rcases Nat.eq_zero_or_pos i with rfl | h
          · exfalso
            have hbot : spanBelow (row s.V) 0 = ⊥ := by
              unfold spanBelow
              rw [Submodule.span_eq_bot]
              rintro x ⟨a, ha, -⟩
              omega
            rw [hbot, Submodule.mem_bot, sub_eq_zero] at h4
            rw [← h4, hf.rest 0 le_rfl] at h5
            exact absurd (hV 0 hi) (not_le.2 h5)
          · exact h
        show orthoVector Real.sqrt eps (fun _ => row V 0) i 20 s = .error .abort
        unfold orthoVector
        rw [h1, Except.ok_bind', if_neg hsucc]
        refine orthoVector_first (row V 0) hd (hV 0 hpos) hi0 19 s' (by rw [hp.size, hf.size]; exact hi)
          ⟨?_, ?_⟩ (by rw [hp.frame 0 (by omega)]; exact hf.first) h3
        · intro a ha b hb2 hab
          rw [hp.frame a (by omega), hp.frame b (by omega)]; exact hf.base.orth a ha b hb2 hab
        · intro a ha; rw [hp.frame a (by omega)]; exact hf.base.long a ha)
  rcases this with h | ⟨s, h, hf⟩
  · exact h
  · exfalso
    have h1 := hf.step t ht
    have h2 : row s.V t ∈ spanBelow (row s.V) t := by
      rw [hf.span t (by omega)]
      have := Submodule.sub_mem _ hdep h1
      rwa [sub_sub_cancel] at this
    have h3 := dot_self_of_span h2 (fun a ha => hf.base.orth t ht a (by omega) (by omega))
    exact absurd h3 (dot_pos_of_norm hd (hf.base.long t ht)).ne'

end Imate.Columns
