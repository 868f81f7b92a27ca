import Verif.Lemmas.Accuracy
import Mathlib.Logic.Equiv.Basic
import Mathlib.Algebra.BigOperators.Group.Finset.Basic
import Mathlib.Tactic.Linarith
import Mathlib.Tactic.Positivity
import Mathlib.Tactic.FieldSimp

/-!
# A maximal inequality for averages of independent samples

The average of the first `k` of `s` independent samples deviates from the expected value for some `k ≥ k₀` at most as often as
Chebyshev's inequality allows for `k₀` alone.  The proof is the one of Doob's inequality for reversed martingales: given that `k` is
the last such number, the first `k` samples are exchangeable.
-/

namespace Imate.Accuracy

open Imate.Spec

variable {Ω : Type*} [Fintype Ω] {s : ℕ}

/-- The sum of the first `k` samples. -/
noncomputable def firstSum (X : Ω → ℝ) (k : ℕ) (w : Fin s → Ω) : ℝ := ∑ i : Fin s, if i.1 < k then X (w i) else 0

/-- Exchanging two of the first `k` samples. -/
theorem firstSum_swap (X : Ω → ℝ) {k l : ℕ} (hkl : k ≤ l) {i j : Fin s} (hi : i.1 < k) (hj : j.1 < k) (w : Fin s → Ω) :
    firstSum X l (fun a => w (Equiv.swap i j a)) = firstSum X l w := by
  unfold firstSum
  rw [← Equiv.sum_comp (Equiv.swap i j) fun a => if a.1 < l then X (w a) else 0]
  refine Finset.sum_congr rfl fun a _ => ?_
  have : (Equiv.swap i j a).1 < l ↔ a.1 < l := by
    by_cases h1 : a = i
    · subst h1; rw [Equiv.swap_apply_left]; omega
    · by_cases h2 : a = j
      · subst h2; rw [Equiv.swap_apply_right]; omega
      · rw [Equiv.swap_apply_of_ne_of_ne h1 h2]
  simp only [this]

/-- Exchangeable samples have the same mean on every event that does not distinguish them. -/
theorem exchange (X : Ω → ℝ) (G : (Fin s → Ω) → ℝ) {i j : Fin s} (hG : ∀ w, G (fun a => w (Equiv.swap i j a)) = G w) :
    ∑ w, X (w i) * G w = ∑ w, X (w j) * G w := by
  rw [← Equiv.sum_comp ((Equiv.swap i j).arrowCongr (Equiv.refl Ω)) fun w => X (w i) * G w]
  refine Finset.sum_congr rfl fun w _ => ?_
  have h1 : ((Equiv.swap i j).arrowCongr (Equiv.refl Ω)) w = fun a => w (Equiv.swap i j a) := by
    funext a
    simp [Equiv.arrowCongr]
  rw [h1, hG]
  simp

theorem sum_first (X : Ω → ℝ) (G : (Fin s → Ω) → ℝ) {k l : ℕ} (hl : l ≤ k) (hk : k ≤ s) (h0 : 0 < s) (hk0 : 0 < k)
    (hG : ∀ i j : Fin s, i.1 < k → j.1 < k → ∀ w, G (fun a => w (Equiv.swap i j a)) = G w) :
    ∑ w, firstSum X l w * G w = l * ∑ w, X (w ⟨0, h0⟩) * G w := by
  unfold firstSum
  simp only [Finset.sum_mul]
  rw [Finset.sum_comm]
  have h1 : ∀ i : Fin s, ∑ w : Fin s → Ω, (if i.1 < l then X (w i) else 0) * G w =
      if i.1 < l then ∑ w, X (w ⟨0, h0⟩) * G w else 0 := fun i => by
    split
    · rename_i hi
      exact exchange X G (hG i ⟨0, h0⟩ (by omega) hk0)
    · simp
  rw [Finset.sum_congr rfl fun i _ => h1 i, ← Finset.sum_filter, Finset.sum_const, nsmul_eq_mul]
  congr 2
  have h2 : (Finset.univ.filter fun i : Fin s => i.1 < l) = (Finset.univ : Finset (Fin l)).map (Fin.castLEEmb (by omega)) := by
    ext i
    simp only [Finset.mem_filter, Finset.mem_univ, true_and, Finset.mem_map]
    constructor
    · exact fun h => ⟨⟨i.1, h⟩, rfl⟩
    · rintro ⟨a, rfl⟩
      exact a.2
  rw [h2, Finset.card_map, Finset.card_univ, Fintype.card_fin]

theorem mean_square_first (X : Ω → ℝ) (G : (Fin s → Ω) → ℝ) (hG0 : ∀ w, 0 ≤ G w) {k l : ℕ} (hl0 : 0 < l) (hl : l ≤ k) (hk : k ≤ s)
    (hG : ∀ i j : Fin s, i.1 < k → j.1 < k → ∀ w, G (fun a => w (Equiv.swap i j a)) = G w) :
    ∑ w, (firstSum X k w / k) ^ 2 * G w ≤ ∑ w, (firstSum X l w / l) ^ 2 * G w := by
  have hl' : (l : ℝ) ≠ 0 := by positivity
  have hk' : (k : ℝ) ≠ 0 := by
    have : 0 < k := by omega
    positivity
  have hH : ∀ i j : Fin s, i.1 < k → j.1 < k → ∀ w : Fin s → Ω, firstSum X k (fun a => w (Equiv.swap i j a)) / k *
      G (fun a => w (Equiv.swap i j a)) = firstSum X k w / k * G w := fun i j hi hj w => by
    rw [firstSum_swap X le_rfl hi hj, hG i j hi hj]
  have h1 := sum_first X (fun w => firstSum X k w / k * G w) hl hk (by omega) (by omega) hH
  have h2 := sum_first X (fun w => firstSum X k w / k * G w) le_rfl hk (by omega) (by omega) hH
  have h3 : ∑ w, firstSum X l w / l * (firstSum X k w / k * G w) = ∑ w, firstSum X k w / k * (firstSum X k w / k * G w) := by
    have a1 : ∀ (c : ℝ) (m : ℕ), ∑ w, firstSum X m w / c * (firstSum X k w / k * G w) =
        (∑ w, firstSum X m w * (firstSum X k w / k * G w)) / c := fun c m => by
      rw [Finset.sum_div]
      exact Finset.sum_congr rfl fun w _ => by ring
    rw [a1, a1, h1, h2]
    field_simp
  have h4 : 0 ≤ ∑ w, (firstSum X l w / l - firstSum X k w / k) ^ 2 * G w :=
    Finset.sum_nonneg fun w _ => mul_nonneg (sq_nonneg _) (hG0 w)
  have h5 : ∑ w, (firstSum X l w / l - firstSum X k w / k) ^ 2 * G w = ∑ w, (firstSum X l w / l) ^ 2 * G w -
      2 * ∑ w, firstSum X l w / l * (firstSum X k w / k * G w) + ∑ w, firstSum X k w / k * (firstSum X k w / k * G w) := by
    rw [Finset.mul_sum, ← Finset.sum_sub_distrib, ← Finset.sum_add_distrib]
    exact Finset.sum_congr rfl fun w _ => by ring
  have h6 : ∑ w, (firstSum X k w / k) ^ 2 * G w = ∑ w, firstSum X k w / k * (firstSum X k w / k * G w) :=
    Finset.sum_congr rfl fun w _ => by ring
  rw [h5, h3, ← h6] at h4
  linarith

/-- The maximal inequality: `κ` may depend on all samples, also on those that are not used. -/
theorem maximal_average [Nonempty Ω] (X : Ω → ℝ) {k₀ : ℕ} (hk₀ : 0 < k₀) (hs : k₀ ≤ s) {κ : (Fin s → Ω) → ℕ}
    (hκ : ∀ w, k₀ ≤ κ w ∧ κ w ≤ s) {e : ℝ} (he : 0 < e) [DecidablePred fun w => e ≤ |firstSum X (κ w) w / κ w|] :
    probability (fun w => e ≤ |firstSum X (κ w) w / κ w|) ≤ expected (fun w : Fin s → Ω => (firstSum X k₀ w / k₀) ^ 2) / e ^ 2 := by
  classical
  let last : ℕ → (Fin s → Ω) → Prop := fun k w => e ≤ |firstSum X k w / k| ∧ ∀ l, k < l → l ≤ s → |firstSum X l w / l| < e
  let G : ℕ → (Fin s → Ω) → ℝ := fun k w => if last k w then 1 else 0
  have hG0 : ∀ k w, 0 ≤ G k w := fun k w => by show 0 ≤ ite _ _ _; split <;> norm_num
  have hG : ∀ k, ∀ i j : Fin s, i.1 < k → j.1 < k → ∀ w, G k (fun a => w (Equiv.swap i j a)) = G k w := fun k i j hi hj w => by
    have : last k (fun a => w (Equiv.swap i j a)) ↔ last k w := by
      show (e ≤ _ ∧ ∀ l, k < l → l ≤ s → _) ↔ (e ≤ _ ∧ ∀ l, k < l → l ≤ s → _)
      rw [firstSum_swap X le_rfl hi hj]
      refine and_congr Iff.rfl (forall_congr' fun l => forall_congr' fun hl => ?_)
      rw [firstSum_swap X hl.le hi hj]
    show ite _ _ _ = ite _ _ _
    simp only [this]
  -- there is at most one last number
  have hone : ∀ w, ∑ k ∈ Finset.Icc k₀ s, G k w ≤ 1 := fun w => by
    have hc : ((Finset.Icc k₀ s).filter fun k => last k w).card ≤ 1 := by
      rw [Finset.card_le_one]
      intro a ha b hb
      rw [Finset.mem_filter, Finset.mem_Icc] at ha hb
      rcases lt_trichotomy a b with h | h | h
      · exact absurd (ha.2.2 b h hb.1.2) (not_lt.2 hb.2.1)
      · exact h
      · exact absurd (hb.2.2 a h ha.1.2) (not_lt.2 ha.2.1)
    show ∑ k ∈ Finset.Icc k₀ s, ite (last k w) (1 : ℝ) 0 ≤ 1
    rw [Finset.sum_boole]
    exact_mod_cast hc
  -- and there is one if the average deviates
  have hex : ∀ w, e ≤ |firstSum X (κ w) w / κ w| → ∃ k ∈ Finset.Icc k₀ s, last k w := fun w hw => by
    let S := (Finset.Icc k₀ s).filter fun k => e ≤ |firstSum X k w / k|
    have hS : S.Nonempty := ⟨κ w, Finset.mem_filter.2 ⟨Finset.mem_Icc.2 (hκ w), hw⟩⟩
    have h1 := Finset.max'_mem S hS
    rw [Finset.mem_filter] at h1
    refine ⟨S.max' hS, h1.1, h1.2, fun l hl hls => ?_⟩
    by_contra hc
    have : l ∈ S := Finset.mem_filter.2 ⟨Finset.mem_Icc.2 ⟨(Finset.mem_Icc.1 h1.1).1.trans hl.le, hls⟩, not_lt.1 hc⟩
    exact absurd (Finset.le_max' S l this) (not_le.2 hl)
  have h1 : ∀ w, (if e ≤ |firstSum X (κ w) w / κ w| then e ^ 2 else 0) ≤
      ∑ k ∈ Finset.Icc k₀ s, (firstSum X k w / k) ^ 2 * G k w := fun w => by
    split
    · rename_i hw
      obtain ⟨k, hk, hl⟩ := hex w hw
      refine le_trans ?_ (Finset.single_le_sum (fun k _ => mul_nonneg (sq_nonneg _) (hG0 k w)) hk)
      have : G k w = 1 := if_pos hl
      rw [this, mul_one, ← sq_abs (firstSum X k w / k)]
      exact pow_le_pow_left₀ he.le hl.1 2
    · exact Finset.sum_nonneg fun k _ => mul_nonneg (sq_nonneg _) (hG0 k w)
  have h2 : ∑ w : Fin s → Ω, (if e ≤ |firstSum X (κ w) w / κ w| then e ^ 2 else 0) ≤
      ∑ w : Fin s → Ω, (firstSum X k₀ w / k₀) ^ 2 := by
    calc _ ≤ ∑ w, ∑ k ∈ Finset.Icc k₀ s, (firstSum X k w / k) ^ 2 * G k w := Finset.sum_le_sum fun w _ => h1 w
      _ = ∑ k ∈ Finset.Icc k₀ s, ∑ w, (firstSum X k w / k) ^ 2 * G k w := Finset.sum_comm
      _ ≤ ∑ k ∈ Finset.Icc k₀ s, ∑ w, (firstSum X k₀ w / k₀) ^ 2 * G k w := Finset.sum_le_sum fun k hk =>
          mean_square_first X (G k) (hG0 k) hk₀ (Finset.mem_Icc.1 hk).1 (Finset.mem_Icc.1 hk).2 (hG k)
      _ = ∑ w, (firstSum X k₀ w / k₀) ^ 2 * ∑ k ∈ Finset.Icc k₀ s, G k w := by
          rw [Finset.sum_comm]
          exact Finset.sum_congr rfl fun w _ => (Finset.mul_sum _ _ _).symm
      _ ≤ _ := Finset.sum_le_sum fun w _ => by
          have := mul_le_mul_of_nonneg_left (hone w) (sq_nonneg (firstSum X k₀ w / k₀))
          linarith
  unfold probability expected
  rw [div_div, mul_comm, ← div_div]
  apply div_le_div_of_nonneg_right _ (Nat.cast_nonneg _)
  rw [le_div_iff₀ (by positivity)]
  refine le_trans (le_of_eq ?_) h2
  rw [← Finset.sum_filter, Finset.sum_const, nsmul_eq_mul]

/-- The mean square of the average of the first `k` of `s` samples. -/
theorem mean_square_prefix [Nonempty Ω] (X : Ω → ℝ) (h0 : expected X = 0) {k : ℕ} (hk : 0 < k) (hs : k ≤ s) :
    expected (fun w : Fin s → Ω => (firstSum X k w / k) ^ 2) = expected (fun w => X w ^ 2) / k := by
  classical
  have hk0 : (k : ℝ) ≠ 0 := by positivity
  have h1 : (fun w : Fin s → Ω => (firstSum X k w / k) ^ 2) = fun w => (1 / (k : ℝ) ^ 2) *
      ∑ i : Fin s, ∑ j : Fin s, (if i.1 < k then X (w i) else 0) * (if j.1 < k then X (w j) else 0) := by
    funext w
    unfold firstSum
    rw [div_pow, sq (∑ i : Fin s, _), Finset.sum_mul_sum]
    ring
  rw [h1, expected_smul, expected_sum]
  have h2 : ∀ i : Fin s, expected (fun w : Fin s → Ω => ∑ j : Fin s, (if i.1 < k then X (w i) else 0) *
      (if j.1 < k then X (w j) else 0)) = if i.1 < k then expected (fun w => X w ^ 2) else 0 := fun i => by
    rw [expected_sum, Finset.sum_eq_single i]
    · split
      · have := expected_one (s := s) i fun w => X w * X w
        simp only [← sq] at this ⊢
        exact this
      · simp only [zero_mul]
        unfold expected
        simp
    · intro j _ hj
      split
      · split
        · rw [expected_two (Ne.symm hj) X X, h0, zero_mul]
        · simp [expected]
      · simp [expected]
    · simp
  rw [Finset.sum_congr rfl fun i _ => h2 i, ← Finset.sum_filter, Finset.sum_const, nsmul_eq_mul]
  have h3 : (Finset.univ.filter fun i : Fin s => i.1 < k) = (Finset.univ : Finset (Fin k)).map (Fin.castLEEmb hs) := by
    ext i
    simp only [Finset.mem_filter, Finset.mem_univ, true_and, Finset.mem_map]
    constructor
    · exact fun h => ⟨⟨i.1, h⟩, rfl⟩
    · rintro ⟨a, rfl⟩
      exact a.2
  rw [h3, Finset.card_map, Finset.card_univ, Fintype.card_fin]
  field_simp

end Imate.Accuracy
