import Verif.Spec.Accuracy
import Verif.Lemmas.SlqExact
import Mathlib.Algebra.BigOperators.Ring.Finset
import Mathlib.Tactic.Linarith
import Mathlib.Tactic.FieldSimp
import Mathlib.Algebra.BigOperators.Field

/-! Averages over independent random vectors. -/

namespace Imate.Accuracy

open Matrix Imate.Lanczos Imate.Spec

variable {n : ℕ} {Ω : Type*} [Fintype Ω]

theorem expected_add (f g : Ω → ℝ) : expected (fun w => f w + g w) = expected f + expected g := by
  unfold expected
  rw [Finset.sum_add_distrib, add_div]

theorem expected_smul (c : ℝ) (g : Ω → ℝ) : expected (fun w => c * g w) = c * expected g := by
  unfold expected
  rw [← Finset.mul_sum, mul_div_assoc]

theorem expected_sum {ι : Type*} (s : Finset ι) (g : ι → Ω → ℝ) :
    expected (fun w => ∑ k ∈ s, g k w) = ∑ k ∈ s, expected (g k) := by
  unfold expected
  rw [Finset.sum_comm, Finset.sum_div]

theorem expected_const [Nonempty Ω] (c : ℝ) : expected (fun _ : Ω => c) = c := by
  unfold expected
  rw [Finset.sum_const, Finset.card_univ, nsmul_eq_mul]
  have : (Fintype.card Ω : ℝ) ≠ 0 := by exact_mod_cast Fintype.card_ne_zero
  field_simp

theorem expected_nonneg {g : Ω → ℝ} (h : ∀ w, 0 ≤ g w) : 0 ≤ expected g :=
  div_nonneg (Finset.sum_nonneg (fun w _ => h w)) (Nat.cast_nonneg _)

/-- Independent components: the expected value of a product is the product. -/
theorem expected_prod [Nonempty Ω] {s : ℕ} (f : Fin s → Ω → ℝ) :
    expected (fun w : Fin s → Ω => ∏ k, f k (w k)) = ∏ k, expected (f k) := by
  classical
  have h1 : ∏ k, ∑ j : Ω, f k j = ∑ w : Fin s → Ω, ∏ k, f k (w k) := by
    rw [Finset.prod_univ_sum, Fintype.piFinset_univ]
  unfold expected
  rw [← h1, Finset.prod_div_distrib]
  simp

theorem expected_one [Nonempty Ω] {s : ℕ} (k : Fin s) (g : Ω → ℝ) :
    expected (fun w : Fin s → Ω => g (w k)) = expected g := by
  classical
  have h := expected_prod (fun l => if l = k then g else fun _ => 1)
  rw [show (fun w : Fin s → Ω => ∏ l, (if l = k then g else fun _ => 1) (w l)) = fun w => g (w k) from by
      funext w
      rw [Finset.prod_eq_single k (by intro l _ hl; simp [hl]) (by simp)]
      simp] at h
  rw [h, Finset.prod_eq_single k (by
    intro l _ hl
    rw [if_neg hl]
    exact expected_const 1) (by simp)]
  simp

theorem expected_two [Nonempty Ω] {s : ℕ} {k l : Fin s} (hkl : k ≠ l) (f g : Ω → ℝ) :
    expected (fun w : Fin s → Ω => f (w k) * g (w l)) = expected f * expected g := by
  classical
  have h := expected_prod (fun m => if m = k then f else if m = l then g else fun _ => 1)
  have key : ∀ F : Fin s → ℝ, (∀ m, m ≠ k → m ≠ l → F m = 1) → ∏ m, F m = F k * F l := by
    intro F hF
    rw [← Finset.mul_prod_erase _ _ (Finset.mem_univ k),
      ← Finset.mul_prod_erase _ _ (Finset.mem_erase.2 ⟨hkl.symm, Finset.mem_univ l⟩),
      Finset.prod_eq_one (by
        intro m hm
        rw [Finset.mem_erase, Finset.mem_erase] at hm
        exact hF m hm.2.1 hm.1), mul_one]
  rw [show (fun w : Fin s → Ω => ∏ m, (if m = k then f else if m = l then g else fun _ => 1) (w m)) =
      fun w => f (w k) * g (w l) from by
    funext w
    rw [key (fun m => (if m = k then f else if m = l then g else fun _ => 1) (w m)) (by
      intro m h1 h2
      simp [h1, h2])]
    simp [hkl.symm]] at h
  rw [h, key _ (by
    intro m h1 h2
    rw [if_neg h1, if_neg h2]
    exact expected_const 1)]
  simp [hkl.symm]

/-- Mean, mean square error and mean sample variance of `s` independent samples. -/
theorem sample_mean [Nonempty Ω] {s : ℕ} (hs : 1 ≤ s) (X : Ω → ℝ) :
    expected (fun w : Fin s → Ω => (∑ k, X (w k)) / s) = expected X := by
  have hs0 : (s : ℝ) ≠ 0 := by positivity
  simp only [div_eq_inv_mul]
  rw [expected_smul, expected_sum]
  simp only [expected_one]
  simp
  field_simp

theorem sum_mean_square [Nonempty Ω] {s : ℕ} (X : Ω → ℝ) (h0 : expected X = 0) :
    expected (fun w : Fin s → Ω => (∑ k, X (w k)) ^ 2) = s * expected (fun w => X w ^ 2) := by
  classical
  have h1 : (fun w : Fin s → Ω => (∑ k, X (w k)) ^ 2) = fun w => ∑ k, ∑ l, X (w k) * X (w l) := by
    funext w
    rw [sq, Finset.sum_mul_sum]
  rw [h1, expected_sum]
  have h2 : ∀ k : Fin s, expected (fun w : Fin s → Ω => ∑ l, X (w k) * X (w l)) = expected (fun w => X w ^ 2) := by
    intro k
    rw [expected_sum, Finset.sum_eq_single k]
    · rw [← expected_one k (fun w => X w ^ 2)]
      simp only [sq]
    · intro l _ hl
      rw [expected_two hl.symm, h0, zero_mul]
    · simp
  simp only [h2]
  simp

theorem mean_square_error [Nonempty Ω] {s : ℕ} (hs : 1 ≤ s) (X : Ω → ℝ) :
    expected (fun w : Fin s → Ω => ((∑ k, X (w k)) / s - expected X) ^ 2) =
      expected (fun w => (X w - expected X) ^ 2) / s := by
  have hs0 : (s : ℝ) ≠ 0 := by positivity
  have h0 : expected (fun w => X w - expected X) = 0 := by
    have := expected_add X (fun _ => -expected X)
    rw [expected_const] at this
    simp only [← sub_eq_add_neg] at this
    rw [this, sub_self]
  have h := sum_mean_square (s := s) (fun w => X w - expected X) h0
  have h1 : (fun w : Fin s → Ω => ((∑ k, X (w k)) / s - expected X) ^ 2) =
      fun w => ((s : ℝ) ^ 2)⁻¹ * (∑ k, (X (w k) - expected X)) ^ 2 := by
    funext w
    rw [Finset.sum_sub_distrib]
    simp only [Finset.sum_const, Finset.card_univ, Fintype.card_fin, nsmul_eq_mul]
    field_simp
  rw [h1, expected_smul, h]
  field_simp

/-- The sum of the squared deviations from the mean of the samples. -/
theorem deviations [Nonempty Ω] {s : ℕ} (hs : 1 ≤ s) (X : Ω → ℝ) :
    expected (fun w : Fin s → Ω => ∑ k, (X (w k) - (∑ l, X (w l)) / s) ^ 2) =
      (s - 1) * expected (fun w => (X w - expected X) ^ 2) := by
  have hs0 : (s : ℝ) ≠ 0 := by positivity
  have h1 : (fun w : Fin s → Ω => ∑ k, (X (w k) - (∑ l, X (w l)) / s) ^ 2) =
      fun w => ∑ k, (X (w k) - expected X) ^ 2 + -s * ((∑ l, X (w l)) / s - expected X) ^ 2 := by
    funext w
    have h2 : ∀ m : ℝ, ∑ k, (X (w k) - m) ^ 2 = ∑ k, X (w k) ^ 2 - 2 * m * ∑ k, X (w k) + s * m ^ 2 := by
      intro m
      have : ∀ k, (X (w k) - m) ^ 2 = X (w k) ^ 2 - 2 * m * X (w k) + m ^ 2 := fun k => by ring
      simp only [this]
      rw [Finset.sum_add_distrib, Finset.sum_sub_distrib, ← Finset.mul_sum]
      simp
    rw [h2, h2]
    field_simp
    ring
  rw [h1, expected_add, expected_smul, mean_square_error hs, expected_sum]
  simp only [expected_one _ (fun w => (X w - expected X) ^ 2)]
  simp only [Finset.sum_const, Finset.card_univ, Fintype.card_fin, nsmul_eq_mul]
  field_simp
  ring

/-- Chebyshev's inequality. -/
theorem chebyshev [Nonempty Ω] (X : Ω → ℝ) (m : ℝ) {e : ℝ} (he : 0 < e) [DecidablePred fun w => e ≤ |X w - m|] :
    probability (fun w => e ≤ |X w - m|) ≤ expected (fun w => (X w - m) ^ 2) / e ^ 2 := by
  unfold probability expected
  rw [div_div, mul_comm, ← div_div]
  apply div_le_div_of_nonneg_right _ (Nat.cast_nonneg _)
  rw [le_div_iff₀ (by positivity)]
  calc ((Finset.univ.filter (fun w => e ≤ |X w - m|)).card : ℝ) * e ^ 2
      = ∑ w ∈ Finset.univ.filter (fun w => e ≤ |X w - m|), e ^ 2 := by simp
    _ ≤ ∑ w ∈ Finset.univ.filter (fun w => e ≤ |X w - m|), (X w - m) ^ 2 := by
        apply Finset.sum_le_sum
        intro w hw
        have := (Finset.mem_filter.1 hw).2
        rw [← sq_abs (X w - m)]
        exact pow_le_pow_left₀ he.le this 2
    _ ≤ ∑ w, (X w - m) ^ 2 :=
        Finset.sum_le_sum_of_subset_of_nonneg (Finset.filter_subset _ _) (fun _ _ _ => sq_nonneg _)

/-! ### Sign vectors -/

theorem sign_sq (s : Fin n → Bool) (i : Fin n) : signVector s i * signVector s i = 1 := by
  rcases signVector_rademacher s i with h | h <;> rw [h] <;> norm_num

theorem card_signs : (Fintype.card (Fin n → Bool) : ℝ) = 2 ^ n := by simp

/-- A function that changes its sign with one bit has expected value zero. -/
theorem expected_odd (m : Fin n) (g : (Fin n → Bool) → ℝ)
    (h : ∀ s, g (Function.update s m (!(s m))) = -g s) : expected g = 0 := by
  have hinv : Function.Involutive (fun s : Fin n → Bool => Function.update s m (!(s m))) := by
    intro s
    funext x
    by_cases hx : x = m
    · subst hx; simp
    · simp [Function.update_of_ne hx]
  have h1 := Equiv.sum_comp (hinv.toPerm _) g
  have h2 : ∀ s, g (hinv.toPerm _ s) = -g s := h
  simp only [h2, Finset.sum_neg_distrib] at h1
  unfold expected
  rw [show ∑ s, g s = 0 by linarith, zero_div]

theorem sign_update (s : Fin n → Bool) (m i : Fin n) :
    signVector (Function.update s m (!(s m))) i = if i = m then -signVector s i else signVector s i := by
  unfold signVector
  by_cases h : i = m
  · subst h
    rw [Function.update_self, if_pos rfl]
    cases s i <;> simp
  · rw [Function.update_of_ne h, if_neg h]

/-- Fourth moments: the products of two different signs are uncorrelated. -/
theorem expected_four {i j k l : Fin n} (hij : i ≠ j) (hkl : k ≠ l) :
    expected (fun s => signVector s i * signVector s j * (signVector s k * signVector s l)) =
      if (i = k ∧ j = l) ∨ (i = l ∧ j = k) then 1 else 0 := by
  by_cases h : (i = k ∧ j = l) ∨ (i = l ∧ j = k)
  · rw [if_pos h]
    have : (fun s : Fin n → Bool => signVector s i * signVector s j * (signVector s k * signVector s l)) = fun _ => 1 := by
      funext s
      have h1 := sign_sq s i
      have h2 := sign_sq s j
      rcases h with ⟨rfl, rfl⟩ | ⟨rfl, rfl⟩
      · rw [show signVector s i * signVector s j * (signVector s i * signVector s j) =
          (signVector s i * signVector s i) * (signVector s j * signVector s j) by ring, h1, h2, one_mul]
      · rw [show signVector s i * signVector s j * (signVector s j * signVector s i) =
          (signVector s i * signVector s i) * (signVector s j * signVector s j) by ring, h1, h2, one_mul]
    rw [this, expected_const]
  · rw [if_neg h]
    by_cases hi : i ≠ k ∧ i ≠ l
    · refine expected_odd i _ (fun s => ?_)
      simp only [sign_update, if_neg hij.symm, if_neg hi.1.symm, if_neg hi.2.symm, if_true]
      ring
    · have hj : j ≠ k ∧ j ≠ l := by
        constructor
        · rintro rfl
          apply hi
          refine ⟨hij, ?_⟩
          rintro rfl
          exact h (Or.inr ⟨rfl, rfl⟩)
        · rintro rfl
          apply hi
          refine ⟨?_, hij⟩
          rintro rfl
          exact h (Or.inl ⟨rfl, rfl⟩)
      refine expected_odd j _ (fun s => ?_)
      simp only [sign_update, if_neg hij, if_neg hj.1.symm, if_neg hj.2.symm, if_true]
      ring

/-- The quadratic form without its mean. -/
theorem form_sub_trace (M : Matrix (Fin n) (Fin n) ℝ) (s : Fin n → Bool) :
    signVector s ⬝ᵥ (M *ᵥ signVector s) - M.trace =
      ∑ i, ∑ j, if i = j then 0 else M i j * (signVector s i * signVector s j) := by
  have h1 : signVector s ⬝ᵥ (M *ᵥ signVector s) = ∑ i, ∑ j, M i j * (signVector s i * signVector s j) := by
    show ∑ i, signVector s i * ∑ j, M i j * signVector s j = _
    refine Finset.sum_congr rfl fun i _ => ?_
    rw [Finset.mul_sum]
    refine Finset.sum_congr rfl fun j _ => ?_
    ring
  rw [h1, Matrix.trace, ← Finset.sum_sub_distrib]
  refine Finset.sum_congr rfl fun i _ => ?_
  have h2 : ∀ j, (if i = j then 0 else M i j * (signVector s i * signVector s j)) =
      M i j * (signVector s i * signVector s j) - if i = j then M i j else 0 := by
    intro j
    by_cases h : i = j
    · subst h
      rw [if_pos rfl, if_pos rfl, sign_sq]
      ring
    · rw [if_neg h, if_neg h, sub_zero]
  simp only [h2]
  rw [Finset.sum_sub_distrib, Finset.sum_ite_eq]
  simp [Matrix.diag]

/-- The expected value of the quadratic form of a sign vector is the trace. -/
theorem expected_form (M : Matrix (Fin n) (Fin n) ℝ) :
    expected (fun s => signVector s ⬝ᵥ (M *ᵥ signVector s)) = M.trace := by
  unfold expected
  rw [average_trace, card_signs]
  field_simp

/-- The variance of the quadratic form of a sign vector. -/
theorem variance_form {M : Matrix (Fin n) (Fin n) ℝ} (hM : M.IsSymm) :
    expected (fun s => (signVector s ⬝ᵥ (M *ᵥ signVector s) - M.trace) ^ 2) = 2 * offDiagonal M := by
  have h1 : (fun s : Fin n → Bool => (signVector s ⬝ᵥ (M *ᵥ signVector s) - M.trace) ^ 2) = fun s =>
      ∑ i, ∑ j, ∑ k, ∑ l, (if i = j then 0 else M i j) * (if k = l then 0 else M k l) *
        (signVector s i * signVector s j * (signVector s k * signVector s l)) := by
    funext s
    rw [form_sub_trace, sq, Finset.sum_mul]
    refine Finset.sum_congr rfl fun i _ => ?_
    rw [Finset.sum_mul]
    refine Finset.sum_congr rfl fun j _ => ?_
    rw [Finset.mul_sum]
    refine Finset.sum_congr rfl fun k _ => ?_
    rw [Finset.mul_sum]
    refine Finset.sum_congr rfl fun l _ => ?_
    by_cases ha : i = j <;> by_cases hb : k = l <;> simp [ha, hb]
    ring
  rw [h1]
  simp only [expected_sum, expected_smul]
  have h2 : ∀ i j k l : Fin n, (if i = j then 0 else M i j) * (if k = l then 0 else M k l) *
      expected (fun s => signVector s i * signVector s j * (signVector s k * signVector s l)) =
      (if i = k then if j = l then (if i = j then 0 else M i j ^ 2) else 0 else 0) +
      (if j = k then if i = l then (if i = j then 0 else M i j ^ 2) else 0 else 0) := by
    intro i j k l
    by_cases ha : i = j
    · simp [ha]
    by_cases hb : k = l
    · subst hb
      have e1 : ¬ (i = k ∧ j = k) := fun h => ha (h.1.trans h.2.symm)
      rw [if_pos rfl, mul_zero, zero_mul, if_neg ha]
      by_cases c1 : i = k <;> by_cases c2 : j = k <;> simp_all
    · rw [if_neg ha, if_neg hb, expected_four ha hb, if_neg ha]
      have hs : M j i = M i j := by
        conv_lhs => rw [← hM.eq]
        rfl
      by_cases c1 : i = k
      · subst c1
        rw [if_pos rfl, if_neg (fun h => ha h.symm : ¬ j = i), add_zero]
        by_cases c2 : j = l
        · subst c2; simp; ring
        · rw [if_neg c2, if_neg (by rintro (⟨_, h⟩ | ⟨_, h⟩); exacts [c2 h, ha h.symm]), mul_zero]
      · rw [if_neg c1, zero_add]
        by_cases c2 : j = k
        · subst c2
          rw [if_pos rfl]
          by_cases c3 : i = l
          · subst c3; simp [hs]; ring
          · rw [if_neg c3, if_neg (by rintro (⟨h, _⟩ | ⟨h, _⟩); exacts [c1 h, c3 h]), mul_zero]
        · rw [if_neg c2, if_neg (by rintro (⟨h, _⟩ | ⟨_, h⟩); exacts [c1 h, c2 h]), mul_zero]
  simp only [h2, Finset.sum_add_distrib]
  simp only [Finset.sum_ite_eq, Finset.sum_ite_irrel, Finset.sum_const_zero, Finset.mem_univ, if_true]
  unfold offDiagonal
  ring

end Imate.Accuracy
