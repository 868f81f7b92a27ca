import Verif.Lemmas.GramSchmidt
import Verif.Lemmas.RoundedConvergence
import Verif.Lemmas.RoundedOrtho
import Verif.Spec.RoundedOrtho

/-!
# C102: the Gram-Schmidt process in floating-point arithmetic
-/

namespace Imate.Props

open Matrix Spec Rounded

section

variable {p e q n : ℕ} {flD flE flL : ℝ → ℝ}

private theorem steps_eq {N : ℕ} (hN : 2 ≤ N) (numOrtho : ℤ) : Lanczos.gsNumSteps n N numOrtho = windowSize n N numOrtho := by
  unfold Lanczos.gsNumSteps windowSize
  by_cases h0 : numOrtho = 0
  · subst h0
    rw [if_pos (Or.inl rfl), if_neg (by omega)]
    simp
  · rw [if_neg (by omega)]
    simp only [gt_iff_lt]
    split_ifs <;> omega

private theorem index_window {N last s k : ℕ} (hl : last < N) (hs : s < k) (hk : k ≤ N) :
    InWindow N last k (Lanczos.gsIndex N last s) := by
  unfold Lanczos.gsIndex
  rw [Nat.mod_eq_of_lt hl]
  split
  · rename_i h
    exact ⟨by omega, s, hs, by rw [Nat.sub_add_cancel h, Nat.mod_eq_of_lt hl]⟩
  · exact ⟨by omega, s, hs, by rw [Nat.sub_add_cancel (by omega), Nat.add_mod_right, Nat.mod_eq_of_lt hl]⟩

private theorem window_index {N last k i : ℕ} (hl : last < N) (hk : k ≤ N) (h : InWindow N last k i) :
    ∃ s < k, i = Lanczos.gsIndex N last s := by
  obtain ⟨h1, s, hs, h2⟩ := h
  refine ⟨s, hs, ?_⟩
  unfold Lanczos.gsIndex
  rw [Nat.mod_eq_of_lt hl]
  have h3 : (i + s) % N = if i + s < N then i + s else i + s - N := by
    split
    · rename_i h; exact Nat.mod_eq_of_lt h
    · rw [Nat.mod_eq_sub_mod (by omega), Nat.mod_eq_of_lt (by omega)]
  rw [h3] at h2
  split at h2 <;> split <;> omega

private theorem window_le (n N : ℕ) (numOrtho : ℤ) : windowSize n N numOrtho ≤ N := by
  unfold windowSize
  split_ifs <;> omega

/-- C102: against vectors that are orthonormal up to rounding, of which the given vector has only small components, the process
returns a vector that is orthogonal to all of them up to rounding.  It changes the vector by little more than these components
and does not lengthen it.  `ε` is the relative error of a norm.  Missing: vectors with larger components, for which the claim
is false (`rounded_gram_schmidt_repeated`). -/
theorem rounded_gram_schmidt_partial (hp : 1 ≤ p) (he : 1 ≤ e) (hq : 1 ≤ q) (hD : Nearest p flD) (hE : Nearest e flE)
    (hL : Nearest q flL) {ε : ℝ} (hε : normFactor p q n - 1 ≤ ε) {eps : ℝ} (heps0 : 0 < eps) (heps : eps ≤ 1 / 16)
    (hepsn : eps * Real.sqrt n ≤ 1 / 4) {N last : ℕ} (hN : 2 ≤ N) (hlast : last < N) {numOrtho : ℤ} {k : ℕ}
    (hk : k = windowSize n N numOrtho) {V : Array (Array ℝ)} {W : ℕ → Fin n → ℝ}
    (hV : ∀ i, InWindow N last k i → V[i]? = some (Array.ofFn (W i))) {r : Fin n → ℝ} {η κ : ℝ} (hη : 0 ≤ η) (hκ : 0 ≤ κ)
    (hW : NearlyOrthonormal ε η W (InWindow N last k)) (hr : ∀ i, InWindow N last k i → |W i ⬝ᵥ r| ≤ κ)
    (hkε : k * ε ≤ 1 / 64) (hkη : k * η ≤ 1 / 16) (hsmall : κ + 8 * (k * (ε * len r)) ≤ 1 / 4) :
    ∃ r', Rounded.gramSchmidt flD flE flL eps n V N last numOrtho (Array.ofFn r) = .ok (Array.ofFn r') ∧
      (∀ i, InWindow N last k i → |W i ⬝ᵥ r'| ≤ 5 / 4 * (k * η) * κ + 11 * (k * ε) * len r) ∧
      len (r' - r) ≤ k * (4 / 3 * κ + 12 * (k * ε) * len r) ∧ len r' ≤ (1 + 3 * (k * ε)) * len r := by
  have hε0 : 0 ≤ ε := by have := seven_unit_le p q n; have := unit_pos p; linarith
  have hkN : k ≤ N := by rw [hk]; exact window_le n N numOrtho
  have hR := len_nonneg r
  obtain ⟨r', h1, h2⟩ := gs_window hp he hq hD hE hL hε heps0 heps hepsn (N := N) (last := last) (numOrtho := numOrtho) (V := V)
    (w := fun s => W (Lanczos.gsIndex N last s)) (r := r) (k := k) (by rw [hk, steps_eq hN])
    (fun t ht => hV _ (index_window hlast ht hkN)) hη hκ le_rfl hkε hkη hsmall
    (fun t ht => hW.unit _ (index_window hlast ht hkN))
    (fun t ht t' ht' hne => hW.orthogonal _ _ (index_window hlast ht hkN) (index_window hlast ht' hkN) fun h => hne (by
      rw [Lanczos.gsIndex_window hlast (by omega), Lanczos.gsIndex_window hlast (by omega)] at h
      exact Lanczos.window_inj hlast (by omega) (by omega) h))
    (fun t ht => hr _ (index_window hlast ht hkN))
  have hkX : 0 ≤ k * ε * len r := by positivity
  refine ⟨r', h1, fun i hi => ?_, ?_, ?_⟩
  · obtain ⟨s, hs, rfl⟩ := window_index hlast hkN hi
    have hk1 : (1 : ℝ) ≤ k := by exact_mod_cast (by omega : 1 ≤ k)
    have h3 := h2.earlier s hs
    have h4 : ε * len r ≤ k * ε * len r := by
      have : ε ≤ k * ε := le_mul_of_one_le_left hε0 hk1
      exact mul_le_mul_of_nonneg_right this hR
    have h5 : k * η * (k * ε * len r) ≤ 1 / 16 * (k * ε * len r) := mul_le_mul_of_nonneg_right hkη hkX
    refine h3.trans ?_
    linarith
  · obtain ⟨c, h3, h4⟩ := h2.change
    have h5 : ∀ s ≤ k, len (∑ t ∈ Finset.range s, c t • W (Lanczos.gsIndex N last t)) ≤
        s * (67 / 64 * (5 / 4 * κ + 9 * (k * (ε * len r)))) := by
      intro s hs
      induction s with
      | zero => simp [len]
      | succ s ih =>
        rw [Finset.sum_range_succ]
        refine (len_add_le _ _).trans ?_
        have h6 := ih (by omega)
        have h7 := (abs_le.1 (hW.unit _ (index_window hlast (show s < k by omega) hkN))).2
        have hk1 : (1 : ℝ) ≤ k := by exact_mod_cast (by omega : 1 ≤ k)
        have h8 : len (W (Lanczos.gsIndex N last s)) ≤ 67 / 64 := by nlinarith
        rw [len_scale]
        have h9 := mul_le_mul (h3 s) h8 (len_nonneg _) ((abs_nonneg _).trans (h3 s))
        push_cast
        linarith
    have e1 : r' - r = -(∑ t ∈ Finset.range k, c t • W (Lanczos.gsIndex N last t)) +
        (r' - (r - ∑ t ∈ Finset.range k, c t • W (Lanczos.gsIndex N last t))) := by abel
    rw [e1]
    refine (len_add_le _ _).trans ?_
    rw [len_neg]
    have h6 := h5 k le_rfl
    have hk0 : (0 : ℝ) ≤ k := Nat.cast_nonneg k
    rcases Nat.eq_zero_or_pos k with h0 | h0
    · simp only [h0, Nat.cast_zero, zero_mul] at h6 h4 ⊢
      linarith
    have hk1 : (1 : ℝ) ≤ k := by exact_mod_cast h0
    have h7 : k * (ε * len r) ≤ k * (k * (ε * len r)) := by
      refine mul_le_mul_of_nonneg_left ?_ hk0
      exact le_mul_of_one_le_left (mul_nonneg hε0 hR) hk1
    have h8 : 0 ≤ k * κ := mul_nonneg hk0 hκ
    have h9 : 0 ≤ k * (k * (ε * len r)) := by positivity
    linarith
  · refine h2.len.trans (le_of_eq ?_)
    ring

/-- A hypothesis on the components is needed: a vector that is already in the buffer is returned unchanged, in every
precision. -/
theorem rounded_gram_schmidt_repeated (hp : 1 ≤ p) (he : 1 ≤ e) (hq : 1 ≤ q) (hD : Nearest p flD) (hE : Nearest e flE)
    (hL : Nearest q flL) {eps : ℝ} (heps0 : 0 < eps) (heps : eps ≤ 1 / 16) :
    Rounded.gramSchmidt flD flE flL eps 1 #[#[1], #[1]] 2 1 (-1) #[1] = .ok #[1] := by
  have d0 : flD 0 = 0 := RoundedConvergence.fl_self hD (representable_zero p)
  have d1 : flD 1 = 1 := RoundedConvergence.fl_self hD (by simpa using RoundedConvergence.representable_nat hp (n := 1) Nat.one_le_two_pow)
  have l1 : flL 1 = 1 := RoundedConvergence.fl_self hL (by simpa using RoundedConvergence.representable_nat hq (n := 1) Nat.one_le_two_pow)
  have e0 : flE 0 = 0 := RoundedConvergence.fl_self hE (representable_zero e)
  have e1 : flE 1 = 1 := RoundedConvergence.fl_self hE (by simpa using RoundedConvergence.representable_nat he (n := 1) Nat.one_le_two_pow)
  have e2 : flE 2 = 2 := RoundedConvergence.fl_self hE (by simpa using RoundedConvergence.representable_nat he (n := 2) (Nat.le_self_pow (by omega) 2))
  have em : flE (-1) = -1 := by
    refine RoundedConvergence.fl_self hE ?_
    have h := RoundedConvergence.representable_nat he (n := 1) Nat.one_le_two_pow
    obtain ⟨a, b, h1, h2⟩ := h
    exact ⟨-a, b, by simpa using h1, by push_cast at h2 ⊢; rw [neg_mul, ← h2]⟩
  have hpos : ∀ x, 0 < x → 0 < flE x := by
    intro x hx
    have h3 : |flE x - x| ≤ unitRoundoff e * |x| := nearest_rel he hE x
    rw [abs_of_pos hx] at h3
    have h4 := (abs_le.1 h3).1
    have h5 := unit_le_half he
    nlinarith
  have hN : Rounded.euclideanNorm flD flL #[1] 1 = .ok 1 := by
    simp [Rounded.euclideanNorm, chunkedDot, forStep, forRange, loopN, times, rd, d1, l1, Except.ok_bind']
  have hI : Rounded.innerProduct flD flL #[1] #[1] 1 = .ok 1 := by
    simp [Rounded.innerProduct, chunkedDot, forStep, forRange, loopN, times, rd, d1, l1, Except.ok_bind']
  have hs : Rounded.gsStep flD flE flL eps 1 #[1] #[1] = .ok #[1] := by
    unfold Rounded.gsStep
    rw [hN, hI]
    simp only [Except.ok_bind']
    have t := norm_test he hE heps0.le (Real.sqrt_nonneg ((1 : ℕ) : ℝ)) (N := 1) (by simp; linarith) (by norm_num)
    rw [if_neg t]
    have t2 : |flE (|flD (1 / flD (1 * 1))| - 1)| ≤ flE (2 * eps) := by
      rw [mul_one, d1, div_one, d1, abs_one, sub_self, e0, abs_zero]
      exact (hpos _ (by linarith)).le
    rw [if_pos t2]
    have t3 : distance2 flD flE 1 1 1 < flE (flE (2 * eps) * (1 : ℕ)) := by
      unfold distance2
      have : (1 : ℝ) - 2 = -1 := by norm_num
      rw [mul_one, mul_one, d1, e2, this, em, neg_add_cancel, e0, d0, Nat.cast_one, mul_one]
      exact hpos _ (hpos _ (by linarith))
    rw [if_pos t3]
    rfl
  unfold Rounded.gramSchmidt
  simp [Lanczos.gsNumSteps, Lanczos.gsIndex, forRange, loopN, rd, hs, Except.ok_bind']

end

private noncomputable def exampleRows (i : ℕ) : Fin 3 → ℝ := if i = 0 then ![1, 0, 0] else ![0, 1, 0]

/-- Two vectors of the standard basis in double precision with x87 `long double`, and a vector of length at most two. -/
example {flD flL : ℝ → ℝ} (hD : Nearest 53 flD) (hL : Nearest 64 flL) :
    ∃ r', Rounded.gramSchmidt flD flD flL (1 / 2 ^ 52) 3 #[Array.ofFn (exampleRows 0), Array.ofFn (exampleRows 1)] 2 1 (-1)
        (Array.ofFn ![1 / 8, 1 / 16, 1]) = .ok (Array.ofFn r') ∧
      |exampleRows 0 ⬝ᵥ r'| ≤ 1 / 2 ^ 40 ∧ |exampleRows 1 ⬝ᵥ r'| ≤ 1 / 2 ^ 40 := by
  have hlen : ∀ i, len (exampleRows i) = 1 := by
    intro i
    unfold len exampleRows
    split <;> simp [dotProduct, Fin.sum_univ_three]
  have hr : len (![1 / 8, 1 / 16, 1] : Fin 3 → ℝ) ≤ 2 :=
    len_le_of_sq (by norm_num) (by simp [dotProduct, Fin.sum_univ_three]; norm_num)
  have hrn := len_nonneg (![1 / 8, 1 / 16, 1] : Fin 3 → ℝ)
  have hsq : Real.sqrt ((3 : ℕ) : ℝ) ≤ 2 := by
    rw [Real.sqrt_le_left (by norm_num)]; norm_num
  have hwin : ∀ i, InWindow 2 1 2 i → i = 0 ∨ i = 1 := fun i h => by have := h.1; omega
  have hin : ∀ i < 2, InWindow 2 1 2 i := by
    intro i hi
    rcases (by omega : i = 0 ∨ i = 1) with rfl | rfl
    · exact ⟨by omega, 1, by omega, rfl⟩
    · exact ⟨by omega, 0, by omega, rfl⟩
  obtain ⟨r', h1, h2, -⟩ := rounded_gram_schmidt_partial (p := 53) (e := 53) (q := 64) (n := 3) (by norm_num) (by norm_num) (by norm_num)
    hD hD hL (ε := 8 / 2 ^ 53) (by unfold normFactor unitRoundoff; norm_num) (eps := 1 / 2 ^ 52) (by norm_num) (by norm_num)
    ((mul_le_mul (by norm_num : (1 : ℝ) / 2 ^ 52 ≤ 1 / 8) hsq (Real.sqrt_nonneg _) (by norm_num)).trans (by norm_num))
    (N := 2) (last := 1) (by norm_num) (by norm_num) (numOrtho := -1) (k := 2) (by decide)
    (V := #[Array.ofFn (exampleRows 0), Array.ofFn (exampleRows 1)]) (W := exampleRows)
    (by intro i hi; rcases hwin i hi with rfl | rfl <;> rfl) (r := ![1 / 8, 1 / 16, 1]) (η := 0) (κ := 1 / 8) le_rfl (by norm_num)
    ⟨fun i _ => by rw [hlen]; norm_num, fun i j hi hj hne => by
      rcases hwin i hi with rfl | rfl <;> rcases hwin j hj with rfl | rfl
      · exact absurd rfl hne
      · simp [exampleRows, dotProduct, Fin.sum_univ_three]
      · simp [exampleRows, dotProduct, Fin.sum_univ_three]
      · exact absurd rfl hne⟩
    (fun i hi => by
      rcases hwin i hi with rfl | rfl
      · simp [exampleRows, dotProduct, Fin.sum_univ_three]
      · simp [exampleRows, dotProduct, Fin.sum_univ_three]; norm_num)
    (by norm_num) (by norm_num) (by push_cast; linarith)
  have h3 := h2 0 (hin 0 (by omega))
  have h4 := h2 1 (hin 1 (by omega))
  push_cast at h3 h4
  exact ⟨r', h1, by linarith, by linarith⟩

end Imate.Props
