import Verif.Lemmas.Rounded

/-!
# Rounding errors of the kernels that add a multiple of a product
-/

namespace Imate.Rounded

open Finset Spec Matrix

theorem Approx.smul {G s T y : ℝ} (a : ℝ) (h : Approx G s T y) : Approx G (a * s) (|a| * T) (a * y) := by
  refine ⟨by rw [abs_mul]; exact mul_le_mul_of_nonneg_left h.1 (abs_nonneg a), ?_⟩
  rw [← mul_sub, abs_mul]
  have := mul_le_mul_of_nonneg_left h.2 (abs_nonneg a)
  linarith

/-- A loop that updates one element per iteration. -/
theorem forRange_update_rel {n : ℕ} {body : ℕ → Array ℝ → Except Fault (Array ℝ)} (w : Fin n → ℝ)
    (P : Fin n → ℝ → Prop)
    (hb : ∀ i : Fin n, ∃ x, P i x ∧ ∀ c' : Array ℝ, c'.size = n → rd c' i.1 = .ok (w i) → body i.1 c' = wr c' i.1 x) :
    ∃ r : Fin n → ℝ, forRange 0 n body (Array.ofFn w) = .ok (Array.ofFn r) ∧ ∀ i, P i (r i) := by
  choose r h1 h2 using hb
  refine ⟨r, forRange_write_ofFn _ r (by simp) fun i c' hs hc => h2 i c' hs ?_, h1⟩
  apply rd_ok
  rw [hc]
  simp

section

variable {flD flL : ℝ → ℝ} {u U : ℝ} {n m : ℕ}

/-- `c + alpha * static_cast<DataType>(sum)`. -/
theorem Approx.plus (hu : 0 ≤ u) (hU : 0 ≤ U) (hD : Rel u flD) {k e : ℕ} {s T y : ℝ} {s' T' y' : ℝ} (alpha : ℝ)
    (h' : Approx ((1 + u) ^ (k + 2) * (1 + U) ^ e) s' T' y') (h : Approx ((1 + u) ^ k * (1 + U) ^ e) s T y) :
    Approx ((1 + u) ^ (k + 3) * (1 + U) ^ e) (s' + alpha * s) (T' + |alpha| * T)
      (flD (y' + times flD alpha (flD y))) :=
  (h'.add (((h.cast hu hD).smul alpha).cast hu hD)).cast hu hD

theorem one_le_G (hu : 0 ≤ u) (hU : 0 ≤ U) (k e : ℕ) : 1 ≤ (1 + u) ^ k * (1 + U) ^ e :=
  one_le_mul_of_one_le_of_one_le (one_le_pow₀ (by linarith)) (one_le_pow₀ (by linarith))

theorem scatterPlus_approx (hu : 0 ≤ u) (hD : Rel u flD) {data : Array ℝ} {ix : Array ℕ} {base lo hi p : ℕ}
    {b : Array ℝ} {bp alpha : ℝ} {e : ℕ} (he : 2 ≤ e) (hbase : base ≤ lo) (hle : lo ≤ hi) (hsz : hi ≤ data.size)
    (hix : ∀ k, lo ≤ k → k < hi → ∃ j < m, ix[k]? = some j) (hb : rd b p = .ok bp)
    {S T : Fin m → ℝ} {w : Fin m → ℝ} (hw : ∀ j, Approx ((1 + u) ^ (cnt ix base lo j.1 + e)) (S j) (T j) (w j)) :
    ∃ r : Fin m → ℝ, scatterPlus flD data ix b alpha p lo hi (Array.ofFn w) = .ok (Array.ofFn r) ∧
      ∀ j, Approx ((1 + u) ^ (cnt ix base hi j.1 + e))
        (S j + alpha * ∑ k ∈ Ico lo hi, (if ix[k]? = some j.1 then data.getD k 0 else 0) * bp)
        (T j + |alpha| * ∑ k ∈ Ico lo hi, (if ix[k]? = some j.1 then (data.map abs).getD k 0 else 0) * |bp|) (r j) := by
  unfold scatterPlus
  obtain ⟨c', h1, r, h2, h3⟩ := forRange_inv (body := fun k c => do
      let column ← rd ix k
      wr c column (flD ((← rd c column) + times flD (times flD alpha (← rd data k)) (← rd b p))))
    (fun k c' => ∃ r : Fin m → ℝ, c' = Array.ofFn r ∧ ∀ j, Approx ((1 + u) ^ (cnt ix base k j.1 + e))
        (S j + alpha * ∑ k ∈ Ico lo k, (if ix[k]? = some j.1 then data.getD k 0 else 0) * bp)
        (T j + |alpha| * ∑ k ∈ Ico lo k, (if ix[k]? = some j.1 then (data.map abs).getD k 0 else 0) * |bp|) (r j))
    hle (Array.ofFn w) ⟨w, rfl, by simpa using hw⟩ (by
      rintro k hk1 hk2 s ⟨r, rfl, hr⟩
      obtain ⟨j, hj, hkj⟩ := hix k hk1 hk2
      have hd : data[k]? = some (data.getD k 0) := by
        simp [Array.getD_eq_getD_getElem?, Array.getElem?_eq_getElem (show k < data.size by omega)]
      simp only [rd_ok hkj, Except.ok_bind', rd_ok hd, hb]
      rw [rd_ofFn r ⟨j, hj⟩]
      simp only [Except.ok_bind']
      rw [wr_ok (by simpa using hj)]
      refine ⟨_, rfl, Function.update r ⟨j, hj⟩
        (flD (r ⟨j, hj⟩ + times flD (times flD alpha (data.getD k 0)) bp)), ?_, ?_⟩
      · apply eq_ofFn (by simp)
        intro i
        rw [Array.getElem?_set]
        by_cases hij : j = i.1
        · have : (⟨j, hj⟩ : Fin m) = i := by ext; exact hij
          subst this
          simp
        · have : i ≠ ⟨j, hj⟩ := fun h => hij (by rw [h])
          simp [hij, Function.update_of_ne this]
      · intro i
        rw [sum_Ico_succ_top hk1, sum_Ico_succ_top hk1, cnt_succ ix (by omega), hkj]
        by_cases hij : j = i.1
        · have : i = (⟨j, hj⟩ : Fin m) := by ext; exact hij.symm
          subst this
          simp only [if_true, Function.update_self]
          have ht := ((approx_times hu hD alpha (data.getD k 0)).smul bp).round hu hD
          have ht' : Approx ((1 + u) ^ 2) (alpha * (data.getD k 0 * bp)) (|alpha| * ((data.map abs).getD k 0 * |bp|))
              (times flD (times flD alpha (data.getD k 0)) bp) := by
            have e1 : |bp| * |alpha * data.getD k 0| = |alpha| * ((data.map abs).getD k 0 * |bp|) := by
              have e0 : |data.getD k 0| = (data.map abs).getD k 0 := by
                simp only [Array.getD_eq_getD_getElem?, Array.getElem?_map]
                cases data[k]? <;> simp
              rw [abs_mul, e0]
              ring
            have e2 : bp * (alpha * data.getD k 0) = alpha * (data.getD k 0 * bp) := by ring
            have e3 : bp * times flD alpha (data.getD k 0) = times flD alpha (data.getD k 0) * bp := by ring
            rw [e1, e2, e3, ← pow_two] at ht
            exact ht
          have hG : (1 + u) ^ 2 ≤ (1 + u) ^ (cnt ix base k j + e) := pow_le_pow_right₀ (by linarith) (by omega)
          have := ((hr ⟨j, hj⟩).add (ht'.weaken hG)).round hu hD
          rw [mul_add, mul_add, ← add_assoc, ← add_assoc,
            show cnt ix base k j + 1 + e = (cnt ix base k j + e) + 1 by omega, pow_succ]
          exact this
        · have : i ≠ ⟨j, hj⟩ := fun h => hij (by rw [h])
          simp only [Option.some.injEq, hij, if_false, zero_mul, add_zero, Function.update_of_ne this]
          exact hr i)
  exact ⟨r, by rw [h1, h2], h3⟩

theorem scatterAllPlus_approx (hu : 0 ≤ u) (hD : Rel u flD) {data : Array ℝ} {ix ptr : Array ℕ}
    {M P : Matrix (Fin n) (Fin m) ℝ} (h : CSRRepr data ix ptr M) (hP : CSRRepr (data.map abs) ix ptr P)
    (v : Fin n → ℝ) (alpha : ℝ) {e : ℕ} (he : 2 ≤ e) {S T w : Fin m → ℝ}
    (hw : ∀ j, Approx ((1 + u) ^ e) (S j) (T j) (w j)) :
    ∃ r : Fin m → ℝ, forRange 0 n (fun row c => do
      scatterPlus flD data ix (Array.ofFn v) alpha row (← rd ptr row) (← rd ptr (row + 1)) c)
      (Array.ofFn w) = .ok (Array.ofFn r) ∧
      ∀ j, Approx ((1 + u) ^ (((range ix.size).filter fun k => ix[k]? = some j.1).card + e))
        (S j + alpha * (Mᵀ *ᵥ v) j) (T j + |alpha| * (Pᵀ *ᵥ fun i => |v i|) j) (r j) := by
  have hu1 : (1 : ℝ) ≤ 1 + u := by linarith
  obtain ⟨base, hbase⟩ : ∃ base, ptr[0]? = some base := by
    have h0 : 0 < ptr.size := by rw [h.1]; omega
    exact ⟨ptr[0], Array.getElem?_eq_getElem h0⟩
  obtain ⟨c', h1, lo, -, -, r, h2, h3⟩ := forRange_inv (body := fun row c => do
      scatterPlus flD data ix (Array.ofFn v) alpha row (← rd ptr row) (← rd ptr (row + 1)) c)
    (fun k c' => ∃ lo, ptr[k]? = some lo ∧ base ≤ lo ∧ ∃ r : Fin m → ℝ, c' = Array.ofFn r ∧
      ∀ j, Approx ((1 + u) ^ (cnt ix base lo j.1 + e))
        (S j + alpha * ∑ i ∈ range k, if hi : i < n then M ⟨i, hi⟩ j * v ⟨i, hi⟩ else 0)
        (T j + |alpha| * ∑ i ∈ range k, if hi : i < n then P ⟨i, hi⟩ j * |v ⟨i, hi⟩| else 0) (r j))
    (Nat.zero_le n) (Array.ofFn w)
    ⟨base, hbase, le_rfl, _, rfl, fun j => by simpa [cnt] using hw j⟩ (by
      rintro i _ hi s ⟨lo, hlo, hbl, r, rfl, hr⟩
      obtain ⟨lo', hi', g1, g2, g3, g4, g5, g6⟩ := h.2.2 ⟨i, hi⟩
      obtain ⟨lo2, hi2, k1, k2, k3, k4, k5, k6⟩ := hP.2.2 ⟨i, hi⟩
      simp only at g1 g2 k1 k2
      rw [hlo, Option.some.injEq] at g1 k1
      subst g1 k1
      rw [g2, Option.some.injEq] at k2
      subst k2
      have h2' : rd ptr (i + 1) = .ok hi' := rd_ok g2
      simp only [rd_ok hlo, h2', Except.ok_bind']
      obtain ⟨r', e1, e2⟩ := scatterPlus_approx (alpha := alpha) hu hD he hbl g3 g4 g5 (rd_ofFn v ⟨i, hi⟩) hr
      refine ⟨_, e1, hi', g2, hbl.trans g3, r', rfl, fun j => ?_⟩
      have := e2 j
      rw [← Finset.sum_mul, ← Finset.sum_mul, ← g6 j, ← k6 j] at this
      rw [sum_range_succ, sum_range_succ, dif_pos hi, dif_pos hi, mul_add, mul_add, ← add_assoc, ← add_assoc]
      exact this)
  refine ⟨r, by rw [h1, h2], fun j => ?_⟩
  have h4 := (h3 j).weaken (pow_le_pow_right₀ hu1 (Nat.add_le_add_right (cnt_le ix base lo j.1) e))
  rw [Finset.sum_range, Finset.sum_range] at h4
  simp only [Fin.is_lt, dif_pos, Fin.eta] at h4
  exact h4

end

end Imate.Rounded
