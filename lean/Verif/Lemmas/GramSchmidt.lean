import Verif.Lemmas.GolubKahn

/-! Gram-Schmidt against an orthogonal window. -/

namespace Imate.Lanczos

open Matrix

variable {n : Nat}

theorem gsIndex_window {nv last s : Nat} (hl : last < nv) (hs : s < nv) :
    gsIndex nv last s = (last + nv - s) % nv := by
  unfold gsIndex
  rw [Nat.mod_eq_of_lt hl]
  by_cases h : last ≥ s
  · rw [if_pos h]
    have : last + nv - s = (last - s) + nv := by omega
    rw [this, Nat.add_mod_right, Nat.mod_eq_of_lt (by omega)]
  · rw [if_neg h, Nat.mod_eq_of_lt (by omega)]

theorem window_lt {nv last s : Nat} (hl : last < nv) : (last + nv - s) % nv < nv :=
  Nat.mod_lt _ (by omega)

theorem window_inj {nv last s t : Nat} (hl : last < nv) (hs : s < nv) (ht : t < nv)
    (h : (last + nv - s) % nv = (last + nv - t) % nv) : s = t := by
  rcases Nat.lt_trichotomy s t with h1 | h1 | h1
  · have := mod_inj (i := last + nv - t) (j := last + nv - s) (by omega) (by omega) h.symm
    omega
  · exact h1
  · have := mod_inj (i := last + nv - s) (j := last + nv - t) (by omega) (by omega) h
    omega

theorem gsNumSteps_le (vs nv : Nat) (no : Int) : gsNumSteps vs nv no ≤ nv := by
  unfold gsNumSteps
  simp only
  split
  · omega
  · split <;> split <;> omega

/-- One step without any of the two skip rules. -/
theorem gsStep_eq (eps : ℝ) {x v : Fin n → ℝ} (h1 : eps * Real.sqrt n ≤ norm Real.sqrt x)
    (h2 : 2 * eps < |(|(x ⬝ᵥ v) / (x ⬝ᵥ x)| - 1)|) :
    gsStep Real.sqrt eps x v = v - ((x ⬝ᵥ v) / (x ⬝ᵥ x)) • x := by
  unfold gsStep
  simp only
  rw [if_neg (not_lt.2 h1), norm_mul_self, if_neg]
  rintro ⟨h3, _⟩
  exact absurd h3 (not_le.2 h2)

/-- The sum of projections over the first `k` steps. -/
noncomputable def projections (X : Nat → Fin n → ℝ) (nv last k : Nat) (v : Fin n → ℝ) :
    Fin n → ℝ :=
  ∑ s ∈ Finset.range k, ((X ((last + nv - s) % nv) ⬝ᵥ v) /
    (X ((last + nv - s) % nv) ⬝ᵥ X ((last + nv - s) % nv))) • X ((last + nv - s) % nv)

theorem dot_projections {X : Nat → Fin n → ℝ} {nv last k : Nat} {v : Fin n → ℝ}
    (hl : last < nv) (hk : k ≤ nv)
    (ho : ∀ s < k, ∀ t < k, s ≠ t → X ((last + nv - s) % nv) ⬝ᵥ X ((last + nv - t) % nv) = 0)
    (hx : ∀ s < k, X ((last + nv - s) % nv) ⬝ᵥ X ((last + nv - s) % nv) ≠ 0) {t : Nat}
    (ht : t < k) : X ((last + nv - t) % nv) ⬝ᵥ projections X nv last k v =
      X ((last + nv - t) % nv) ⬝ᵥ v := by
  unfold projections
  rw [dotProduct_sum, Finset.sum_eq_single t]
  · rw [dotProduct_smul, smul_eq_mul, div_mul_cancel₀ _ (hx t ht)]
  · intro s hs hne
    rw [dotProduct_smul, ho t ht s (Finset.mem_range.1 hs) (fun h => hne h.symm), smul_zero]
  · intro h
    exact absurd (Finset.mem_range.2 ht) h

theorem dot_projections_zero {X : Nat → Fin n → ℝ} {nv last k : Nat} {v : Fin n → ℝ}
    {y : Fin n → ℝ} (hy : ∀ s < k, y ⬝ᵥ X ((last + nv - s) % nv) = 0) :
    y ⬝ᵥ projections X nv last k v = 0 := by
  unfold projections
  rw [dotProduct_sum]
  apply Finset.sum_eq_zero
  intro s hs
  rw [dotProduct_smul, hy s (Finset.mem_range.1 hs), smul_zero]

theorem gramSchmidt_eq (eps : ℝ) (V : Rows ℝ n) (nv last : Nat) (no : Int) (v : Fin n → ℝ)
    (X : Nat → Fin n → ℝ) (hl : last < nv) (hV : ∀ i < nv, V[i]? = some (some (X i)))
    (ho : ∀ s < gsNumSteps n nv no, ∀ t < gsNumSteps n nv no, s ≠ t →
      X ((last + nv - s) % nv) ⬝ᵥ X ((last + nv - t) % nv) = 0)
    (h1 : ∀ s < gsNumSteps n nv no,
      eps * Real.sqrt n ≤ norm Real.sqrt (X ((last + nv - s) % nv)))
    (h2 : ∀ s < gsNumSteps n nv no, 2 * eps < |(|(X ((last + nv - s) % nv) ⬝ᵥ v) /
      (X ((last + nv - s) % nv) ⬝ᵥ X ((last + nv - s) % nv))| - 1)|) :
    gramSchmidt Real.sqrt eps V nv last no v =
      .ok (v - projections X nv last (gsNumSteps n nv no) v) := by
  have hN := gsNumSteps_le n nv no
  unfold gramSchmidt
  obtain ⟨s', e1, e2⟩ := forRange_inv (body := fun step v => do
    let Vi ← load V (gsIndex nv last step)
    .ok (gsStep Real.sqrt eps Vi v)) (fun k u => u = v - projections X nv last k v)
    (Nat.zero_le (gsNumSteps n nv no)) v (by simp [projections]) (by
      intro i _ hi u hu
      refine ⟨_, ?_, rfl⟩
      rw [gsIndex_window hl (by omega), load_ok (hV _ (window_lt hl)), Except.ok_bind', hu]
      have hdot : X ((last + nv - i) % nv) ⬝ᵥ (v - projections X nv last i v) =
          X ((last + nv - i) % nv) ⬝ᵥ v := by
        rw [dotProduct_sub, dot_projections_zero, sub_zero]
        intro s hs
        exact ho i hi s (by omega) (by omega)
      rw [gsStep_eq eps (h1 i hi) (by rw [hdot]; exact h2 i hi), hdot]
      congr 1
      unfold projections
      rw [Finset.sum_range_succ, sub_add_eq_sub_sub])
  rw [e1, e2]

/-- With initialised rows the process never faults. -/
theorem gramSchmidt_ok (sqrt : ℝ → ℝ) (eps : ℝ) (V : Rows ℝ n) (nv last : Nat) (no : Int)
    (v : Fin n → ℝ) (hl : last < nv) (hV : ∀ i < nv, ∃ x, V[i]? = some (some x)) :
    ∃ v', gramSchmidt sqrt eps V nv last no v = .ok v' := by
  unfold gramSchmidt
  obtain ⟨s', e1, _⟩ := forRange_inv (body := fun step v => do
    let Vi ← load V (gsIndex nv last step)
    .ok (gsStep sqrt eps Vi v)) (fun _ _ => True)
    (Nat.zero_le (gsNumSteps n nv no)) v trivial (by
      intro i _ hi u _
      have hN := gsNumSteps_le n nv no
      rw [gsIndex_window hl (by omega)]
      obtain ⟨x, hx⟩ := hV _ (window_lt (s := i) hl)
      rw [load_ok hx]
      exact ⟨_, rfl, trivial⟩)
  exact ⟨s', e1⟩

/-- In-buffer version: only the row `slot` may change. -/
theorem gramSchmidtIn_frame (sqrt : ℝ → ℝ) (eps : ℝ) (V V' : Rows ℝ n) (nv last : Nat) (no : Int)
    (slot : Nat) (h : gramSchmidtIn sqrt eps V nv last no slot = .ok V') :
    V'.size = V.size ∧ ∀ i, i ≠ slot → V'[i]? = V[i]? := by
  unfold gramSchmidtIn forRange at h
  generalize gsNumSteps n nv no - 0 = N at h
  generalize 0 = k at h
  induction N generalizing k V with
  | zero =>
    simp only [loopN] at h
    cases h
    exact ⟨rfl, fun _ _ => rfl⟩
  | succ N ih =>
    simp only [loopN] at h
    cases h1 : load V (gsIndex nv last k) with
    | error e => rw [h1] at h; simp [Except.error_bind'] at h
    | ok Vi =>
      cases h2 : load V slot with
      | error e => rw [h1, h2] at h; simp [Except.ok_bind', Except.error_bind'] at h
      | ok v =>
        rw [h1, h2] at h
        simp only [Except.ok_bind'] at h
        unfold Lanczos.store wr at h
        by_cases hs : slot < V.size
        · rw [dif_pos hs, Except.ok_bind'] at h
          obtain ⟨i1, i2⟩ := ih _ _ h
          refine ⟨by rw [i1]; simp, ?_⟩
          intro i hi
          rw [i2 i hi, Array.getElem?_set, if_neg (fun h => hi h.symm)]
        · rw [dif_neg hs] at h
          simp [Except.error_bind'] at h

end Imate.Lanczos
