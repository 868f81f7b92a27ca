import Verif.Lemmas.Hutchinson
import Verif.Lemmas.Convergence
import Mathlib.Tactic.FieldSimp

/-! Lemmas about the sampling loop of the Hutchinson method. -/

namespace Imate.Hutchinson

open Matrix Imate.Spec Imate.Convergence

variable {n : ℕ}

theorem basis_trace {V : Fin n → Fin n → ℝ} (hV : Spec.Orthonormal V) (G : Matrix (Fin n) (Fin n) ℝ) :
    ∑ i, V i ⬝ᵥ (G *ᵥ V i) = G.trace := by
  have h1 : (Matrix.of V) * (Matrix.of V)ᵀ = 1 := by
    ext i j
    rw [mul_apply, one_apply, ← hV i j]
    rfl
  have h2 : (Matrix.of V)ᵀ * (Matrix.of V) = 1 := mul_eq_one_comm.1 h1
  calc ∑ i, V i ⬝ᵥ (G *ᵥ V i) = (Matrix.of V * (G * (Matrix.of V)ᵀ)).trace := by
        refine Finset.sum_congr rfl fun i _ => ?_
        rfl
    _ = G.trace := by rw [trace_mul_comm, Matrix.mul_assoc, h2, Matrix.mul_one]

theorem clampSamples_eq (A : Mat ℝ) (k : ℕ) : clampSamples A k = min k A.cols := by
  unfold clampSamples
  split <;> omega

theorem sampling_ok {sample : Vec ℝ → Except PyExc ℝ} {st : Settings ℝ} {Es : List (Vec ℝ)}
    {done samples : List (XR ℝ)} {conv : Bool}
    (h : sampling sample st Es done = .ok (samples, conv)) :
    samples.length ≤ done.length + Es.length ∧
    (conv = true → st.minNumSamples ≤ samples.length) ∧
    (conv = false → samples.length = done.length + Es.length) ∧
    (∀ xs : List ℝ, Es.map sample = xs.map Except.ok →
      samples = done ++ (xs.take (samples.length - done.length)).map XR.fin) ∧
    done.length ≤ samples.length := by
  induction Es generalizing done with
  | nil =>
    simp only [sampling, Except.ok.injEq, Prod.mk.injEq] at h
    obtain ⟨rfl, rfl⟩ := h
    refine ⟨by simp, by simp, by simp, ?_, le_rfl⟩
    intro xs _
    simp
  | cons E Es ih =>
    unfold sampling at h
    cases hx : sample E with
    | error e => rw [hx] at h; cases h
    | ok x =>
      rw [hx, Except.ok_bind'] at h
      simp only at h
      by_cases hc : (pyCheckConvergence st.minNumSamples st.errorZ st.atol st.rtol
          (done ++ [XR.fin x])).1 = true
      · rw [if_pos hc] at h
        simp only [Except.ok.injEq, Prod.mk.injEq] at h
        obtain ⟨rfl, rfl⟩ := h
        refine ⟨by simp, ?_, by simp, ?_, by simp⟩
        · intro _
          unfold pyCheckConvergence at hc
          split at hc
          · cases hc
          · omega
        · intro xs hxs
          cases xs with
          | nil => simp at hxs
          | cons y ys =>
            simp only [List.map_cons, List.cons.injEq, hx, Except.ok.injEq] at hxs
            simp [hxs.1]
      · rw [if_neg hc] at h
        obtain ⟨k1, k2, k3, k4, k5⟩ := ih h
        simp only [List.length_append, List.length_cons, List.length_nil] at k1 k3 k5 ⊢
        refine ⟨by omega, k2, fun hf => by rw [k3 hf]; omega, ?_, by omega⟩
        intro xs hxs
        cases xs with
        | nil => simp at hxs
        | cons y ys =>
          simp only [List.map_cons, List.cons.injEq, hx, Except.ok.injEq] at hxs
          have := k4 ys hxs.2
          have e : samples.length - done.length = samples.length - (done ++ [XR.fin x]).length + 1 := by
            simp; omega
          rw [e, List.take_succ_cons, List.map_cons, ← hxs.1]
          conv_lhs => rw [this]
          simp

theorem averaged_outliers {errorZ outlierZ : XR ℝ} {xs : List (XR ℝ)} {q : Averaged (XR ℝ)}
    (h : pyAverageEstimate errorZ outlierZ xs = some q) : q.numOutliers < xs.length := by
  unfold pyAverageEstimate at h
  simp only at h
  split at h
  · cases h
  · simp only [Option.some.injEq] at h
    subst h
    simp only
    omega

theorem averaged_trace {errorZ outlierZ : XR ℝ} {xs : List ℝ} {q : Averaged (XR ℝ)}
    (h0 : xs ≠ [])
    (h : pyAverageEstimate errorZ outlierZ (xs.map XR.fin) = some q) (hq : q.numOutliers = 0) :
    q.trace = XR.fin (mean xs) := by
  unfold pyAverageEstimate at h
  simp only at h
  split at h
  · cases h
  · simp only [Option.some.injEq] at h
    subst h
    simp only at hq ⊢
    rw [hq, Nat.sub_zero, List.filter_eq_self.2, ← meanOf_fin h0]
    · rfl
    · intro x hx
      have := List.countP_eq_zero.1 hq x hx
      simpa using this

end Imate.Hutchinson
