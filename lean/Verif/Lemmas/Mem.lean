import Verif.Model.Mem
import Mathlib.Algebra.BigOperators.Group.Finset.Basic
import Mathlib.Algebra.BigOperators.Intervals
import Mathlib.Algebra.BigOperators.Fin
import Mathlib.Tactic.Ring

/-! Helper lemmas about checked memory and loops. -/

namespace Imate

open Finset

variable {σ α : Type _}

theorem Except.ok_bind' {ε α β : Type _} (a : α) (f : α → Except ε β) :
    (Except.ok a >>= f) = f a := rfl

theorem Except.error_bind' {ε α β : Type _} (e : ε) (f : α → Except ε β) :
    (Except.error e >>= f) = Except.error e := rfl

/-- Invariant rule for counted loops. -/
theorem loopN_inv {step : Nat} {body : Nat → σ → Except Fault σ} (Inv : Nat → σ → Prop) :
    ∀ (n i : Nat) (s : σ), Inv 0 s →
      (∀ k < n, ∀ s, Inv k s → ∃ s', body (i + k * step) s = .ok s' ∧ Inv (k + 1) s') →
      ∃ s', loopN step body n i s = .ok s' ∧ Inv n s' := by
  intro n
  induction n generalizing Inv with
  | zero => intro i s h _; exact ⟨s, rfl, h⟩
  | succ n ih =>
    intro i s h hb
    obtain ⟨s1, h1, hi1⟩ := hb 0 (by omega) s h
    obtain ⟨s2, h2, hi2⟩ := ih (fun k s => Inv (k + 1) s) (i + step) s1 hi1 (by
      intro k hk s hs
      obtain ⟨s', h', hi'⟩ := hb (k + 1) (by omega) s hs
      refine ⟨s', ?_, hi'⟩
      rw [← h']; congr 1; ring)
    refine ⟨s2, ?_, hi2⟩
    simp only [Nat.zero_mul, Nat.add_zero] at h1
    simp only [loopN, h1, Except.ok_bind', h2]

theorem forRange_inv {body : Nat → σ → Except Fault σ} (Inv : Nat → σ → Prop) {lo hi : Nat}
    (hle : lo ≤ hi) (s : σ) (h0 : Inv lo s)
    (hb : ∀ i, lo ≤ i → i < hi → ∀ s, Inv i s → ∃ s', body i s = .ok s' ∧ Inv (i + 1) s') :
    ∃ s', forRange lo hi body s = .ok s' ∧ Inv hi s' := by
  obtain ⟨s', h1, h2⟩ := loopN_inv (step := 1) (body := body) (fun k s => Inv (lo + k) s)
    (hi - lo) lo s (by simpa using h0) (by
      intro k hk s hs
      obtain ⟨s', h', hi'⟩ := hb (lo + k) (by omega) (by omega) s hs
      exact ⟨s', by simpa using h', by simpa [Nat.add_assoc] using hi'⟩)
  refine ⟨s', h1, ?_⟩
  have : lo + (hi - lo) = hi := by omega
  simpa [this] using h2

theorem rd_ok {a : Array α} {i : Nat} {x : α} (h : a[i]? = some x) : rd a i = .ok x := by
  simp [rd, h]

theorem wr_ok {a : Array α} {i : Nat} (h : i < a.size) (x : α) :
    wr a i x = .ok (a.set i x) := by
  simp [wr, h]

theorem rd_ofFn {n : Nat} (f : Fin n → α) (i : Fin n) : rd (Array.ofFn f) i.1 = .ok (f i) := by
  apply rd_ok; simp

/-- Two arrays of size `n` with the same entries. -/
theorem eq_ofFn {n : Nat} {a : Array α} {f : Fin n → α} (hs : a.size = n)
    (h : ∀ i : Fin n, a[i.1]? = some (f i)) : a = Array.ofFn f := by
  apply Array.ext
  · simp [hs]
  · intro i h1 h2
    have := h ⟨i, by omega⟩
    simp [Array.getElem?_eq_getElem h1] at this
    simp [this]

/-- A loop that writes one cell per iteration. -/
theorem forRange_write {body : Nat → Array α → Except Fault (Array α)} {n : Nat} (c : Array α)
    (f : Nat → α) (hn : n ≤ c.size)
    (hb : ∀ i < n, ∀ c' : Array α, c'.size = c.size → c'[i]? = c[i]? → body i c' = wr c' i (f i)) :
    ∃ c', forRange 0 n body c = .ok c' ∧ c'.size = c.size ∧
      ∀ i, c'[i]? = if i < n then some (f i) else c[i]? := by
  obtain ⟨c', h1, h2, h3⟩ := forRange_inv (body := body)
    (fun k c' => c'.size = c.size ∧ ∀ i, c'[i]? = if i < k then some (f i) else c[i]?)
    (Nat.zero_le n) c (by simp) (by
      intro i _ hi c' ⟨hs, hc⟩
      have hbi := hb i hi c' hs (by simp [hc])
      rw [wr_ok (by omega)] at hbi
      refine ⟨_, hbi, by simp [hs], ?_⟩
      intro k
      rw [Array.getElem?_set]
      by_cases hk : i = k
      · subst hk
        simp
      · simp only [hk, if_false, hc]
        by_cases hk2 : k < i
        · simp [hk2, show k < i + 1 by omega]
        · simp [hk2, show ¬ k < i + 1 by omega])
  exact ⟨c', h1, h2, h3⟩

/-- Version with the final array written as `Array.ofFn`. -/
theorem forRange_write_ofFn {body : Nat → Array α → Except Fault (Array α)} {n : Nat} (c : Array α)
    (f : Fin n → α) (hn : c.size = n)
    (hb : ∀ i : Fin n, ∀ c' : Array α, c'.size = n → c'[i.1]? = c[i.1]? →
      body i.1 c' = wr c' i.1 (f i)) :
    forRange 0 n body c = .ok (Array.ofFn f) := by
  rcases Nat.eq_zero_or_pos n with h0 | hpos
  · subst h0
    show Except.ok c = _
    congr 1
    exact eq_ofFn hn (fun i => i.elim0)
  · obtain ⟨c', h1, h2, h3⟩ := forRange_write (body := body) (n := n) c
      (fun i => if h : i < n then f ⟨i, h⟩ else f ⟨0, hpos⟩) (by omega) (by
        intro i hi c' hs hc
        have := hb ⟨i, hi⟩ c' (by omega) hc
        simpa [hi] using this)
    rw [h1]
    congr 1
    apply eq_ofFn (by omega)
    intro i
    simp [h3]

/-- Accumulation loop. -/
theorem forRange_sum [AddCommMonoid α] {body : Nat → α → Except Fault α} {lo hi : Nat}
    (hle : lo ≤ hi) (f : Nat → α) (s : α)
    (hb : ∀ i, lo ≤ i → i < hi → ∀ s, body i s = .ok (s + f i)) :
    forRange lo hi body s = .ok (s + ∑ i ∈ Ico lo hi, f i) := by
  obtain ⟨s', h1, h2⟩ := forRange_inv (body := body)
    (fun k s' => s' = s + ∑ i ∈ Ico lo k, f i) hle s (by simp) (by
      intro i hlo hi s' hs'
      refine ⟨_, hb i hlo hi s', ?_⟩
      rw [hs', Finset.sum_Ico_succ_top hlo, add_assoc])
  rw [h1, h2]

/-- The unrolled loop over the chunked prefix. -/
theorem forStep5_sum [AddCommMonoid α] {body : Nat → α → Except Fault α} {q : Nat}
    (f : Nat → α) (s : α)
    (hb : ∀ i, i + 4 < 5 * q → ∀ s,
      body i s = .ok (s + (f i + f (i+1) + f (i+2) + f (i+3) + f (i+4)))) :
    forStep 5 (5 * q) body s = .ok (s + ∑ i ∈ range (5 * q), f i) := by
  have hq : (5 * q + 5 - 1) / 5 = q := by omega
  obtain ⟨s', h1, h2⟩ := loopN_inv (step := 5) (body := body)
    (fun k s' => s' = s + ∑ i ∈ range (5 * k), f i) q 0 s (by simp) (by
      intro k hk s' hs'
      refine ⟨_, hb (0 + k * 5) (by omega) s', ?_⟩
      rw [hs', show 5 * (k + 1) = 5 * k + 1 + 1 + 1 + 1 + 1 by ring]
      simp only [Finset.sum_range_succ, Nat.zero_add, Nat.mul_comm k 5]
      ac_rfl)
  unfold forStep
  rw [hq, h1, h2]

end Imate
