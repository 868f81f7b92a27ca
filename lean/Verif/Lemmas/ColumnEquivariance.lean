import Verif.Lemmas.ColumnVectors
import Mathlib.LinearAlgebra.Matrix.ToLin

/-! The generation of orthonormal vectors commutes with every isometry. -/

namespace Imate.Columns

open Imate.Lanczos Matrix

variable {n : ℕ}

/-- `generate_random_column_vectors` after the first draw, random_vectors.pyx:66-82; `regen k` is what the `k`-th regeneration writes. -/
noncomputable def columnsFrom (eps : ℝ) (regen : ℕ → Fin n → ℝ) (V : Array (Fin n → ℝ)) (num : ℕ) (orthogonalize : Bool) :
    Except Fault (Array (Fin n → ℝ)) := do
  let V ← if orthogonalize then orthogonalizeVectors Real.sqrt eps regen V num else .ok V
  forRange 0 num (fun j V => normalizeRow Real.sqrt j V) V

theorem generate_columnsFrom (eps : ℝ) (clock : ℕ → ℕ → BitVec 64) (seed : BitVec 64) (num : ℕ) (orthogonalize : Bool) :
    generateColumnVectors Real.sqrt eps clock seed n num orthogonalize = (do
      let flat ← pyGenerateRandomArray (clock 0) seed (Array.replicate (n * num) (0 : ℝ)) (n * num)
      columnsFrom eps (fun k => regenerated (clock (k + 1)) seed n) (Array.ofFn fun j : Fin num => rowOf n flat j) num orthogonalize) := rfl

theorem loopN_map {σ τ : Type*} (f : σ → τ) {body : ℕ → σ → Except Fault σ} {body' : ℕ → τ → Except Fault τ}
    (h : ∀ i s, body' i (f s) = (body i s).map f) (count i : ℕ) (s : σ) :
    loopN 1 body' count i (f s) = (loopN 1 body count i s).map f := by
  induction count generalizing i s with
  | zero => rfl
  | succ k ih =>
    simp only [loopN]
    rw [h]
    cases body i s with
    | error e => rfl
    | ok t => exact ih (i + 1) t

theorem forRange_map {σ τ : Type*} (f : σ → τ) {body : ℕ → σ → Except Fault σ} {body' : ℕ → τ → Except Fault τ}
    (h : ∀ i s, body' i (f s) = (body i s).map f) (lo hi : ℕ) (s : σ) :
    forRange lo hi body' (f s) = (forRange lo hi body s).map f := loopN_map f h _ _ _

/-- A linear map that keeps inner products. -/
structure Isometry (T : (Fin n → ℝ) →ₗ[ℝ] (Fin n → ℝ)) : Prop where
  dot : ∀ u v, T u ⬝ᵥ T v = u ⬝ᵥ v

variable {T : (Fin n → ℝ) →ₗ[ℝ] (Fin n → ℝ)}

theorem Isometry.norm (hT : Isometry T) (v : Fin n → ℝ) : Lanczos.norm Real.sqrt (T v) = Lanczos.norm Real.sqrt v := by
  unfold Lanczos.norm
  rw [hT.dot]

theorem rd_map (V : Array (Fin n → ℝ)) (j : ℕ) : rd (V.map T) j = (rd V j).map T := by
  unfold rd
  rw [Array.getElem?_map]
  cases V[j]? <;> rfl

theorem wr_map (V : Array (Fin n → ℝ)) (j : ℕ) (v : Fin n → ℝ) : wr (V.map T) j (T v) = (wr V j v).map (Array.map T) := by
  unfold wr
  by_cases h : j < V.size
  · rw [dif_pos h, dif_pos (by simpa using h)]
    show Except.ok _ = Except.ok _
    rw [Array.map_set]
  · rw [dif_neg h, dif_neg (by simpa using h)]
    rfl

/-- The state with all vectors mapped. -/
def mapState (T : (Fin n → ℝ) →ₗ[ℝ] (Fin n → ℝ)) (s : OrthoState ℝ n) : OrthoState ℝ n := ⟨s.V.map T, s.calls, s.success⟩

theorem map_ok {α β : Type} (f : α → β) (x : α) : Except.map f (Except.ok x : Except Fault α) = .ok (f x) := rfl

theorem map_error {α β : Type} (f : α → β) (e : Fault) : Except.map f (Except.error e : Except Fault α) = .error e := rfl

theorem error_bind {α β : Type} (e : Fault) (f : α → Except Fault β) : (do let x ← (Except.error e : Except Fault α); f x) = .error e := rfl

theorem orthoStep_map (hT : Isometry T) (eps : ℝ) (regen : ℕ → Fin n → ℝ) (i j : ℕ) (s : OrthoState ℝ n) :
    orthoStep Real.sqrt eps (fun k => T (regen k)) i j (mapState T s) = (orthoStep Real.sqrt eps regen i j s).map (mapState T) := by
  unfold orthoStep
  by_cases hs : s.success = true
  · rw [if_neg (by simp [mapState, hs]), if_neg (by simp [hs])]
    rw [show (mapState T s).V = s.V.map T from rfl, rd_map]
    cases rd s.V j with
    | error e => rw [map_error, error_bind, error_bind, map_error]
    | ok vj =>
      rw [map_ok, Except.ok_bind', Except.ok_bind', hT.norm]
      by_cases h1 : Lanczos.norm Real.sqrt vj < eps * Real.sqrt n
      · rw [if_pos h1, if_pos h1, map_ok]
      · rw [if_neg h1, if_neg h1, rd_map]
        cases rd s.V i with
        | error e => rw [map_error, error_bind, error_bind, map_error]
        | ok vi =>
          have hsub : T vi - ((T vi ⬝ᵥ T vj) / Lanczos.norm Real.sqrt vj ^ 2) • T vj =
              T (vi - ((vi ⬝ᵥ vj) / Lanczos.norm Real.sqrt vj ^ 2) • vj) := by
            rw [hT.dot, map_sub, map_smul]
          rw [map_ok, Except.ok_bind', Except.ok_bind']
          dsimp only
          rw [hsub, hT.norm]
          generalize vi - ((vi ⬝ᵥ vj) / Lanczos.norm Real.sqrt vj ^ 2) • vj = u
          by_cases h2 : Lanczos.norm Real.sqrt u < eps * Real.sqrt n
          · rw [if_pos h2, if_pos h2, show (mapState T s).calls = s.calls from rfl, wr_map]
            cases wr s.V i (regen s.calls) with
            | error e => rfl
            | ok W => rw [map_ok, Except.ok_bind', Except.ok_bind', map_ok]; rfl
          · rw [if_neg h2, if_neg h2, show (mapState T s).calls = s.calls from rfl, wr_map]
            cases wr s.V i u with
            | error e => rfl
            | ok W => rw [map_ok, Except.ok_bind', Except.ok_bind', map_ok]; rfl
  · rw [if_pos (by simp [mapState, hs]), if_pos (by simp [hs]), map_ok]

theorem orthoPass_map (hT : Isometry T) (eps : ℝ) (regen : ℕ → Fin n → ℝ) (i : ℕ) (s : OrthoState ℝ n) :
    orthoPass Real.sqrt eps (fun k => T (regen k)) i (mapState T s) = (orthoPass Real.sqrt eps regen i s).map (mapState T) :=
  forRange_map (mapState T) (fun j s => orthoStep_map hT eps regen i j s) _ _ { s with success := true }

theorem orthoVector_map (hT : Isometry T) (eps : ℝ) (regen : ℕ → Fin n → ℝ) (i left : ℕ) (s : OrthoState ℝ n) :
    orthoVector Real.sqrt eps (fun k => T (regen k)) i left (mapState T s) =
      (orthoVector Real.sqrt eps regen i left s).map (mapState T) := by
  induction left generalizing s with
  | zero => rfl
  | succ k ih =>
    simp only [orthoVector]
    rw [orthoPass_map hT]
    cases orthoPass Real.sqrt eps regen i s with
    | error e => rfl
    | ok t =>
      show (if (mapState T t).success then _ else _) = Except.map _ (if t.success then _ else _)
      rw [show (mapState T t).success = t.success from rfl]
      by_cases h : t.success = true
      · rw [if_pos h, if_pos h]
        rfl
      · rw [if_neg h, if_neg h]
        exact ih t

theorem orthogonalizeVectors_map (hT : Isometry T) (eps : ℝ) (regen : ℕ → Fin n → ℝ) (V : Array (Fin n → ℝ)) (num : ℕ) :
    orthogonalizeVectors Real.sqrt eps (fun k => T (regen k)) (V.map T) num =
      (orthogonalizeVectors Real.sqrt eps regen V num).map (Array.map T) := by
  unfold orthogonalizeVectors
  by_cases h : num < 2
  · rw [if_pos h, if_pos h]
    rfl
  · rw [if_neg h, if_neg h]
    have := forRange_map (mapState T) (fun i s => orthoVector_map hT eps regen i 20 s) 0 num ⟨V, 0, true⟩
    rw [show mapState T ⟨V, 0, true⟩ = ⟨V.map T, 0, true⟩ from rfl] at this
    rw [this]
    cases forRange 0 num (fun i s => orthoVector Real.sqrt eps regen i 20 s) ⟨V, 0, true⟩ <;> rfl

theorem normalizeRow_map (hT : Isometry T) (j : ℕ) (V : Array (Fin n → ℝ)) :
    normalizeRow Real.sqrt j (V.map T) = (normalizeRow Real.sqrt j V).map (Array.map T) := by
  unfold normalizeRow
  rw [rd_map]
  cases rd V j with
  | error e => rfl
  | ok v =>
    rw [map_ok, Except.ok_bind', Except.ok_bind']
    rw [hT.norm]
    unfold divide
    by_cases h : Lanczos.norm Real.sqrt v = 0
    · rw [if_pos h, if_pos h]
      rfl
    · rw [if_neg h, if_neg h]
      have e : (fun i => T v i / Lanczos.norm Real.sqrt v) = T (fun i => v i / Lanczos.norm Real.sqrt v) := by
        have h1 : (fun i => v i / Lanczos.norm Real.sqrt v) = (Lanczos.norm Real.sqrt v)⁻¹ • v := by
          funext i
          simp [div_eq_inv_mul]
        rw [h1, map_smul]
        funext i
        simp [div_eq_inv_mul]
      show wr (V.map T) j (fun i => T v i / Lanczos.norm Real.sqrt v) = Except.map _ (wr V j fun i => v i / Lanczos.norm Real.sqrt v)
      rw [e, wr_map]

theorem columnsFrom_map (hT : Isometry T) (eps : ℝ) (regen : ℕ → Fin n → ℝ) (V : Array (Fin n → ℝ)) (num : ℕ) (orthogonalize : Bool) :
    columnsFrom eps (fun k => T (regen k)) (V.map T) num orthogonalize =
      (columnsFrom eps regen V num orthogonalize).map (Array.map T) := by
  unfold columnsFrom
  cases orthogonalize with
  | false => exact forRange_map (Array.map T) (fun j V => normalizeRow_map hT j V) 0 num V
  | true =>
    rw [if_pos rfl, if_pos rfl, orthogonalizeVectors_map hT]
    cases orthogonalizeVectors Real.sqrt eps regen V num with
    | error e => rfl
    | ok W => exact forRange_map (Array.map T) (fun j V => normalizeRow_map hT j V) 0 num W

/-! ## The number of vectors that are drawn again -/

theorem loopN_congr {σ : Type*} {body body' : ℕ → σ → Except Fault σ} (P : ℕ → σ → Prop)
    (h1 : ∀ i s, P i s → body i s = body' i s) (h2 : ∀ i s t, P i s → body i s = .ok t → P (i + 1) t) (count i : ℕ) (s : σ) (hs : P i s) :
    loopN 1 body count i s = loopN 1 body' count i s ∧ ∀ t, loopN 1 body count i s = .ok t → P (i + count) t := by
  induction count generalizing i s with
  | zero => exact ⟨rfl, fun t ht => by cases ht; exact hs⟩
  | succ k ih =>
    simp only [loopN]
    rw [← h1 i s hs]
    cases hb : body i s with
    | error e => exact ⟨rfl, fun t ht => by cases ht⟩
    | ok t =>
      have := ih (i + 1) t (h2 i s t hs hb)
      rw [show i + 1 + k = i + (k + 1) by omega] at this
      exact this

theorem orthoStep_supply (eps : ℝ) {regen regen' : ℕ → Fin n → ℝ} {c : ℕ} (hc : regen c = regen' c) (i j : ℕ) (s : OrthoState ℝ n)
    (hs : (s.success = true ∧ s.calls = c) ∨ (s.success = false ∧ s.calls = c + 1)) :
    orthoStep Real.sqrt eps regen i j s = orthoStep Real.sqrt eps regen' i j s ∧
      ∀ t, orthoStep Real.sqrt eps regen i j s = .ok t → (t.success = true ∧ t.calls = c) ∨ (t.success = false ∧ t.calls = c + 1) := by
  unfold orthoStep
  rcases hs with ⟨h, h'⟩ | ⟨h, h'⟩
  · rw [if_neg (by simp [h]), if_neg (by simp [h]), h', hc]
    refine ⟨rfl, fun t ht => ?_⟩
    cases h1 : rd s.V j with
    | error e => rw [h1] at ht; cases ht
    | ok vj =>
      rw [h1, Except.ok_bind'] at ht
      dsimp only at ht
      split_ifs at ht with h2
      · cases ht
        exact .inl ⟨h, h'⟩
      · cases h3 : rd s.V i with
        | error e => rw [h3] at ht; cases ht
        | ok vi =>
          rw [h3, Except.ok_bind'] at ht
          split_ifs at ht with h4
          · cases h5 : wr s.V i (regen' c) with
            | error e => rw [h5] at ht; cases ht
            | ok V => rw [h5] at ht; cases ht; exact .inr ⟨rfl, rfl⟩
          · cases h5 : wr s.V i (vi - ((vi ⬝ᵥ vj) / Lanczos.norm Real.sqrt vj ^ 2) • vj) with
            | error e => rw [h5] at ht; cases ht
            | ok V => rw [h5] at ht; cases ht; exact .inl ⟨rfl, rfl⟩
  · rw [if_pos (by simp [h]), if_pos (by simp [h])]
    refine ⟨rfl, fun t ht => ?_⟩
    cases ht
    exact .inr ⟨h, h'⟩

theorem orthoPass_supply (eps : ℝ) {regen regen' : ℕ → Fin n → ℝ} (i : ℕ) (s : OrthoState ℝ n) (hc : regen s.calls = regen' s.calls) :
    orthoPass Real.sqrt eps regen i s = orthoPass Real.sqrt eps regen' i s ∧
      ∀ t, orthoPass Real.sqrt eps regen i s = .ok t → t.calls ≤ s.calls + 1 := by
  have h := loopN_congr (body := orthoStep Real.sqrt eps regen i) (body' := orthoStep Real.sqrt eps regen' i)
    (fun _ t => (t.success = true ∧ t.calls = s.calls) ∨ (t.success = false ∧ t.calls = s.calls + 1))
    (fun j t ht => (orthoStep_supply eps hc i j t ht).1) (fun j t u ht hu => (orthoStep_supply eps hc i j t ht).2 u hu)
    (i - startJ n i) (startJ n i) { s with success := true } (.inl ⟨rfl, rfl⟩)
  refine ⟨h.1, fun t ht => ?_⟩
  rcases h.2 t ht with ⟨-, h3⟩ | ⟨-, h3⟩ <;> omega

theorem orthoVector_supply (eps : ℝ) {regen regen' : ℕ → Fin n → ℝ} (i left : ℕ) (s : OrthoState ℝ n)
    (hc : ∀ k < s.calls + left, regen k = regen' k) :
    orthoVector Real.sqrt eps regen i left s = orthoVector Real.sqrt eps regen' i left s ∧
      ∀ t, orthoVector Real.sqrt eps regen i left s = .ok t → t.calls ≤ s.calls + left := by
  induction left generalizing s with
  | zero => exact ⟨rfl, fun t ht => by cases ht⟩
  | succ k ih =>
    obtain ⟨h1, h2⟩ := orthoPass_supply eps i s (hc _ (by omega))
    simp only [orthoVector]
    rw [← h1]
    cases hp : orthoPass Real.sqrt eps regen i s with
    | error e => exact ⟨rfl, fun t ht => by cases ht⟩
    | ok t =>
      have h3 := h2 t hp
      rw [Except.ok_bind', Except.ok_bind']
      by_cases h : t.success = true
      · rw [if_pos h, if_pos h]
        exact ⟨rfl, fun u hu => by cases hu; omega⟩
      · rw [if_neg h, if_neg h]
        obtain ⟨h4, h5⟩ := ih t (fun k hk => hc k (by omega))
        exact ⟨h4, fun u hu => by have := h5 u hu; omega⟩

theorem outer_supply (eps : ℝ) {regen regen' : ℕ → Fin n → ℝ} (left : ℕ) {num : ℕ} (hc : ∀ k < left * num, regen k = regen' k) :
    ∀ count i (s : OrthoState ℝ n), i + count ≤ num → s.calls ≤ left * i →
      loopN 1 (fun i s => orthoVector Real.sqrt eps regen i left s) count i s =
        loopN 1 (fun i s => orthoVector Real.sqrt eps regen' i left s) count i s := by
  intro count
  induction count with
  | zero => exact fun _ _ _ _ => rfl
  | succ k ih =>
    intro i s hi hs
    simp only [loopN]
    have h1 : left * (i + 1) ≤ left * num := Nat.mul_le_mul_left _ (by omega)
    have h2 : left * (i + 1) = left * i + left := by ring
    obtain ⟨h3, h4⟩ := orthoVector_supply eps i left s (fun k hk => hc k (by omega))
    rw [← h3]
    cases hb : orthoVector Real.sqrt eps regen i left s with
    | error e => rfl
    | ok t =>
      have := h4 t hb
      exact ih (i + 1) t (by omega) (by omega)

/-- At most 20 vectors are drawn again for each vector. -/
theorem orthogonalizeVectors_supply (eps : ℝ) {regen regen' : ℕ → Fin n → ℝ} {num : ℕ} (hc : ∀ k < 20 * num, regen k = regen' k)
    (V : Array (Fin n → ℝ)) : orthogonalizeVectors Real.sqrt eps regen V num = orthogonalizeVectors Real.sqrt eps regen' V num := by
  unfold orthogonalizeVectors forRange
  rw [outer_supply eps 20 hc (num - 0) 0 ⟨V, 0, true⟩ (by omega) (Nat.zero_le _)]

theorem columnsFrom_supply (eps : ℝ) {regen regen' : ℕ → Fin n → ℝ} {num : ℕ} (hc : ∀ k < 20 * num, regen k = regen' k)
    (V : Array (Fin n → ℝ)) (b : Bool) : columnsFrom eps regen V num b = columnsFrom eps regen' V num b := by
  unfold columnsFrom
  rw [orthogonalizeVectors_supply eps hc V]

end Imate.Columns
