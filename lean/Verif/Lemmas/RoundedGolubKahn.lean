import Verif.Lemmas.RoundedLanczos
import Verif.Model.RoundedGolubKahn
import Verif.Spec.RoundedGolubKahn

/-!
# Rounding errors of the Golub-Kahn iteration
-/

namespace Imate

/-- Invariant rule for loops that may fail, for a reason `E`. -/
theorem loopN_inv_or {σ : Type*} {step : Nat} {body : Nat → σ → Except Fault σ} {e : Fault} {E : Prop}
    (Inv : Nat → σ → Prop) :
    ∀ (n i : Nat) (s : σ), Inv 0 s →
      (∀ k < n, ∀ s, Inv k s →
        (body (i + k * step) s = .error e ∧ E) ∨ ∃ s', body (i + k * step) s = .ok s' ∧ Inv (k + 1) s') →
      (loopN step body n i s = .error e ∧ E) ∨ ∃ s', loopN step body n i s = .ok s' ∧ Inv n s' := by
  intro n
  induction n generalizing Inv with
  | zero => intro i s h _; exact .inr ⟨s, rfl, h⟩
  | succ n ih =>
    intro i s h hb
    rcases hb 0 (by omega) s h with ⟨h1, hE⟩ | ⟨s1, h1, hi1⟩
    · left
      simp only [Nat.zero_mul, Nat.add_zero] at h1
      refine ⟨?_, hE⟩
      simp only [loopN, h1, Except.error_bind']
    · simp only [Nat.zero_mul, Nat.add_zero] at h1
      simp only [loopN, h1, Except.ok_bind']
      refine ih (fun k s => Inv (k + 1) s) (i + step) s1 hi1 ?_
      intro k hk s hs
      have e1 : i + step + k * step = i + (k + 1) * step := by ring
      rw [e1]
      exact hb (k + 1) (by omega) s hs

theorem forRange_inv_or {σ : Type*} {body : Nat → σ → Except Fault σ} {e : Fault} {E : Prop} (Inv : Nat → σ → Prop)
    {hi : Nat} (s : σ) (h0 : Inv 0 s)
    (hb : ∀ i < hi, ∀ s, Inv i s → (body i s = .error e ∧ E) ∨ ∃ s', body i s = .ok s' ∧ Inv (i + 1) s') :
    (forRange 0 hi body s = .error e ∧ E) ∨ ∃ s', forRange 0 hi body s = .ok s' ∧ Inv hi s' := by
  unfold forRange
  rw [Nat.sub_zero]
  refine loopN_inv_or Inv hi 0 s h0 fun k hk s hs => ?_
  rw [zero_add, mul_one]
  exact hb k hk s hs

end Imate

namespace Imate.Rounded

open Finset Spec Matrix

variable {n : ℕ}

theorem leftRest_congr {M : Matrix (Fin n) (Fin n) ℝ} {b b' : ℕ → ℝ} {u u' v v' : ℕ → Fin n → ℝ} {k : ℕ}
    (hb : ∀ i < k, b i = b' i) (hu : ∀ i < k, u i = u' i) (hv : v k = v' k) :
    leftRest M b u v k = leftRest M b' u' v' k := by
  funext i
  unfold leftRest
  rw [hv]
  by_cases h0 : k = 0
  · simp [h0]
  · rw [hb (k - 1) (by omega), hu (k - 1) (by omega)]

theorem leftAbs_congr {P : Matrix (Fin n) (Fin n) ℝ} {b b' : ℕ → ℝ} {u u' v v' : ℕ → Fin n → ℝ} {k : ℕ}
    (hb : ∀ i < k, b i = b' i) (hu : ∀ i < k, u i = u' i) (hv : v k = v' k) :
    leftAbs P b u v k = leftAbs P b' u' v' k := by
  funext i
  unfold leftAbs
  rw [hv]
  by_cases h0 : k = 0
  · simp [h0]
  · rw [hb (k - 1) (by omega), hu (k - 1) (by omega)]

theorem rightRest_congr {M : Matrix (Fin n) (Fin n) ℝ} {a a' : ℕ → ℝ} {u u' v v' : ℕ → Fin n → ℝ} {k : ℕ}
    (ha : a k = a' k) (hu : u k = u' k) (hv : v k = v' k) : rightRest M a u v k = rightRest M a' u' v' k := by
  funext i
  unfold rightRest
  rw [ha, hu, hv]

theorem rightAbs_congr {Q : Matrix (Fin n) (Fin n) ℝ} {a a' : ℕ → ℝ} {u u' v v' : ℕ → Fin n → ℝ} {k : ℕ}
    (ha : a k = a' k) (hu : u k = u' k) (hv : v k = v' k) : rightAbs Q a u v k = rightAbs Q a' u' v' k := by
  funext i
  unfold rightAbs
  rw [ha, hu, hv]

theorem normalizeInPlace_ofFn {flD flL : ℝ → ℝ} (x : Fin n → ℝ) {b : ℝ}
    (hb : euclideanNorm flD flL (Array.ofFn x) n = .ok b) :
    normalizeInPlace flD flL (Array.ofFn x) n = .ok ((Array.ofFn fun i => flD (x i / b), decide (b ≠ 0)), b) := by
  unfold normalizeInPlace
  rw [hb]
  simp only [Except.ok_bind']
  have h := forRange_write_ofFn (body := fun i v => do wr v i (flD ((← rd v i) / b))) (Array.ofFn x)
    (fun i => flD (x i / b)) (by simp) fun i c' _ hc => by
      have hc' : rd c' i.1 = .ok (x i) := rd_ok (by rw [hc]; simp)
      rw [hc']
      rfl
  rw [h]
  rfl

theorem load_ok {rows : Array Row} {i : ℕ} {x : Array ℝ} (h : rows[i]? = some (x, true)) : load rows i = .ok x := by
  unfold load
  rw [rd_ok h]
  rfl

theorem load_error {rows : Array Row} {i : ℕ} {x : Array ℝ} (h : rows[i]? = some (x, false)) :
    load rows i = .error .invalid := by
  unfold load
  rw [rd_ok h]
  rfl

/-- What holds before iteration `j`. -/
structure GKInv (M P Q : Matrix (Fin n) (Fin n) ℝ) (z : Fin n → ℝ) (m : ℕ) (G eUnit gL gR H thr : ℝ) (j : ℕ)
    (s : GolubKahnState) (u v : ℕ → Fin n → ℝ) (a b : ℕ → ℝ) : Prop where
  rowsU : s.U.size = 2 ∧ ∀ k < 2, ∃ row : Row, s.U[k]? = some row ∧ row.1.size = n
  rowsV : s.V.size = 2 ∧ ∀ k < 2, ∃ row : Row, s.V[k]? = some row ∧ row.1.size = n
  prevU : 0 < j → s.U[(j - 1) % 2]? = some (Array.ofFn (u (j - 1)), true)
  cur : s.stop = false → s.V[j % 2]? = some (Array.ofFn (v j), true)
  ha : s.alpha.size = m ∧ ∀ k < j, s.alpha[k]? = some (a k)
  hb : s.beta.size = m ∧ ∀ k < j, s.beta[k]? = some (b k)
  hsize : s.size = j
  start : ∀ i, |v 0 i - z i / len z| ≤ eUnit * |z i / len z|
  unitU : ∀ k < j, |len (u k) - 1| ≤ eUnit
  unitV : ∀ k < j, |len (v k) - 1| ≤ eUnit
  unitCur : s.stop = false → |len (v j) - 1| ≤ eUnit
  pos : ∀ k < j, 0 < a k
  left : ∀ k < j, ∀ i, Approx (gL * H) (leftRest M b u v k i) (leftAbs P b u v k i) (a k * u k i)
  right : ∀ k, k + 1 < j → ∀ i, Approx (gR * H) (rightRest M a u v k i) (rightAbs Q a u v k i) (b k * v (k + 1) i)
  rightCur : s.stop = false → 0 < j → ∀ i,
    Approx (gR * H) (rightRest M a u v (j - 1) i) (rightAbs Q a u v (j - 1) i) (b (j - 1) * v j i)
  residual : 0 < j → ∃ r : Fin n → ℝ,
    (∀ i, Approx gR (rightRest M a u v (j - 1) i) (rightAbs Q a u v (j - 1) i) (r i)) ∧
    |b (j - 1) - len r| ≤ (G - 1) * len r
  go : s.stop = false → 0 < j → thr ≤ b (j - 1)
  stopped : s.stop = true → b (j - 1) < thr

/-- A row of a buffer is replaced. -/
theorem rows_set {rows : Array Row} (h : rows.size = 2 ∧ ∀ k < 2, ∃ row : Row, rows[k]? = some row ∧ row.1.size = n)
    {i : ℕ} (hi : i < 2) {new : Row} (hn : new.1.size = n) :
    ∃ rows', wr rows i new = .ok rows' ∧ rows'[i]? = some new ∧ (∀ k, k ≠ i → rows'[k]? = rows[k]?) ∧
      (rows'.size = 2 ∧ ∀ k < 2, ∃ row : Row, rows'[k]? = some row ∧ row.1.size = n) := by
  have hi' : i < rows.size := by rw [h.1]; exact hi
  have hother : ∀ k, k ≠ i → (rows.set i new hi')[k]? = rows[k]? := by
    intro k hk
    rw [Array.getElem?_set]
    simp [Ne.symm hk]
  have hself : (rows.set i new hi')[i]? = some new := by simp
  refine ⟨rows.set i new hi', wr_ok _ _, hself, hother, by simp [h.1], fun k hk => ?_⟩
  by_cases hk2 : k = i
  · exact ⟨_, by rw [hk2]; exact hself, hn⟩
  · obtain ⟨row, g1, g2⟩ := h.2 k hk
    exact ⟨row, by rw [hother k hk2]; exact g1, g2⟩

theorem dot_approx {dot : Array ℝ → Array ℝ → Except Fault (Array ℝ)} {M P : Matrix (Fin n) (Fin n) ℝ} {e : ℝ}
    (h : AccurateDot dot M P e) (x : Fin n → ℝ) {c : Array ℝ} (hc : c.size = n) :
    ∃ w : Fin n → ℝ, dot (Array.ofFn x) c = .ok (Array.ofFn w) ∧
      ∀ i, Approx (1 + e) ((M *ᵥ x) i) ((P *ᵥ fun l => |x l|) i) (w i) := by
  obtain ⟨w, h1, h2⟩ := h.2 x c hc
  refine ⟨w, h1, fun i => ⟨?_, by rw [add_sub_cancel_left]; exact h2 i⟩⟩
  refine (Finset.abs_sum_le_sum_abs (fun l => M i l * x l) Finset.univ).trans (Finset.sum_le_sum fun l _ => ?_)
  rw [abs_mul]
  exact mul_le_mul_of_nonneg_right (h.1 i l) (abs_nonneg _)

end Imate.Rounded
