import Verif.Lemmas.RoundedPlus
import Verif.Model.RoundedLanczos
import Verif.Spec.RoundedLanczos

/-!
# Rounding errors of the Lanczos iteration
-/

namespace Imate.Rounded

open Finset Spec Matrix

theorem Approx.trans {G g s T y s' T' : ℝ} (hg : 1 ≤ G) (h : Approx G s T y) (h' : Approx g s' T' s) (hT : T ≤ g * T') :
    Approx (G * g) s' T' y := by
  refine ⟨h'.1, ?_⟩
  have h1 : |y - s'| ≤ |y - s| + |s - s'| := by
    have : y - s' = (y - s) + (s - s') := by ring
    rw [this]
    exact abs_add_le _ _
  have h2 := h.2
  have h3 := h'.2
  have h4 : (G - 1) * T ≤ (G - 1) * (g * T') := mul_le_mul_of_nonneg_left hT (by linarith)
  nlinarith

theorem Approx.abs_le {G s T y : ℝ} (h : Approx G s T y) : |y| ≤ G * T := by
  have := abs_sub_abs_le_abs_sub y s
  have := h.1
  have := h.2
  nlinarith

theorem Approx.sum {ι : Type*} (t : Finset ι) {G : ℝ} {s T y : ι → ℝ} (h : ∀ i ∈ t, Approx G (s i) (T i) (y i)) :
    Approx G (∑ i ∈ t, s i) (∑ i ∈ t, T i) (∑ i ∈ t, y i) := by
  classical
  induction t using Finset.induction_on with
  | empty => simpa using approx_zero
  | insert a t ha ih =>
    rw [sum_insert ha, sum_insert ha, sum_insert ha]
    exact (h a (mem_insert_self a t)).add (ih fun i hi => h i (mem_insert_of_mem hi))

variable {n : ℕ}

/-! ### Lengths -/

theorem len_nonneg (x : Fin n → ℝ) : 0 ≤ len x := Real.sqrt_nonneg _

theorem len_sq (x : Fin n → ℝ) : len x * len x = x ⬝ᵥ x :=
  Real.mul_self_sqrt (Finset.sum_nonneg fun i _ => mul_self_nonneg (x i))

theorem len_pos {x : Fin n → ℝ} (hx : x ≠ 0) : 0 < len x := by
  unfold len
  rw [Real.sqrt_pos]
  refine lt_of_le_of_ne (Finset.sum_nonneg fun i _ => mul_self_nonneg (x i)) fun h => hx ?_
  funext i
  have h' := (Finset.sum_eq_zero_iff_of_nonneg fun i _ => mul_self_nonneg (x i)).1 h.symm i (Finset.mem_univ i)
  exact mul_self_eq_zero.1 h'

theorem len_le_of_abs_le {x y : Fin n → ℝ} {c : ℝ} (hc : 0 ≤ c) (h : ∀ i, |x i| ≤ c * |y i|) : len x ≤ c * len y := by
  apply Real.sqrt_le_iff.2
  refine ⟨mul_nonneg hc (len_nonneg y), ?_⟩
  have e : (c * len y) ^ 2 = ∑ i, (c * |y i|) * (c * |y i|) := by
    have : (c * len y) ^ 2 = c * c * (len y * len y) := by ring
    rw [this, len_sq, dotProduct, Finset.mul_sum]
    refine Finset.sum_congr rfl fun i _ => ?_
    have := abs_mul_abs_self (y i)
    nlinarith
  rw [e]
  refine Finset.sum_le_sum fun i _ => ?_
  rw [← abs_mul_abs_self (x i)]
  exact mul_self_le_mul_self (abs_nonneg _) (h i)

theorem len_near {x y : Fin n → ℝ} {d : ℝ} (hd : 0 ≤ d) (h : ∀ i, |x i - y i| ≤ d * |y i|) :
    |len x - len y| ≤ d * len y := by
  rw [abs_le]
  constructor
  · rcases le_or_gt 1 d with h1 | h1
    · have := len_nonneg x
      have := len_nonneg y
      nlinarith
    · have h2 : len y ≤ 1 / (1 - d) * len x := by
        refine len_le_of_abs_le (by apply div_nonneg <;> linarith) fun i => ?_
        have h3 : |y i| ≤ |x i| + |x i - y i| := by
          have := abs_sub_abs_le_abs_sub (y i) (x i)
          rw [abs_sub_comm] at this
          linarith
        have h4 := h i
        rw [div_mul_eq_mul_div, one_mul, le_div_iff₀ (by linarith)]
        linarith
      rw [div_mul_eq_mul_div, one_mul, le_div_iff₀ (by linarith)] at h2
      linarith
  · have h2 : len x ≤ (1 + d) * len y := by
      refine len_le_of_abs_le (by linarith) fun i => ?_
      have := abs_sub_abs_le_abs_sub (x i) (y i)
      have := h i
      linarith
    linarith

theorem len_smul (c : ℝ) (x : Fin n → ℝ) : len (fun i => c * x i) = |c| * len x := by
  apply le_antisymm
  · exact len_le_of_abs_le (abs_nonneg c) fun i => by rw [abs_mul]
  · by_cases hc : c = 0
    · subst hc
      rw [abs_zero, zero_mul]
      exact len_nonneg _
    · have h := len_le_of_abs_le (x := x) (y := fun i => c * x i) (c := 1 / |c|) (by positivity) fun i => by
        rw [abs_mul]
        have : |c| ≠ 0 := abs_ne_zero.2 hc
        field_simp
        exact le_rfl
      rw [div_mul_eq_mul_div, one_mul, le_div_iff₀ (abs_pos.2 hc)] at h
      linarith

section

variable {flD flE flL : ℝ → ℝ} {u ue U : ℝ}

/-- Multiplication with the rounded reciprocal. -/
theorem scaled_approx (hu : 0 ≤ u) (hue : 0 ≤ ue) (hD : Rel u flD) (hE : Rel ue flE) (b x : ℝ) :
    Approx ((1 + ue) * (1 + u) ^ 2) (x / b) |x / b| (times flD (flD (flE (1 / b))) x) := by
  have h1 := (((approx_self (G := 1) (x := 1 / b) le_rfl).round hue hE).round hu hD).smul x
  have h2 := h1.round hu hD
  rw [← abs_mul, mul_one_div, one_mul] at h2
  have e : x * flD (flE (1 / b)) = flD (flE (1 / b)) * x := by ring
  rw [e, mul_assoc, ← pow_two] at h2
  exact h2

/-- The scaled vector has length one and the right direction. -/
theorem unit_near {G H b : ℝ} {r v : Fin n → ℝ} (hG1 : 1 ≤ G) (hG2 : G < 2) (hH : 1 ≤ H)
    (hb : |b - len r| ≤ (G - 1) * len r) (hr : 0 < len r) (hv : ∀ i, Approx H (r i / b) |r i / b| (v i)) :
    |len v - 1| ≤ H / (2 - G) - 1 ∧ ∀ i, |v i - r i / len r| ≤ (H / (2 - G) - 1) * |r i / len r| := by
  have hlow : (2 - G) * len r ≤ b := by have := (abs_le.1 hb).1; linarith
  have hup : b ≤ G * len r := by have := (abs_le.1 hb).2; linarith
  have hbpos : 0 < b := lt_of_lt_of_le (mul_pos (by linarith) hr) hlow
  have hG0 : 0 < 2 - G := by linarith
  constructor
  · have h1 := len_near (x := v) (y := fun i => r i / b) (d := H - 1) (by linarith) fun i => (hv i).2
    have e : len (fun i => r i / b) = len r / b := by
      have := len_smul (1 / b) r
      simp only [one_div_mul_eq_div] at this
      rw [this, abs_of_pos (by positivity), one_div_mul_eq_div]
    rw [e] at h1
    have h2 : len r / b ≤ 1 / (2 - G) := by
      rw [div_le_div_iff₀ hbpos hG0]
      linarith
    have h3 : 1 / G ≤ len r / b := by
      rw [div_le_div_iff₀ (by linarith) hbpos]
      linarith
    obtain ⟨h4, h5⟩ := abs_le.1 h1
    set t := len r / b
    have ht : 0 < t := by positivity
    rw [abs_le]
    have e2 : H / (2 - G) = H * (1 / (2 - G)) := by ring
    constructor
    · -- 2 ≤ H / (2 - G) + (2 - H) t
      have key : 2 ≤ H / (2 - G) + (2 - H) * t := by
        rcases le_or_gt H 2 with hle | hgt
        · have h6 : (2 - H) * (1 / G) ≤ (2 - H) * t := mul_le_mul_of_nonneg_left h3 (by linarith)
          have h7 : 2 ≤ H / (2 - G) + (2 - H) * (1 / G) := by
            have hGp : 0 < G := by linarith
            rw [show H / (2 - G) + (2 - H) * (1 / G) = (H * G + (2 - H) * (2 - G)) / ((2 - G) * G) by
              field_simp]
            rw [le_div_iff₀ (by positivity)]
            nlinarith [mul_nonneg (by linarith : 0 ≤ H - 1) (by linarith : 0 ≤ G - 1), sq_nonneg (G - 1)]
          linarith
        · have h6 : (2 - H) * (1 / (2 - G)) ≤ (2 - H) * t := by nlinarith
          have h7 : 1 ≤ 1 / (2 - G) := by rw [le_div_iff₀ hG0]; linarith
          have h8 : H / (2 - G) + (2 - H) * (1 / (2 - G)) = 2 * (1 / (2 - G)) := by ring
          linarith
      nlinarith
    · have : H * t ≤ H * (1 / (2 - G)) := mul_le_mul_of_nonneg_left h2 (by linarith)
      nlinarith
  · intro i
    have hA : Approx (1 / (2 - G)) (r i / len r) |r i / len r| (r i / b) := by
      refine ⟨le_rfl, ?_⟩
      have e1 : r i / b - r i / len r = r i / len r * ((len r - b) / b) := by
        field_simp
      rw [e1, abs_mul, mul_comm]
      refine mul_le_mul_of_nonneg_right ?_ (abs_nonneg _)
      rw [abs_div, abs_of_pos hbpos, div_le_iff₀ hbpos, abs_sub_comm]
      refine hb.trans ?_
      have e2 : 1 / (2 - G) - 1 = (G - 1) / (2 - G) := by
        field_simp
        ring
      rw [e2, div_mul_eq_mul_div, le_div_iff₀ hG0]
      nlinarith
    have h := ((hv i).trans hH hA hA.abs_le).2
    rwa [mul_one_div] at h

/-- Subtraction of a multiple. -/
theorem subtractScaled_approx (hu : 0 ≤ u) (hD : Rel u flD) {G : ℝ} (hG : 1 + u ≤ G) (a : Fin n → ℝ) (scale : ℝ)
    {S T w : Fin n → ℝ} (hw : ∀ i, Approx G (S i) (T i) (w i)) :
    ∃ r : Fin n → ℝ, subtractScaledVector flD (Array.ofFn a) n scale (Array.ofFn w) = .ok (Array.ofFn r) ∧
      ∀ i, Approx (G * (1 + u)) (S i - scale * a i) (T i + |scale * a i|) (r i) := by
  unfold subtractScaledVector
  by_cases hs : scale = 0
  · subst hs
    simp only [if_true]
    refine ⟨w, rfl, fun i => ?_⟩
    have h := (hw i).weaken (G' := G * (1 + u)) (le_mul_of_one_le_right (by linarith) (by linarith))
    simpa using h
  simp only [hs, if_false]
  refine forRange_update_rel w _ fun i => ?_
  have h2 := ((approx_times hu hD scale (a i)).smul (-1)).weaken hG
  have h3 := ((hw i).add h2).round hu hD
  rw [abs_neg, abs_one, one_mul, neg_one_mul, neg_one_mul, ← sub_eq_add_neg, ← sub_eq_add_neg] at h3
  refine ⟨_, h3, fun c' _ hc => ?_⟩
  rw [hc, rd_ofFn a i]
  rfl

theorem copyScaled_ofFn (r : Fin n → ℝ) (scale : ℝ) (out : Array ℝ) (ho : out.size = n) :
    copyScaledVector flD (Array.ofFn r) n scale out = .ok (Array.ofFn fun i => times flD scale (r i)) := by
  unfold copyScaledVector
  refine forRange_write_ofFn out _ ho fun i c' _ _ => ?_
  rw [rd_ofFn r i]
  rfl

theorem copyVector_ofFn (r : Fin n → ℝ) (out : Array ℝ) (ho : out.size = n) :
    copyVector (Array.ofFn r) n out = .ok (Array.ofFn r) := by
  unfold copyVector
  refine forRange_write_ofFn out _ ho fun i c' _ _ => ?_
  rw [rd_ofFn r i]
  rfl

end

/-! ### The iteration -/

theorem rest_congr {M : Matrix (Fin n) (Fin n) ℝ} {a a' b b' : ℕ → ℝ} {v v' : ℕ → Fin n → ℝ} {k : ℕ}
    (ha : a k = a' k) (hb : ∀ i < k, b i = b' i) (hv : ∀ i ≤ k, v i = v' i) : rest M a b v k = rest M a' b' v' k := by
  funext i
  unfold rest
  rw [ha, hv k le_rfl]
  by_cases h0 : k = 0
  · simp [h0]
  · rw [hb (k - 1) (by omega), hv (k - 1) (by omega)]

theorem restAbs_congr {P : Matrix (Fin n) (Fin n) ℝ} {a a' b b' : ℕ → ℝ} {v v' : ℕ → Fin n → ℝ} {k : ℕ}
    (ha : a k = a' k) (hb : ∀ i < k, b i = b' i) (hv : ∀ i ≤ k, v i = v' i) :
    restAbs P a b v k = restAbs P a' b' v' k := by
  funext i
  unfold restAbs
  rw [ha, hv k le_rfl]
  by_cases h0 : k = 0
  · simp [h0]
  · rw [hb (k - 1) (by omega), hv (k - 1) (by omega)]

/-- What holds before iteration `j`: `v` are the vectors, `r` the current residual. -/
structure LInv (M P : Matrix (Fin n) (Fin n) ℝ) (z : Fin n → ℝ) (m : ℕ) (G eUnit eAlpha eRec gR b0 thr : ℝ) (j : ℕ)
    (s : LanczosState) (v : ℕ → Fin n → ℝ) (r : Fin n → ℝ) (a b : ℕ → ℝ) : Prop where
  rows : s.V.size = 2 ∧ ∀ k < 2, ∃ row : Array ℝ, s.V[k]? = some row ∧ row.size = n
  prev : 0 < j → s.V[(j - 1) % 2]? = some (Array.ofFn (v (j - 1)))
  hr : s.r = Array.ofFn r
  ha : s.alpha.size = m ∧ ∀ k < j, s.alpha[k]? = some (a k)
  hb : s.beta.size = m ∧ ∀ k < j, s.beta[k]? = some (b k)
  hsize : s.size = j
  norm : |(if j = 0 then b0 else b (j - 1)) - len r| ≤ (G - 1) * len r
  first : j = 0 → r = z
  near : 0 < j → ∀ i, Approx gR (rest M a b v (j - 1) i) (restAbs P a b v (j - 1) i) (r i)
  start : 0 < j → ∀ i, |v 0 i - z i / len z| ≤ eUnit * |z i / len z|
  unit : ∀ k < j, |len (v k) - 1| ≤ eUnit
  diagonal : ∀ k < j, |a k - v k ⬝ᵥ (M *ᵥ v k)| ≤ eAlpha * ∑ i, |v k i| * (P *ᵥ fun l => |v k l|) i
  recurrence : ∀ k, k + 1 < j → ∀ i, |b k * v (k + 1) i - rest M a b v k i| ≤ eRec * restAbs P a b v k i
  go : s.stop = false → 0 < j → thr ≤ b (j - 1)
  stopped : s.stop = true → b (j - 1) < thr

end Imate.Rounded
