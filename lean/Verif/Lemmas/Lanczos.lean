import Verif.Model.Lanczos
import Verif.Lemmas.Mem
import Mathlib.Analysis.Real.Sqrt
import Mathlib.LinearAlgebra.Matrix.DotProduct
import Mathlib.LinearAlgebra.Matrix.Symmetric
import Mathlib.Tactic.LinearCombination

/-! Helper lemmas about the Krylov layer: the un-buffered recurrence and the ring buffer. -/

namespace Imate.Lanczos

open Matrix

variable {n : Nat}

/-! ### Norms -/

theorem norm_nonneg (v : Fin n → ℝ) : 0 ≤ norm Real.sqrt v := Real.sqrt_nonneg _

theorem norm_mul_self (v : Fin n → ℝ) : norm Real.sqrt v * norm Real.sqrt v = v ⬝ᵥ v :=
  Real.mul_self_sqrt (Finset.sum_nonneg (fun i _ => mul_self_nonneg (v i)))

theorem norm_eq_zero {v : Fin n → ℝ} : norm Real.sqrt v = 0 ↔ v = 0 := by
  rw [← dotProduct_self_eq_zero, ← norm_mul_self, mul_self_eq_zero]

theorem norm_ne_zero {v : Fin n → ℝ} (h : v ≠ 0) : norm Real.sqrt v ≠ 0 :=
  fun h' => h (norm_eq_zero.1 h')

theorem divide_eq {v : Fin n → ℝ} {c : ℝ} (h : c ≠ 0) : divide v c = some (c⁻¹ • v) := by
  unfold divide
  rw [if_neg h]
  congr 1
  funext i
  simp [div_eq_inv_mul]

/-! ### The recurrence without buffers -/

/-- `(v_{j-1}, r_j)` of the three-term recurrence started at `z`. -/
noncomputable def ref (A : Matrix (Fin n) (Fin n) ℝ) (z : Fin n → ℝ) :
    Nat → (Fin n → ℝ) × (Fin n → ℝ)
  | 0 => (0, z)
  | j + 1 =>
    let p := ref A z j
    let b := norm Real.sqrt p.2
    let v := b⁻¹ • p.2
    (v, A *ᵥ v - (v ⬝ᵥ (A *ᵥ v)) • v - b • p.1)

noncomputable def rr (A : Matrix (Fin n) (Fin n) ℝ) (z : Fin n → ℝ) (j : Nat) := (ref A z j).2
noncomputable def bb (A : Matrix (Fin n) (Fin n) ℝ) (z : Fin n → ℝ) (j : Nat) :=
  norm Real.sqrt (rr A z j)
noncomputable def vv (A : Matrix (Fin n) (Fin n) ℝ) (z : Fin n → ℝ) (j : Nat) :=
  (ref A z (j + 1)).1
noncomputable def aa (A : Matrix (Fin n) (Fin n) ℝ) (z : Fin n → ℝ) (j : Nat) :=
  vv A z j ⬝ᵥ (A *ᵥ vv A z j)

variable {A : Matrix (Fin n) (Fin n) ℝ} {z : Fin n → ℝ}

theorem rr_zero : rr A z 0 = z := rfl
theorem vv_eq (j : Nat) : vv A z j = (bb A z j)⁻¹ • rr A z j := rfl
theorem rr_one : rr A z 1 = A *ᵥ vv A z 0 - aa A z 0 • vv A z 0 := by
  show A *ᵥ vv A z 0 - aa A z 0 • vv A z 0 - bb A z 0 • (0 : Fin n → ℝ) = _
  simp
theorem rr_succ (j : Nat) : rr A z (j + 2) =
    A *ᵥ vv A z (j + 1) - aa A z (j + 1) • vv A z (j + 1) - bb A z (j + 1) • vv A z j := rfl

theorem rr_eq_smul {j : Nat} (h : bb A z j ≠ 0) : rr A z j = bb A z j • vv A z j := by
  rw [vv_eq, smul_smul, mul_inv_cancel₀ h, one_smul]

theorem vv_unit {j : Nat} (h : bb A z j ≠ 0) : vv A z j ⬝ᵥ vv A z j = 1 := by
  rw [vv_eq, smul_dotProduct, dotProduct_smul, ← norm_mul_self]
  show (bb A z j)⁻¹ • (bb A z j)⁻¹ • (bb A z j * bb A z j) = 1
  simp only [smul_eq_mul]
  field_simp

theorem symm_dot (hA : A.IsSymm) (x y : Fin n → ℝ) : x ⬝ᵥ (A *ᵥ y) = (A *ᵥ x) ⬝ᵥ y := by
  rw [dotProduct_mulVec, ← mulVec_transpose, hA.eq]

/-- `A v_i` in the basis. -/
theorem mulVec_vv_zero : A *ᵥ vv A z 0 = rr A z 1 + aa A z 0 • vv A z 0 := by
  rw [rr_one]; abel
theorem mulVec_vv_succ (j : Nat) : A *ᵥ vv A z (j + 1) =
    rr A z (j + 2) + aa A z (j + 1) • vv A z (j + 1) + bb A z (j + 1) • vv A z j := by
  rw [rr_succ]; abel

/-- Orthonormality of the recurrence up to the first breakdown. -/
theorem orthonormal_ref (hA : A.IsSymm) (j : Nat) (hb : ∀ i ≤ j, bb A z i ≠ 0) :
    (∀ i ≤ j, ∀ k ≤ j, vv A z i ⬝ᵥ vv A z k = if i = k then 1 else 0) ∧
    (∀ i ≤ j, rr A z (j + 1) ⬝ᵥ vv A z i = 0) := by
  induction j with
  | zero =>
    constructor
    · intro i hi k hk
      obtain rfl : i = 0 := by omega
      obtain rfl : k = 0 := by omega
      simpa using vv_unit (hb 0 le_rfl)
    · intro i hi
      obtain rfl : i = 0 := by omega
      rw [rr_one, sub_dotProduct, smul_dotProduct, vv_unit (hb 0 le_rfl), dotProduct_comm]
      simp [aa]
  | succ j ih =>
    obtain ⟨ho, hr⟩ := ih (fun i hi => hb i (by omega))
    have hbj := hb (j + 1) le_rfl
    have hu := vv_unit hbj
    have hlast : ∀ i ≤ j, vv A z (j + 1) ⬝ᵥ vv A z i = 0 := by
      intro i hi
      rw [vv_eq (j + 1), smul_dotProduct, hr i hi, smul_zero]
    have hon : ∀ i ≤ j + 1, ∀ k ≤ j + 1, vv A z i ⬝ᵥ vv A z k = if i = k then 1 else 0 := by
      intro i hi k hk
      rcases Nat.lt_or_ge i (j + 1) with h1 | h1 <;> rcases Nat.lt_or_ge k (j + 1) with h2 | h2
      · exact ho i (by omega) k (by omega)
      · obtain rfl : k = j + 1 := by omega
        rw [dotProduct_comm, hlast i (by omega), if_neg (by omega)]
      · obtain rfl : i = j + 1 := by omega
        rw [hlast k (by omega), if_neg (by omega)]
      · obtain rfl : i = j + 1 := by omega
        obtain rfl : k = j + 1 := by omega
        simpa using hu
    refine ⟨hon, ?_⟩
    intro i hi
    rw [rr_succ, sub_dotProduct, sub_dotProduct, smul_dotProduct, smul_dotProduct]
    have hsw : (A *ᵥ vv A z (j + 1)) ⬝ᵥ vv A z i = vv A z (j + 1) ⬝ᵥ (A *ᵥ vv A z i) :=
      (symm_dot hA _ _).symm
    have hrn : ∀ l, l ≤ j + 1 → ∀ k ≤ j + 1, vv A z k ⬝ᵥ rr A z l =
        if k = l then bb A z l else 0 := by
      intro l hl k hk
      rw [rr_eq_smul (hb l hl), dotProduct_smul, hon k hk l hl]
      split <;> simp
    rcases Nat.lt_or_ge i (j + 1) with hij | hij
    · have hvi : vv A z (j + 1) ⬝ᵥ (A *ᵥ vv A z i) = if i = j then bb A z (j + 1) else 0 := by
        have key : vv A z (j + 1) ⬝ᵥ rr A z (i + 1) = if i = j then bb A z (j + 1) else 0 := by
          rw [hrn (i + 1) (by omega) (j + 1) le_rfl]
          by_cases h : i = j
          · subst h; simp
          · rw [if_neg (by omega), if_neg h]
        cases i with
        | zero =>
          rw [mulVec_vv_zero, dotProduct_add, dotProduct_smul, hlast 0 (by omega), key]
          simp
        | succ i =>
          rw [mulVec_vv_succ, dotProduct_add, dotProduct_add, dotProduct_smul, dotProduct_smul,
            hlast (i + 1) (by omega), hlast i (by omega), key]
          simp
      rw [hsw, hvi, hlast i (by omega), hon j (by omega) i hi]
      by_cases h : i = j
      · subst h; simp
      · rw [if_neg h, if_neg (fun h' => h h'.symm)]; simp
    · obtain rfl : i = j + 1 := by omega
      rw [hu, hon j (by omega) (j + 1) le_rfl, if_neg (by omega), dotProduct_comm]
      simp [aa]

/-! ### Gram-Schmidt -/

theorem gsStep_orthogonal (eps : ℝ) {Vi v : Fin n → ℝ} (h : Vi ⬝ᵥ v = 0) :
    gsStep Real.sqrt eps Vi v = v := by
  simp only [gsStep, h]
  split
  · rfl
  · split
    · rfl
    · simp

theorem gsNumSteps_le_of_nat (vs nv k : Nat) : gsNumSteps vs nv k ≤ k ∧ gsNumSteps vs nv k ≤ nv := by
  unfold gsNumSteps
  simp only
  split
  · omega
  · split <;> split <;> omega

theorem gsIndex_eq {nv j step : Nat} (hs : step < nv) (hj : step ≤ j) :
    gsIndex nv (j % nv) step = (j - step) % nv := by
  have hpos : 0 < nv := by omega
  unfold gsIndex
  rw [Nat.mod_mod]
  have h1 := Nat.div_add_mod j nv
  have h2 := Nat.mod_lt j hpos
  by_cases h : j % nv ≥ step
  · rw [if_pos h]
    have h3 : j - step = (j % nv - step) + nv * (j / nv) := by omega
    have h4 : (j - step) % nv = (j % nv - step) % nv := by
      conv_lhs => rw [h3]
      exact Nat.add_mul_mod_self_left _ _ _
    exact (Nat.mod_eq_of_lt (by omega)).symm.trans h4.symm
  · rw [if_neg h]
    have hd : 1 ≤ j / nv := by
      rcases Nat.eq_zero_or_pos (j / nv) with h0 | h0
      · rw [h0] at h1; omega
      · exact h0
    obtain ⟨q, hq⟩ : ∃ q, j / nv = q + 1 := ⟨j / nv - 1, by omega⟩
    rw [hq, Nat.mul_add] at h1
    have h3 : j - step = (j % nv + nv - step) + nv * q := by omega
    have h4 : (j - step) % nv = (j % nv + nv - step) % nv := by
      conv_lhs => rw [h3]
      exact Nat.add_mul_mod_self_left _ _ _
    exact (Nat.mod_eq_of_lt (by omega)).symm.trans h4.symm

theorem load_ok {V : Rows ℝ n} {i : Nat} {x : Fin n → ℝ} (h : V[i]? = some (some x)) :
    load V i = .ok x := by
  unfold load
  rw [rd_ok h]
  rfl

/-- If the vector is orthogonal to every row of the window, nothing happens. -/
theorem gramSchmidt_noop (eps : ℝ) (V : Rows ℝ n) (nv last : Nat) (no : Int) (v : Fin n → ℝ)
    (h : ∀ step < gsNumSteps n nv no, ∃ x, V[gsIndex nv last step]? = some (some x) ∧ x ⬝ᵥ v = 0) :
    gramSchmidt Real.sqrt eps V nv last no v = .ok v := by
  unfold gramSchmidt
  obtain ⟨s', h1, h2⟩ := forRange_inv (body := fun step v => do
    let Vi ← load V (gsIndex nv last step)
    .ok (gsStep Real.sqrt eps Vi v)) (fun _ s => s = v) (Nat.zero_le (gsNumSteps n nv no)) v rfl (by
      intro i _ hi s hs
      obtain ⟨x, hx, hx0⟩ := h i hi
      refine ⟨v, ?_, rfl⟩
      rw [load_ok hx, hs]
      show Except.ok _ = _
      rw [gsStep_orthogonal eps hx0])
  rw [h1, h2]

end Imate.Lanczos
