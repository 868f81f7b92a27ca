import Verif.Spec.Eigenvalue
import Verif.Lemmas.Spectrum
import Verif.Lemmas.Direct

/-!
# Lemmas on the eigenvalue methods
-/

namespace Imate.Eigen

open Matrix Imate.Spec Imate.Direct Imate.Hutchinson

variable {n m : ℕ}

theorem sumOpt_some {α β : Type} [AddCommMonoid β] (g : α → β) (l : List α) :
    sumOpt (l.map fun x => some (g x)) = some (l.map g).sum := by
  induction l with
  | nil => rfl
  | cons x l ih => simp only [List.map_cons, sumOpt, ih, Option.map_some, List.sum_cons]

theorem sumOpt_congr {α β : Type} [AddCommMonoid β] {f : α → Option β} {g : α → β} {l : List α}
    (h : ∀ x ∈ l, f x = some (g x)) : sumOpt (l.map f) = some ((l : Multiset α).map g).sum := by
  rw [List.map_congr_left h, sumOpt_some]
  simp

theorem filterMap_some {α : Type} (l : List α) : (l.map some).filterMap id = l := by
  induction l with
  | nil => rfl
  | cons x l ih => simp [ih]

theorem filterMap_padded {α : Type} (n : ℕ) (l : List α) : (padded n l).filterMap id = l := by
  unfold padded
  rw [List.filterMap_append, filterMap_some]
  simp [List.filterMap_replicate]

theorem withSquare_square {α : Type} (f : (n : ℕ) → Matrix (Fin n) (Fin n) ℝ → Except PyExc α)
    (A : Matrix (Fin n) (Fin n) ℝ) : withSquare (square A) f = f n A := by
  unfold withSquare square
  rw [dif_pos rfl]
  rfl

theorem checkFraction_ok {q : ℚ} (h0 : 0 < q) (h1 : q < 1) : checkFraction q = .ok () := by
  unfold checkFraction
  rw [if_neg]
  push Not
  exact ⟨h0, h1⟩

theorem modPi_int (k : ℤ) : modPi (k * Real.pi) = 0 := by
  unfold modPi
  rw [mul_div_assoc, div_self Real.pi_ne_zero, mul_one, Int.floor_intCast]
  ring

theorem realPart_real {tol : ℝ} (ht : 0 ≤ tol) (rows : ℕ) (x : ℝ) :
    realPart tol rows (some (x : ℂ)) = .ok (some x) := by
  unfold realPart
  have h : modPi (abs (Complex.arg x)) = 0 := by
    by_cases hx : 0 ≤ x
    · rw [Complex.arg_ofReal_of_nonneg hx, abs_zero]
      simpa using modPi_int 0
    · rw [Complex.arg_ofReal_of_neg (not_le.1 hx), abs_of_pos Real.pi_pos]
      simpa using modPi_int 1
  simp only
  rw [h, abs_zero, if_neg (by
    push Not
    positivity), Complex.ofReal_re]

theorem angleTol_nonneg (a b : Bool) : 0 ≤ angleTol a b := by
  unfold angleTol
  split_ifs <;> norm_num

theorem powR_pos {x : ℝ} (hx : 0 < x) (p : ℝ) : powR x p = .fin (x ^ p) := by
  unfold powR
  rw [if_pos hx]

theorem powR_natCast (x : ℝ) (k : ℕ) : powR x k = .fin (x ^ k) := by
  unfold powR
  split_ifs with h1 h2 h3 h4 h5
  · rw [Real.rpow_natCast]
  · rw [h2, zero_pow]
    rintro rfl
    simp at h3
  · have : k = 0 := by exact_mod_cast h4
    rw [this, pow_zero]
  · exfalso
    have : (0 : ℝ) ≤ k := Nat.cast_nonneg k
    rcases this.lt_or_eq with h | h
    · exact h3 h
    · exact h4 h.symm
  · have := h5.choose_spec
    have : h5.choose = k := by exact_mod_cast this.symm
    rw [this, zpow_natCast]
  · exact absurd ⟨(k : ℤ), by simp⟩ h5

theorem powR_intCast {x : ℝ} (hx : x ≠ 0) (k : ℤ) : powR x k = .fin (x ^ k) := by
  unfold powR
  split_ifs with h1 h5
  · rw [Real.rpow_intCast]
  · have := h5.choose_spec
    have : h5.choose = k := by exact_mod_cast this.symm
    rw [this]
  · exact absurd ⟨k, rfl⟩ h5

theorem powC_natCast (z : ℂ) (k : ℕ) : powC z k = some (z ^ k) := by
  unfold powC
  split_ifs with h2 h3 h4
  · rw [h2, zero_pow]
    rintro rfl
    simp at h3
  · have : k = 0 := by exact_mod_cast h4
    rw [this, pow_zero]
  · exfalso
    have : (0 : ℝ) ≤ k := Nat.cast_nonneg k
    rcases this.lt_or_eq with h | h
    · exact h3 h
    · exact h4 h.symm
  · rw [← Complex.cpow_natCast]
    simp

theorem powC_intCast {z : ℂ} (hz : z ≠ 0) (k : ℤ) : powC z k = some (z ^ k) := by
  unfold powC
  rw [if_neg hz, ← Complex.cpow_intCast]
  simp

/-- The sum over a dense symmetric matrix. -/
theorem eigenTrace_real {f : Scalar} {tol : ℝ} {rows : ℕ} {g : ℝ → ℝ} {l : List ℝ}
    (h : ∀ x ∈ l, f.onReal x = some (g x)) :
    sumScalar f tol rows (.real (l.map some)) = .ok (some ((l : Multiset ℝ).map g).sum) := by
  unfold sumScalar
  simp only
  rw [filterMap_some, sumOpt_congr h]

/-- The sum over a list of complex eigenvalues, if it is real. -/
theorem eigenTrace_complex {f : Scalar} {tol : ℝ} (ht : 0 ≤ tol) {rows : ℕ} {g : ℂ → ℂ} {l : List ℂ}
    (h : ∀ z ∈ l, f.onComplex z = some (g z)) {t : ℝ} (hs : ((l : Multiset ℂ).map g).sum = t) :
    sumScalar f tol rows (.cplx (l.map some)) = .ok (some t) := by
  unfold sumScalar
  simp only
  rw [filterMap_some, sumOpt_congr h, hs, realPart_real ht]

theorem map_pow (A : Matrix (Fin n) (Fin n) ℝ) (k : ℕ) :
    (A.map ((↑) : ℝ → ℂ)) ^ k = (A ^ k).map (↑) := by
  have := Matrix.map_pow A Complex.ofRealHom k
  exact this.symm

theorem trace_map (A : Matrix (Fin n) (Fin n) ℝ) :
    (A.map ((↑) : ℝ → ℂ)).trace = (A.trace : ℝ) := by
  unfold Matrix.trace
  simp

theorem det_map (A : Matrix (Fin n) (Fin n) ℝ) : (A.map ((↑) : ℝ → ℂ)).det = (A.det : ℝ) :=
  (RingHom.map_det Complex.ofRealHom A).symm

theorem map_inv (A : Matrix (Fin n) (Fin n) ℝ) (hA : IsUnit A.det) :
    (A.map ((↑) : ℝ → ℂ))⁻¹ = (A⁻¹).map (↑) := by
  apply Matrix.inv_eq_left_inv
  have := Matrix.map_mul (L := A⁻¹) (M := A) (f := Complex.ofRealHom)
  rw [nonsing_inv_mul _ hA] at this
  rw [← Matrix.map_one ((↑) : ℝ → ℂ) (by simp) (by simp)]
  exact this.symm

/-- The sum of the powers of all eigenvalues. -/
theorem sum_eigenvalues_pow (A : Matrix (Fin n) (Fin n) ℝ) (k : ℕ) :
    ((complexEigenvalues A).map (· ^ k)).sum = ((A ^ k).trace : ℝ) := by
  unfold complexEigenvalues
  rw [← trace_pow, map_pow, trace_map]

theorem eigenvalues_ne_zero {A : Matrix (Fin n) (Fin n) ℝ} (hA : IsUnit A.det) {z : ℂ}
    (hz : z ∈ complexEigenvalues A) : z ≠ 0 := by
  refine roots_ne_zero ?_ hz
  rw [det_map]
  exact (isUnit_iff_ne_zero.2 (by exact_mod_cast hA.ne_zero))

theorem sum_eigenvalues_zpow {A : Matrix (Fin n) (Fin n) ℝ} (hA : IsUnit A.det) (k : ℤ) :
    ((complexEigenvalues A).map (· ^ k)).sum = ((A ^ k).trace : ℝ) := by
  cases k with
  | ofNat k => simpa using sum_eigenvalues_pow A k
  | negSucc k =>
    have hA' : IsUnit (A.map ((↑) : ℝ → ℂ)).det := by
      rw [det_map]
      exact (isUnit_iff_ne_zero.2 (by exact_mod_cast hA.ne_zero))
    have := trace_inv_pow (A.map ((↑) : ℝ → ℂ)) hA' (k + 1)
    rw [map_pow, map_inv _ (by rw [det_pow]; exact hA.pow _), trace_map] at this
    simp only [zpow_negSucc]
    exact this.symm

theorem det_eq_prod_eigenvalues (A : Matrix (Fin n) (Fin n) ℝ) :
    (complexEigenvalues A).prod = (A.det : ℝ) := by
  unfold complexEigenvalues
  rw [← det_eq_prod_roots_charpoly, det_map]

/-! ### The parity of the imaginary part -/

/-- A sum of logarithms of non-zero numbers is a logarithm of their product. -/
theorem exp_sum_log {l : List ℂ} (h : ∀ z ∈ l, z ≠ 0) :
    ∃ w, sumOpt (l.map logC) = some w ∧ Complex.exp w = (l : Multiset ℂ).prod := by
  induction l with
  | nil => exact ⟨0, rfl, by simp⟩
  | cons z l ih =>
    obtain ⟨w, h1, h2⟩ := ih (fun z hz => h z (List.mem_cons_of_mem _ hz))
    have hz := h z List.mem_cons_self
    refine ⟨Complex.log z + w, ?_, ?_⟩
    · rw [List.map_cons, logC, if_neg hz]
      simp only [sumOpt, h1, Option.map_some]
    · rw [Complex.exp_add, Complex.exp_log hz, h2]
      simp

theorem quotient_int (k : ℤ) : quotient (k * Real.pi) = k.natAbs := by
  unfold quotient
  rw [abs_mul, abs_of_pos Real.pi_pos, mul_div_assoc, div_self Real.pi_ne_zero, mul_one,
    ← Int.cast_abs, Int.abs_eq_natAbs, Int.cast_natCast]
  rw [Nat.floor_eq_iff (by positivity)]
  constructor <;> linarith

theorem half_test (q : ℕ) : q / 2 = ⌊(q : ℝ) / 2 + 1 / 2⌋₊ ↔ Even q := by
  rcases Nat.even_or_odd' q with ⟨k, rfl | rfl⟩
  · have : ⌊((2 * k : ℕ) : ℝ) / 2 + 1 / 2⌋₊ = k := by
      rw [Nat.floor_eq_iff (by positivity)]
      push_cast
      constructor <;> linarith
    rw [this]
    simp
  · have : ⌊((2 * k + 1 : ℕ) : ℝ) / 2 + 1 / 2⌋₊ = k + 1 := by
      rw [Nat.floor_eq_iff (by positivity)]
      push_cast
      constructor <;> linarith
    rw [this]
    constructor
    · omega
    · intro h
      exact absurd h (by simp)

theorem isReal_int {tol : Option ℝ} (ht : ∀ t, tol = some t → 0 < t) (rows : ℕ) (k : ℤ) :
    isReal tol rows (k * Real.pi) := by
  unfold isReal
  cases tol with
  | none => trivial
  | some t =>
    have := ht t rfl
    simp only [imagMod, modPi_int, abs_zero]
    rw [if_pos (Or.inl this)]
    positivity

/-- The rounding of a logarithm of a real number. -/
theorem roundImag_real {tol : Option ℝ} (ht : ∀ t, tol = some t → 0 < t) (rows : ℕ) {w : ℂ} {d : ℝ}
    (h : Complex.exp w = d) :
    (0 < d → roundImag tol rows w = .ok (.real (Real.log d))) ∧
    (d < 0 → roundImag tol rows w = .ok (.cplx (Real.log |d| + Real.pi * Complex.I))) := by
  have hre : w.re = Real.log |d| := by
    have := congrArg (‖·‖) h
    simp only [Complex.norm_exp, Complex.norm_real, Real.norm_eq_abs] at this
    rw [← this, Real.log_exp]
  have him := congrArg Complex.im h
  have hr := congrArg Complex.re h
  rw [Complex.exp_im, Complex.ofReal_im] at him
  rw [Complex.exp_re, Complex.ofReal_re] at hr
  obtain ⟨k, hk⟩ := Real.sin_eq_zero_iff.1 ((mul_eq_zero.1 him).resolve_left (Real.exp_pos _).ne')
  have hpar : (0 < d → Even k.natAbs) ∧ (d < 0 → ¬ Even k.natAbs) := by
    rw [← hk] at hr
    have hc : Real.cos (k * Real.pi) = (-1) ^ k := Real.cos_int_mul_pi k
    rw [hc] at hr
    have he := Real.exp_pos w.re
    rw [Int.natAbs_even]
    constructor
    · intro hd
      by_contra ho
      rw [Int.not_even_iff_odd] at ho
      rw [ho.neg_one_zpow] at hr
      linarith
    · intro hd ho
      rw [ho.neg_one_zpow] at hr
      linarith
  unfold roundImag
  rw [← hk, if_neg (not_not.2 (isReal_int ht rows k)), quotient_int]
  constructor
  · intro hd
    rw [if_pos ((half_test _).2 (hpar.1 hd)), hre, abs_of_pos hd]
  · intro hd
    rw [if_neg (fun h => hpar.2 hd ((half_test _).1 h)), hre]

theorem imagTol_pos (a b : Bool) : ∀ t, imagTol a b = some t → 0 < t := by
  intro t h
  unfold imagTol at h
  split_ifs at h
  cases h
  norm_num

end Imate.Eigen
