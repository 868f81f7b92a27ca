import Verif.Lemmas.RangedVector
import Verif.Props.Rounded
import Verif.Model.RoundedLanczos

/-!
# C100: norms, normalised vectors and the Lanczos iteration for numbers of every magnitude

`Format p emin emax flD` is the format of the vectors (`float` or `double`), `Format q emin' emax' flL` the one of
`long double` (`Verif.Spec.FloatFormat`).
-/

namespace Imate.Props.RangedVector

open Imate.RangedVector Imate.RangedConvergence Imate.Spec Matrix

variable {p q c n : ℕ} {emin emax emin' emax' : ℤ} {flD flE flL : ℝ → XR ℝ}

/-- The numbers of `DataType` are numbers of `long double`. -/
structure Contained (p : ℕ) (emin emax : ℤ) (q : ℕ) (emin' emax' : ℤ) : Prop where
  bits : p ≤ q
  low : emin' ≤ emin
  high : emax ≤ emax'

/-! ## Vectors in the range -/

private theorem norm_wide (hD : Format p emin emax flD) (hL : Format q emin' emax' flL) (u : Usual p emin emax)
    (hc : Contained p emin emax q emin' emax') {c : ℕ} {k : ℤ} (hcp : c + 1 ≤ p) (h5 : 5 ≤ 2 ^ c) (hn : n ≤ 2 ^ c)
    (hk : emin ≤ 2 * k + c) (hk2 : 2 * k + c ≤ emax) (x : Fin n → ℝ) (hx : ∀ i, |x i| ≤ 2 ^ k)
    (hx2 : ∀ i, x i = 0 ∨ 2 ^ emin ≤ x i ^ 2) :
    ∃ r, euclideanNorm flD flL (Array.ofFn fun i => XR.fin (x i)) n = .ok (.fin r) ∧
      Rounded.euclideanNorm (wide p flD) (wide q flL) (Array.ofFn x) n = .ok r := by
  have hp := u.bits
  have hle := u.le
  obtain ⟨s, e1, e2, e3⟩ := chunked_nice hD hL hp hc.bits hc.low hc.high hle hcp hk hk2 hn h5 x (fun i => by
      rw [two_mul, zpow_add₀ (by norm_num), ← abs_mul_abs_self]
      exact mul_le_mul (hx i) (hx i) (abs_nonneg _) (two_zpow_pos k).le)
    (fun i => (hx2 i).imp id (fun h => by rwa [sq] at h))
  obtain ⟨g1, g2⟩ := nice_round hD hp (le_refl emin) hle (k := 2 * k) (c := c) e3.nonneg e3.upper e3.lower hn hcp hk hk2
  set y := wide p flD s with hy
  have hy2 : y ≤ 2 ^ emax := by
    calc y ≤ n * 2 ^ (2 * k) := g2.upper
      _ ≤ 2 ^ c * 2 ^ (2 * k) := mul_le_mul_of_nonneg_right (by exact_mod_cast hn) (two_zpow_pos _).le
      _ = 2 ^ (2 * k + c) := by rw [zpow_add₀ (by norm_num) (2 * k), zpow_natCast, mul_comm]
      _ ≤ 2 ^ emax := two_zpow_le hk2
  have hg : Good p flD (Real.sqrt y) := by
    rcases g2.lower with e | e
    · rw [e, Real.sqrt_zero]
      exact good_zero hD hle
    · refine good_normal hD hp ?_ ?_ <;> rw [abs_of_nonneg (Real.sqrt_nonneg _)]
      · apply Real.le_sqrt_of_sq_le
        refine le_trans ?_ e
        rw [sq, ← zpow_add₀ (by norm_num)]
        exact two_zpow_le (by have := u.low; omega)
      · apply Real.sqrt_le_iff.2 ⟨(two_zpow_pos _).le, hy2.trans ?_⟩
        rw [sq, ← zpow_add₀ (by norm_num)]
        exact two_zpow_le (by have := u.high; omega)
  refine ⟨wide p flD (Real.sqrt y), ?_, ?_⟩
  · unfold euclideanNorm
    rw [e1]
    show Except.ok (rounded flD (XR.sqrt (flD s))) = _
    rw [g1]
    show Except.ok (rounded flD (if y < 0 then _ else _)) = _
    rw [if_neg (not_lt.2 g2.nonneg)]
    exact congrArg Except.ok (wide_eq hg)
  · unfold Rounded.euclideanNorm
    rw [e2]
    rfl

/-- **C100.**  If the squares of the non-zero elements are in the range, and their sum too, the norm is finite and
accurate. -/
theorem norm_in_range_partial (hD : Format p emin emax flD) (hL : Format q emin' emax' flL) (u : Usual p emin emax)
    (hc : Contained p emin emax q emin' emax') {k : ℤ} (hcp : c + 1 ≤ p) (h5 : 5 ≤ 2 ^ c) (hn : n ≤ 2 ^ c)
    (hk : emin ≤ 2 * k + c) (hk2 : 2 * k + c ≤ emax) (x : Fin n → ℝ) (hx : ∀ i, |x i| ≤ 2 ^ k)
    (hx2 : ∀ i, x i = 0 ∨ 2 ^ emin ≤ x i ^ 2)
    (hg : (1 + unitRoundoff p) ^ 6 * (1 + unitRoundoff q) ^ n ≤ 2) :
    ∃ r, euclideanNorm flD flL (Array.ofFn fun i => XR.fin (x i)) n = .ok (.fin r) ∧
      |r - Real.sqrt (x ⬝ᵥ x)| ≤ ((1 + unitRoundoff p) ^ 7 * (1 + unitRoundoff q) ^ n - 1) * Real.sqrt (x ⬝ᵥ x) := by
  obtain ⟨r, e1, e2⟩ := norm_wide hD hL u hc hcp h5 hn hk hk2 x hx hx2
  obtain ⟨r', e3, e4⟩ := norm_accurate u.bits (u.bits.trans hc.bits) (wide_nearest (fl := flD) u.bits)
    (wide_nearest (fl := flL) (u.bits.trans hc.bits)) x hg
  rw [e2] at e3
  obtain rfl : r = r' := by simpa using e3
  exact ⟨r, e1, e4⟩

private theorem quotients (norm : XR ℝ) (x : Fin n → ℝ) (out : Array (XR ℝ)) (ho : out.size = n) :
    forRange 0 n (fun i out => do wr out i (over flD (← rd (Array.ofFn fun i => XR.fin (x i)) i) norm)) out =
      .ok (Array.ofFn fun i => over flD (.fin (x i)) norm) ∧
    forRange 0 n (fun i v => do wr v i (over flD (← rd v i) norm)) (Array.ofFn fun i => XR.fin (x i)) =
      .ok (Array.ofFn fun i => over flD (.fin (x i)) norm) := by
  constructor
  · refine forRange_write_ofFn out (fun i => over flD (.fin (x i)) norm) ho ?_
    intro i c' _ _
    rw [rd_ofFn]
    rfl
  · refine forRange_write_ofFn _ (fun i => over flD (.fin (x i)) norm) (by simp) ?_
    intro i c' _ h
    rw [rd_ok (x := XR.fin (x i)) (by rw [h]; simp)]
    rfl

private theorem normalize_eq {x : Fin n → ℝ} {norm : XR ℝ}
    (h : euclideanNorm flD flL (Array.ofFn fun i => XR.fin (x i)) n = .ok norm) {out : Array (XR ℝ)} (ho : out.size = n) :
    normalizeAndCopy flD flL (Array.ofFn fun i => XR.fin (x i)) n out =
      .ok (Array.ofFn fun i => over flD (.fin (x i)) norm, norm) ∧
    normalizeInPlace flD flL (Array.ofFn fun i => XR.fin (x i)) n =
      .ok (Array.ofFn fun i => over flD (.fin (x i)) norm, norm) := by
  obtain ⟨h1, h2⟩ := quotients (flD := flD) norm x out ho
  constructor
  · unfold normalizeAndCopy
    rw [h]
    simp only [Except.ok_bind']
    rw [h1]
    rfl
  · unfold normalizeInPlace
    rw [h]
    simp only [Except.ok_bind']
    rw [h2]
    rfl

/-- **C100.**  In the range, a vector other than zero is divided by its norm, up to rounding. -/
theorem normalize_in_range_partial (hD : Format p emin emax flD) (hL : Format q emin' emax' flL) (u : Usual p emin emax)
    (hc : Contained p emin emax q emin' emax') {k : ℤ} (hcp : c + 1 ≤ p) (h5 : 5 ≤ 2 ^ c) (hn : n ≤ 2 ^ c)
    (hk : emin ≤ 2 * k + c) (hk2 : 2 * k + c ≤ emax) (x : Fin n → ℝ) (hx : ∀ i, |x i| ≤ 2 ^ k)
    (hx2 : ∀ i, x i = 0 ∨ 2 ^ emin ≤ x i ^ 2) (hne : ∃ i, x i ≠ 0)
    (hg : (1 + unitRoundoff p) ^ 7 * (1 + unitRoundoff q) ^ n ≤ 3 / 2) (out : Array (XR ℝ)) (ho : out.size = n) :
    ∃ (r : ℝ) (w : Fin n → ℝ),
      normalizeAndCopy flD flL (Array.ofFn fun i => XR.fin (x i)) n out = .ok (Array.ofFn fun i => XR.fin (w i), .fin r) ∧
      normalizeInPlace flD flL (Array.ofFn fun i => XR.fin (x i)) n = .ok (Array.ofFn fun i => XR.fin (w i), .fin r) ∧
      |r - Real.sqrt (x ⬝ᵥ x)| ≤ ((1 + unitRoundoff p) ^ 7 * (1 + unitRoundoff q) ^ n - 1) * Real.sqrt (x ⬝ᵥ x) ∧
      0 < r ∧ ∀ i, |w i - x i / r| ≤ unitRoundoff p * |x i / r| + 2 ^ (emin - p) := by
  have hu : 0 ≤ unitRoundoff p := by unfold unitRoundoff; positivity
  have hU : 0 ≤ unitRoundoff q := by unfold unitRoundoff; positivity
  have hg6 : (1 + unitRoundoff p) ^ 6 * (1 + unitRoundoff q) ^ n ≤ (1 + unitRoundoff p) ^ 7 * (1 + unitRoundoff q) ^ n :=
    mul_le_mul_of_nonneg_right (pow_le_pow_right₀ (by linarith) (by norm_num)) (by positivity)
  obtain ⟨r, e1, e2⟩ := norm_in_range_partial hD hL u hc hcp h5 hn hk hk2 x hx hx2 (by linarith)
  have hmem : ∀ i, |x i| ≤ Real.sqrt (x ⬝ᵥ x) := fun i => by
    apply Real.abs_le_sqrt
    rw [sq]
    exact Finset.single_le_sum (f := fun i => x i * x i) (fun i _ => mul_self_nonneg (x i)) (Finset.mem_univ i)
  have hpos : 0 < Real.sqrt (x ⬝ᵥ x) := by
    obtain ⟨i, hi⟩ := hne
    exact lt_of_lt_of_le (abs_pos.2 hi) (hmem i)
  have hr : Real.sqrt (x ⬝ᵥ x) / 2 ≤ r := by
    have h1 := (abs_le.1 e2).1
    nlinarith
  have hr0 : 0 < r := by linarith
  have hq : ∀ i, |x i / r| ≤ 2 ^ emax := fun i => by
    have h1 : |x i / r| ≤ 2 := by
      rw [abs_div, abs_of_pos hr0, div_le_iff₀ hr0]
      have := hmem i
      linarith
    have h2 : (2 : ℝ) ^ (1 : ℤ) ≤ 2 ^ emax := two_zpow_le (by have := u.bits; have := u.high; omega)
    rw [zpow_one] at h2
    linarith
  have hw := fun i => fmt_error hD u.bits u.le (hq i)
  choose w hw1 hw2 using hw
  have e3 : ∀ i, over flD (.fin (x i)) (.fin r) = XR.fin (w i) := fun i => by
    show rounded flD (if r = 0 then _ else _) = _
    rw [if_neg hr0.ne']
    exact hw1 i
  obtain ⟨g1, g2⟩ := normalize_eq e1 ho
  simp only [e3] at g1 g2
  exact ⟨r, w, g1, g2, e2, hr0, hw2⟩

/-! ## Overflow and underflow -/

/-- **C100, negation.**  One element whose square overflows makes the norm infinite, and the normalised vector zero. -/
theorem norm_overflow (hD : Format p emin emax flD) (hL : Format q emin' emax' flL) (u : Usual p emin emax)
    (hc : Contained p emin emax q emin' emax') {j : ℤ} (hj : emax + 1 ≤ 2 * j) (x : Fin n → ℝ) (hx : ∃ i, 2 ^ j ≤ |x i|)
    (out : Array (XR ℝ)) (ho : out.size = n) :
    euclideanNorm flD flL (Array.ofFn fun i => XR.fin (x i)) n = .ok .pinf ∧
    normalizeAndCopy flD flL (Array.ofFn fun i => XR.fin (x i)) n out = .ok (Array.ofFn fun _ : Fin n => XR.fin 0, .pinf) ∧
    normalizeInPlace flD flL (Array.ofFn fun i => XR.fin (x i)) n = .ok (Array.ofFn fun _ : Fin n => XR.fin 0, .pinf) := by
  have hle := u.le
  have h1 : euclideanNorm flD flL (Array.ofFn fun i => XR.fin (x i)) n = .ok .pinf := by
    unfold euclideanNorm
    rw [chunked_inf hD hL hle (by have := hc.low; have := hc.high; omega) hj x hx]
    rfl
  have h2 : ∀ i, over flD (.fin (x i)) .pinf = .fin 0 := fun i => hD.zero hle
  obtain ⟨g1, g2⟩ := normalize_eq h1 ho
  simp only [h2] at g1 g2
  exact ⟨h1, g1, g2⟩

/-- **C100, negation.**  If all squares underflow, the norm is zero, and the elements other than zero of the normalised
vector are infinite, the others not a number. -/
theorem norm_underflow (hD : Format p emin emax flD) (hL : Format q emin' emax' flL) (u : Usual p emin emax)
    (hc : Contained p emin emax q emin' emax') {j : ℤ} (hj : 2 * j < emin - p) (x : Fin n → ℝ) (hx : ∀ i, |x i| ≤ 2 ^ j)
    (out : Array (XR ℝ)) (ho : out.size = n) :
    euclideanNorm flD flL (Array.ofFn fun i => XR.fin (x i)) n = .ok (.fin 0) ∧
    normalizeAndCopy flD flL (Array.ofFn fun i => XR.fin (x i)) n out =
      .ok (Array.ofFn fun i => XR.signedInf (x i), .fin 0) ∧
    normalizeInPlace flD flL (Array.ofFn fun i => XR.fin (x i)) n =
      .ok (Array.ofFn fun i => XR.signedInf (x i), .fin 0) := by
  have hle := u.le
  have h1 : euclideanNorm flD flL (Array.ofFn fun i => XR.fin (x i)) n = .ok (.fin 0) := by
    unfold euclideanNorm
    rw [chunked_zero hD hL hle (by have := hc.low; have := hc.high; omega) hj x hx]
    show Except.ok (rounded flD (XR.sqrt (flD 0))) = _
    rw [hD.zero hle]
    show Except.ok (rounded flD (if (0 : ℝ) < 0 then _ else _)) = _
    rw [if_neg (lt_irrefl _)]
    show Except.ok (flD (Real.sqrt 0)) = _
    rw [Real.sqrt_zero, hD.zero hle]
  have h2 : ∀ i, over flD (.fin (x i)) (.fin 0) = XR.signedInf (x i) := fun i => by
    show rounded flD (if (0 : ℝ) = 0 then _ else _) = _
    rw [if_pos rfl]
    unfold XR.signedInf
    split
    · rfl
    · split <;> rfl
  obtain ⟨g1, g2⟩ := normalize_eq h1 ho
  simp only [h2] at g1 g2
  exact ⟨h1, g1, g2⟩

/-! ## The Lanczos iteration -/

/-- The matrix `diag(d)` of size four, in the CSR format. -/
noncomputable def diagonalDot (flD flL : ℝ → XR ℝ) (d0 d1 d2 d3 : ℝ) (v r : Array (XR ℝ)) :
    Except Fault (Array (XR ℝ)) :=
  csrMatvec flD flL #[.fin d0, .fin d1, .fin d2, .fin d3] #[0, 1, 2, 3] #[0, 1, 2, 3, 4] v 4 r

private theorem chunked_four (a0 a1 a2 a3 b0 b1 b2 b3 : XR ℝ) :
    chunked flD flL #[a0, a1, a2, a3] #[b0, b1, b2, b3] 4 = .ok (plus flL (plus flL (plus flL (plus flL (.fin 0)
      (times flD a0 b0)) (times flD a1 b1)) (times flD a2 b2)) (times flD a3 b3)) := rfl

private theorem copy_four (a0 a1 a2 a3 o0 o1 o2 o3 s : XR ℝ) :
    copyScaledVector flD #[a0, a1, a2, a3] 4 s #[o0, o1, o2, o3] =
      .ok #[times flD s a0, times flD s a1, times flD s a2, times flD s a3] := rfl

private theorem subtract_four (a0 a1 a2 a3 o0 o1 o2 o3 : XR ℝ) {s : XR ℝ} (hs : s ≠ .fin 0) :
    subtractScaledVector flD #[a0, a1, a2, a3] 4 s #[o0, o1, o2, o3] =
      .ok #[minus flD o0 (times flD s a0), minus flD o1 (times flD s a1), minus flD o2 (times flD s a2),
        minus flD o3 (times flD s a3)] := by
  unfold subtractScaledVector
  rw [if_neg hs]
  rfl

private theorem dot_four (d0 d1 d2 d3 : ℝ) (a0 a1 a2 a3 o0 o1 o2 o3 : XR ℝ) :
    diagonalDot flD flL d0 d1 d2 d3 #[a0, a1, a2, a3] #[o0, o1, o2, o3] =
      .ok #[rounded flD (plus flL (.fin 0) (times flD (.fin d0) a0)), rounded flD (plus flL (.fin 0) (times flD (.fin d1) a1)),
        rounded flD (plus flL (.fin 0) (times flD (.fin d2) a2)), rounded flD (plus flL (.fin 0) (times flD (.fin d3) a3))] := rfl

private theorem times_exact {fl : ℝ → XR ℝ} (h : Format p emin emax fl) {x y z : ℝ} (hz : FiniteNumber p emin emax z)
    (e : x * y = z) : times fl (.fin x) (.fin y) = .fin z := by
  subst e; exact h.exact hz

private theorem plus_exact {fl : ℝ → XR ℝ} (h : Format p emin emax fl) {x y z : ℝ} (hz : FiniteNumber p emin emax z)
    (e : x + y = z) : plus fl (.fin x) (.fin y) = .fin z := by
  subst e; exact h.exact hz

private theorem minus_exact {fl : ℝ → XR ℝ} (h : Format p emin emax fl) {x y z : ℝ} (hz : FiniteNumber p emin emax z)
    (e : x - y = z) : minus fl (.fin x) (.fin y) = .fin z := by
  subst e
  rw [sub_eq_add_neg] at hz ⊢
  exact h.exact hz

private theorem rounded_exact {fl : ℝ → XR ℝ} (h : Format p emin emax fl) {z : ℝ} (hz : FiniteNumber p emin emax z) :
    rounded fl (.fin z) = .fin z := h.exact hz

/-- At least four bits, and the numbers from `1/2` to `4` are in the range. -/
structure Small (p : ℕ) (emin emax : ℤ) : Prop where
  bits : 4 ≤ p
  low : emin ≤ -1
  high : 3 ≤ emax

private theorem small_number (s : Small p emin emax) {i : ℕ} (hi : i ≤ 4) : FiniteNumber p emin emax (i : ℝ) := by
  have := finiteNumber_mul (p := p) (emin := emin) (emax := emax) (i := i) (q := 2) (j := 0) (by omega)
    (by have := s.bits; omega) (by have := s.low; omega) (by have := s.high; omega)
  simpa using this

private theorem half_number (s : Small p emin emax) : FiniteNumber p emin emax (1 / 2 : ℝ) := by
  have := finiteNumber_pow (p := p) (emin := emin) (emax := emax) (j := -1) (by have := s.bits; omega)
    (by have := s.low; omega) (by have := s.high; omega)
  rwa [zpow_neg_one, ← one_div] at this

/-- The norm of the start vector of ones is two. -/
private theorem start_norm (hD : Format p emin emax flD) (hL : Format q emin' emax' flL) (s : Small p emin emax)
    (s' : Small q emin' emax') : euclideanNorm flD flL #[.fin 1, .fin 1, .fin 1, .fin 1] 4 = .ok (.fin 2) := by
  have n1 := small_number s (i := 1) (by norm_num)
  have n2 := small_number s (i := 2) (by norm_num)
  have n4 := small_number s (i := 4) (by norm_num)
  have l1 := small_number s' (i := 1) (by norm_num)
  have l2 := small_number s' (i := 2) (by norm_num)
  have l3 := small_number s' (i := 3) (by norm_num)
  have l4 := small_number s' (i := 4) (by norm_num)
  push_cast at n1 n2 n4 l1 l2 l3 l4
  unfold euclideanNorm
  rw [chunked_four, times_exact hD n1 (one_mul 1), plus_exact hL l1 (by norm_num), plus_exact hL l2 (by norm_num),
    plus_exact hL l3 (by norm_num), plus_exact hL l4 (by norm_num)]
  simp only [Except.ok_bind']
  rw [rounded_exact hD n4]
  show Except.ok (rounded flD (if (4 : ℝ) < 0 then _ else _)) = _
  rw [if_neg (by norm_num)]
  show Except.ok (flD (Real.sqrt 4)) = _
  rw [show (4 : ℝ) = 2 ^ 2 by norm_num, Real.sqrt_sq (by norm_num), hD.exact n2]

/-- The first coefficient and the first residual vector for the matrix `2^(j+1) * diag(1, 1, 3, 3)`. -/
private theorem first_step (hD : Format p emin emax flD) (hL : Format q emin' emax' flL)
    (s : Small p emin emax) (s' : Small q emin' emax') {j : ℤ} (h1 : emin + 1 ≤ j) (h2 : j + 3 ≤ emax)
    (h1' : emin' + 1 ≤ j) (h2' : j + 3 ≤ emax') (o0 o1 o2 o3 : XR ℝ) :
    diagonalDot flD flL (2 ^ (j + 1)) (2 ^ (j + 1)) (3 * 2 ^ (j + 1)) (3 * 2 ^ (j + 1))
      #[.fin (1 / 2), .fin (1 / 2), .fin (1 / 2), .fin (1 / 2)] #[o0, o1, o2, o3] =
      .ok #[.fin (2 ^ j), .fin (2 ^ j), .fin (3 * 2 ^ j), .fin (3 * 2 ^ j)] ∧
    innerProduct flD flL #[.fin (1 / 2), .fin (1 / 2), .fin (1 / 2), .fin (1 / 2)]
      #[.fin (2 ^ j), .fin (2 ^ j), .fin (3 * 2 ^ j), .fin (3 * 2 ^ j)] 4 = .ok (.fin (2 ^ (j + 2))) ∧
    subtractScaledVector flD #[.fin (1 / 2), .fin (1 / 2), .fin (1 / 2), .fin (1 / 2)] 4 (.fin (2 ^ (j + 2)))
      #[.fin (2 ^ j), .fin (2 ^ j), .fin (3 * 2 ^ j), .fin (3 * 2 ^ j)] =
      .ok #[.fin (-2 ^ j), .fin (-2 ^ j), .fin (2 ^ j), .fin (2 ^ j)] := by
  have hp := s.bits
  have hq := s'.bits
  have e1 : (2 : ℝ) ^ (j + 1) = 2 * 2 ^ j := by rw [zpow_add_one₀ (by norm_num)]; ring
  have e2 : (2 : ℝ) ^ (j + 2) = 4 * 2 ^ j := by rw [zpow_add₀ (by norm_num)]; norm_num; ring
  have em : (2 : ℝ) ^ j = 2 * 2 ^ (j - 1) := by
    conv_lhs => rw [show j = (j - 1) + 1 by ring, zpow_add_one₀ (by norm_num)]
    ring
  have hN : ∀ i : ℕ, i ≤ 8 → FiniteNumber p emin emax ((i : ℝ) * 2 ^ (j - 1)) := fun i hi =>
    finiteNumber_mul (q := 3) (by omega) hp (by omega) (by omega)
  have hM : ∀ i : ℕ, i ≤ 8 → FiniteNumber q emin' emax' ((i : ℝ) * 2 ^ (j - 1)) := fun i hi =>
    finiteNumber_mul (q := 3) (by omega) hq (by omega) (by omega)
  have n1 := hN 1 (by norm_num)
  have n2 := hN 2 (by norm_num)
  have n3 := hN 3 (by norm_num)
  have n4 := hN 4 (by norm_num)
  have n6 := hN 6 (by norm_num)
  have n8 := hN 8 (by norm_num)
  have m1 := hM 1 (by norm_num)
  have m2 := hM 2 (by norm_num)
  have m5 := hM 5 (by norm_num)
  have m6 := hM 6 (by norm_num)
  have m8 := hM 8 (by norm_num)
  push_cast at n1 n2 n3 n4 n6 n8 m1 m2 m5 m6 m8
  rw [e1, e2, em]
  generalize (2 : ℝ) ^ (j - 1) = d at *
  refine ⟨?_, ?_, ?_⟩
  · rw [dot_four, times_exact hD n2 (by ring), times_exact hD n6 (by ring), plus_exact hL m2 (by ring),
      plus_exact hL m6 (by ring), rounded_exact hD n2, rounded_exact hD n6]
    simp only [← mul_assoc]
    norm_num
  · unfold innerProduct
    rw [chunked_four, times_exact hD n1 (by ring), times_exact hD n3 (by ring), plus_exact hL m1 (by ring),
      plus_exact hL m2 (by ring), plus_exact hL m5 (by ring), plus_exact hL m8 (by ring)]
    simp only [Except.ok_bind']
    rw [rounded_exact hD n8]
    simp only [← mul_assoc]
    norm_num
  · have hd : (4 : ℝ) * (2 * d) ≠ 0 := by
      rw [← em]
      exact mul_ne_zero (by norm_num) (two_zpow_pos j).ne'
    rw [subtract_four _ _ _ _ _ _ _ _ (by simpa using hd), times_exact hD n4 (by ring), minus_exact hD n2.neg (by ring),
      minus_exact hD n2 (by ring)]

/-- **C100, negation.**  The matrix `2^(j+1) * diag(1, 1, 3, 3)` and the start vector of ones, where the square of `2^j`
overflows: the tridiagonal matrix contains infinity. -/
theorem lanczos_overflow {e : ℕ} {emin'' emax'' : ℤ} (hD : Format p emin emax flD) (hE : Format e emin'' emax'' flE)
    (hL : Format q emin' emax' flL) (s : Small p emin emax) (s' : Small q emin' emax') (s'' : Small e emin'' emax'')
    (hc : Contained p emin emax q emin' emax') {j : ℤ} (hj : emax + 1 ≤ 2 * j) (hj2 : j + 3 ≤ emax) (bound : ℝ)
    (a0 a1 b0 b1 x0 x1 x2 x3 y0 y1 y2 y3 : XR ℝ) :
    lanczos flD flE flL (diagonalDot flD flL (2 ^ (j + 1)) (2 ^ (j + 1)) (3 * 2 ^ (j + 1)) (3 * 2 ^ (j + 1))) 4 2 bound
      #[#[x0, x1, x2, x3], #[y0, y1, y2, y3]] #[.fin 1, .fin 1, .fin 1, .fin 1] #[a0, a1] #[b0, b1] =
      .ok (2, #[.fin (2 ^ (j + 2)), .fin 0], #[.pinf, .pinf]) := by
  have hle : emin ≤ emax := by have := s.low; have := s.high; omega
  have hle' : emin' ≤ emax' := by have := s'.low; have := s'.high; omega
  have hle'' : emin'' ≤ emax'' := by have := s''.low; have := s''.high; omega
  have g1 := s.low
  have g2 := s.high
  have g3 := hc.low
  have g4 := hc.high
  have n2 := small_number s'' (i := 2) (by norm_num)
  have h := half_number s
  have h'' := half_number s''
  obtain ⟨f1, f2, f3⟩ := first_step hD hL s s' (j := j) (by omega) hj2 (by omega) (by omega) (.fin 1) (.fin 1) (.fin 1)
    (.fin 1)
  have hj0 := two_zpow_pos j
  have b : ∀ x : ℝ, |x| = 2 ^ j → times flD (.fin x) (.fin x) = .pinf := fun x hx => square_inf hD hj hx.ge
  -- the first residual
  have hbeta : euclideanNorm flD flL #[.fin (-2 ^ j), .fin (-2 ^ j), .fin (2 ^ j), .fin (2 ^ j)] 4 = .ok .pinf := by
    unfold euclideanNorm
    rw [chunked_four, b (-2 ^ j) (by rw [abs_neg, abs_of_pos hj0]), b (2 ^ j) (abs_of_pos hj0)]
    rfl
  have step0 : lanczosBody flD flE flL
      (diagonalDot flD flL (2 ^ (j + 1)) (2 ^ (j + 1)) (3 * 2 ^ (j + 1)) (3 * 2 ^ (j + 1))) 4 bound (.fin 2) 0
      ⟨#[#[x0, x1, x2, x3], #[y0, y1, y2, y3]], #[.fin 1, .fin 1, .fin 1, .fin 1], #[a0, a1], #[b0, b1], 0, false⟩ =
      .ok ⟨#[#[.fin (1 / 2), .fin (1 / 2), .fin (1 / 2), .fin (1 / 2)], #[y0, y1, y2, y3]],
        #[.fin (-2 ^ j), .fin (-2 ^ j), .fin (2 ^ j), .fin (2 ^ j)], #[.fin (2 ^ (j + 2)), a1], #[.pinf, b1], 1,
        false⟩ := by
    have hs : lanczosScale flD flE (.fin 2) 0 #[b0, b1] = .ok (.fin (1 / 2)) := by
      show Except.ok (rounded flD (rounded flE (if (2 : ℝ) = 0 then _ else _))) = _
      rw [if_neg (by norm_num), rounded_exact hE h'', rounded_exact hD h]
    have hcopy : copyScaledVector flD #[.fin 1, .fin 1, .fin 1, .fin 1] 4 (.fin (1 / 2)) #[x0, x1, x2, x3] =
        .ok #[.fin (1 / 2), .fin (1 / 2), .fin (1 / 2), .fin (1 / 2)] := by
      rw [copy_four, times_exact hD h (mul_one _)]
    unfold lanczosBody
    simp only
    rw [hs, Except.ok_bind', show rd #[#[x0, x1, x2, x3], #[y0, y1, y2, y3]] (0 % 2) = .ok #[x0, x1, x2, x3] from rfl,
      Except.ok_bind', hcopy, Except.ok_bind',
      show wr #[#[x0, x1, x2, x3], #[y0, y1, y2, y3]] (0 % 2) #[.fin (1 / 2), .fin (1 / 2), .fin (1 / 2), .fin (1 / 2)] =
        .ok #[#[.fin (1 / 2), .fin (1 / 2), .fin (1 / 2), .fin (1 / 2)], #[y0, y1, y2, y3]] from rfl,
      Except.ok_bind', f1, Except.ok_bind', f2, Except.ok_bind',
      show wr #[a0, a1] 0 (XR.fin ((2 : ℝ) ^ (j + 2))) = .ok #[.fin (2 ^ (j + 2)), a1] from rfl, Except.ok_bind', f3,
      Except.ok_bind']
    rw [show subtractPrevious flD 4 0 #[#[.fin (1 / 2), .fin (1 / 2), .fin (1 / 2), .fin (1 / 2)], #[y0, y1, y2, y3]]
      #[b0, b1] #[.fin (-2 ^ j), .fin (-2 ^ j), .fin (2 ^ j), .fin (2 ^ j)] =
      .ok #[.fin (-2 ^ j), .fin (-2 ^ j), .fin (2 ^ j), .fin (2 ^ j)] from rfl, Except.ok_bind', hbeta]
    rfl
  have z : ∀ x : ℝ, times flD (.fin 0) (.fin x) = .fin 0 := fun x =>
    times_exact hD (finiteNumber_zero hle) (zero_mul x)
  have z' : ∀ x : ℝ, times flD (.fin x) (.fin 0) = .fin 0 := fun x =>
    times_exact hD (finiteNumber_zero hle) (mul_zero x)
  have step1 : lanczosBody flD flE flL
      (diagonalDot flD flL (2 ^ (j + 1)) (2 ^ (j + 1)) (3 * 2 ^ (j + 1)) (3 * 2 ^ (j + 1))) 4 bound (.fin 2) 1
      ⟨#[#[.fin (1 / 2), .fin (1 / 2), .fin (1 / 2), .fin (1 / 2)], #[y0, y1, y2, y3]],
        #[.fin (-2 ^ j), .fin (-2 ^ j), .fin (2 ^ j), .fin (2 ^ j)], #[.fin (2 ^ (j + 2)), a1], #[.pinf, b1], 1,
        false⟩ =
      .ok ⟨#[#[.fin (1 / 2), .fin (1 / 2), .fin (1 / 2), .fin (1 / 2)], #[.fin 0, .fin 0, .fin 0, .fin 0]],
        #[.ninf, .ninf, .ninf, .ninf], #[.fin (2 ^ (j + 2)), .fin 0], #[.pinf, .pinf], 2, false⟩ := by
    have hs : lanczosScale flD flE (.fin 2) 1 #[.pinf, b1] = .ok (.fin 0) := by
      show Except.ok (rounded flD (flE 0)) = _
      rw [hE.zero hle'', rounded_exact hD (finiteNumber_zero hle)]
    have hcopy : copyScaledVector flD #[.fin (-2 ^ j), .fin (-2 ^ j), .fin (2 ^ j), .fin (2 ^ j)] 4 (.fin 0)
        #[y0, y1, y2, y3] = .ok #[.fin 0, .fin 0, .fin 0, .fin 0] := by
      rw [copy_four, z, z]
    have hdot : diagonalDot flD flL (2 ^ (j + 1)) (2 ^ (j + 1)) (3 * 2 ^ (j + 1)) (3 * 2 ^ (j + 1))
        #[.fin 0, .fin 0, .fin 0, .fin 0] #[.fin (-2 ^ j), .fin (-2 ^ j), .fin (2 ^ j), .fin (2 ^ j)] =
        .ok #[.fin 0, .fin 0, .fin 0, .fin 0] := by
      rw [dot_four, z', z', plus_zero hL hle', rounded_exact hD (finiteNumber_zero hle)]
    have hin : innerProduct flD flL #[.fin 0, .fin 0, .fin 0, .fin 0] #[.fin 0, .fin 0, .fin 0, .fin 0] 4 = .ok (.fin 0) := by
      unfold innerProduct
      rw [chunked_four, z, plus_zero hL hle', plus_zero hL hle', plus_zero hL hle', plus_zero hL hle']
      simp only [Except.ok_bind']
      rw [rounded_exact hD (finiteNumber_zero hle)]
    have hsub : subtractScaledVector flD #[.fin 0, .fin 0, .fin 0, .fin 0] 4 (.fin 0) #[.fin 0, .fin 0, .fin 0, .fin 0] =
        .ok #[.fin 0, .fin 0, .fin 0, .fin 0] := by
      unfold subtractScaledVector
      rw [if_pos rfl]
    have hprev : subtractPrevious flD 4 1
        #[#[.fin (1 / 2), .fin (1 / 2), .fin (1 / 2), .fin (1 / 2)], #[.fin 0, .fin 0, .fin 0, .fin 0]]
        #[.pinf, b1] #[.fin 0, .fin 0, .fin 0, .fin 0] = .ok #[.ninf, .ninf, .ninf, .ninf] := by
      unfold subtractPrevious
      have r0 : ∀ a b : Array (XR ℝ), rd #[a, b] ((1 - 1) % 2) = .ok a := fun _ _ => rfl
      rw [if_pos (by norm_num), r0, Except.ok_bind', show rd #[XR.pinf, b1] (1 - 1) = .ok XR.pinf from rfl, Except.ok_bind', subtract_four _ _ _ _ _ _ _ _ (by simp)]
      have : times flD .pinf (.fin (1 / 2)) = .pinf := by
        show rounded flD (if (0 : ℝ) < 1 / 2 then _ else _) = _
        rw [if_pos (by norm_num)]
        rfl
      rw [this]
      rfl
    unfold lanczosBody
    simp only
    rw [hs, Except.ok_bind', show rd #[#[.fin (1 / 2), .fin (1 / 2), .fin (1 / 2), .fin (1 / 2)], #[y0, y1, y2, y3]]
        (1 % 2) = .ok #[y0, y1, y2, y3] from rfl,
      Except.ok_bind', hcopy, Except.ok_bind',
      show wr #[#[.fin (1 / 2), .fin (1 / 2), .fin (1 / 2), .fin (1 / 2)], #[y0, y1, y2, y3]] (1 % 2)
        #[.fin 0, .fin 0, .fin 0, .fin 0] =
        .ok #[#[.fin (1 / 2), .fin (1 / 2), .fin (1 / 2), .fin (1 / 2)], #[.fin 0, .fin 0, .fin 0, .fin 0]] from rfl,
      Except.ok_bind', hdot, Except.ok_bind', hin, Except.ok_bind',
      show wr #[.fin ((2 : ℝ) ^ (j + 2)), a1] 1 (XR.fin 0) = .ok #[.fin (2 ^ (j + 2)), .fin 0] from rfl, Except.ok_bind',
      hsub, Except.ok_bind', hprev]
    rfl
  unfold lanczos
  rw [start_norm hD hL s s', Except.ok_bind', show ∀ (body : Nat → LanczosState → Except Fault LanczosState) (t),
    forRange 0 2 body t = (do let t ← body 0 t; body 1 t) from fun body t => by
      simp only [forRange, loopN]
      cases body 0 t with
      | error => rfl
      | ok t' =>
        simp only [Except.ok_bind']
        cases body 1 t' <;> rfl]
  simp only [Bool.false_eq_true, if_false]
  rw [step0, Except.ok_bind']
  simp only [Bool.false_eq_true, if_false]
  rw [step1]
  rfl

/-- What the iteration computes for the matrix `2 c * diag(1, 1, 3, 3)` without rounding. -/
theorem lanczos_exact {c tol : ℝ} (hc : 0 < c) (ht : tol ≤ c) (x0 x1 x2 x3 y0 y1 y2 y3 r0 r1 r2 r3 a0 a1 b0 b1 : ℝ) :
    Rounded.lanczos id id id (fun v r => Rounded.csrMatvec id id #[2 * c, 2 * c, 6 * c, 6 * c] #[0, 1, 2, 3]
      #[0, 1, 2, 3, 4] v 4 r) 4 #[1, 1, 1, 1] 2 tol #[#[x0, x1, x2, x3], #[y0, y1, y2, y3]] #[r0, r1, r2, r3]
      #[a0, a1] #[b0, b1] = .ok (2, #[4 * c, 4 * c], #[2 * c, 0]) := by
  have chunk : ∀ a0 a1 a2 a3 b0 b1 b2 b3 r : ℝ, 0 + a0 * b0 + a1 * b1 + a2 * b2 + a3 * b3 = r →
      Rounded.innerProduct id id #[a0, a1, a2, a3] #[b0, b1, b2, b3] 4 = .ok r := fun _ _ _ _ _ _ _ _ _ h => by
    rw [← h]; rfl
  have norm : ∀ a0 a1 a2 a3 r : ℝ, 0 + a0 * a0 + a1 * a1 + a2 * a2 + a3 * a3 = r ^ 2 → 0 ≤ r →
      Rounded.euclideanNorm id id #[a0, a1, a2, a3] 4 = .ok r := fun _ _ _ _ r h h0 => by
    rw [← Real.sqrt_sq h0, ← h]; rfl
  have copy : ∀ a0 a1 a2 a3 o0 o1 o2 o3 s z0 z1 z2 z3 : ℝ, s * a0 = z0 → s * a1 = z1 → s * a2 = z2 → s * a3 = z3 →
      Rounded.copyScaledVector id #[a0, a1, a2, a3] 4 s #[o0, o1, o2, o3] = .ok #[z0, z1, z2, z3] := by
    rintro _ _ _ _ _ _ _ _ _ _ _ _ _ rfl rfl rfl rfl; rfl
  have sub : ∀ a0 a1 a2 a3 o0 o1 o2 o3 s z0 z1 z2 z3 : ℝ, s ≠ 0 → o0 - s * a0 = z0 → o1 - s * a1 = z1 →
      o2 - s * a2 = z2 → o3 - s * a3 = z3 →
      Rounded.subtractScaledVector id #[a0, a1, a2, a3] 4 s #[o0, o1, o2, o3] = .ok #[z0, z1, z2, z3] := by
    rintro _ _ _ _ _ _ _ _ _ _ _ _ _ hs rfl rfl rfl rfl
    unfold Rounded.subtractScaledVector
    rw [if_neg hs]
    rfl
  have dot : ∀ a0 a1 a2 a3 o0 o1 o2 o3 z0 z1 z2 z3 : ℝ, 0 + 2 * c * a0 = z0 → 0 + 2 * c * a1 = z1 →
      0 + 6 * c * a2 = z2 → 0 + 6 * c * a3 = z3 → Rounded.csrMatvec id id #[2 * c, 2 * c, 6 * c, 6 * c] #[0, 1, 2, 3]
      #[0, 1, 2, 3, 4] #[a0, a1, a2, a3] 4 #[o0, o1, o2, o3] = .ok #[z0, z1, z2, z3] := by
    rintro _ _ _ _ _ _ _ _ _ _ _ _ rfl rfl rfl rfl; rfl
  have hcopy : Rounded.copyVector #[1, 1, 1, 1] 4 #[r0, r1, r2, r3] = .ok #[1, 1, 1, 1] := rfl
  have hstart : Rounded.euclideanNorm id id #[1, 1, 1, 1] 4 = .ok 2 := norm _ _ _ _ _ (by norm_num) (by norm_num)
  have bound : id (tol * id (Real.sqrt (4 : ℕ))) ≤ 2 * c := by
    have e : Real.sqrt (4 : ℕ) = 2 := by
      rw [show ((4 : ℕ) : ℝ) = 2 ^ 2 by norm_num, Real.sqrt_sq (by norm_num)]
    show tol * Real.sqrt (4 : ℕ) ≤ _
    rw [e]
    linarith
  have step0 : Rounded.lanczosBody id id id (fun v r => Rounded.csrMatvec id id #[2 * c, 2 * c, 6 * c, 6 * c] #[0, 1, 2, 3]
      #[0, 1, 2, 3, 4] v 4 r) 4 tol 2 0
      ⟨#[#[x0, x1, x2, x3], #[y0, y1, y2, y3]], #[1, 1, 1, 1], #[a0, a1], #[b0, b1], 0, false⟩ =
      .ok ⟨#[#[1 / 2, 1 / 2, 1 / 2, 1 / 2], #[y0, y1, y2, y3]], #[-c, -c, c, c], #[4 * c, a1], #[2 * c, b1], 1,
        false⟩ := by
    have hs : Rounded.lanczosScale id id 2 0 #[b0, b1] = .ok (1 / 2) := by
      unfold Rounded.lanczosScale Rounded.reciprocal
      rw [if_pos rfl, if_neg (by norm_num)]
      rfl
    have hrd : ∀ a b : Array ℝ, rd #[a, b] (0 % 2) = .ok a := fun _ _ => rfl
    have hwr : ∀ a b x : Array ℝ, wr #[a, b] (0 % 2) x = .ok #[x, b] := fun _ _ _ => rfl
    have hwr' : ∀ a b x : ℝ, wr #[a, b] 0 x = .ok #[x, b] := fun _ _ _ => rfl
    unfold Rounded.lanczosBody
    simp only
    rw [hs, Except.ok_bind', hrd, Except.ok_bind', copy _ _ _ _ _ _ _ _ _ (1 / 2) (1 / 2) (1 / 2) (1 / 2) (by norm_num)
      (by norm_num) (by norm_num) (by norm_num), Except.ok_bind', hwr, Except.ok_bind',
      dot _ _ _ _ _ _ _ _ c c (3 * c) (3 * c) (by ring) (by ring) (by ring) (by ring), Except.ok_bind',
      chunk _ _ _ _ _ _ _ _ (4 * c) (by ring), Except.ok_bind', hwr', Except.ok_bind',
      sub _ _ _ _ _ _ _ _ _ (-c) (-c) c c (by positivity) (by ring) (by ring) (by ring) (by ring), Except.ok_bind']
    unfold Rounded.subtractPrevious
    rw [if_neg (by norm_num), Except.ok_bind', norm _ _ _ _ (2 * c) (by ring) (by positivity), Except.ok_bind', hwr',
      Except.ok_bind', decide_eq_false (not_lt.2 bound)]
  have step1 : Rounded.lanczosBody id id id (fun v r => Rounded.csrMatvec id id #[2 * c, 2 * c, 6 * c, 6 * c] #[0, 1, 2, 3]
      #[0, 1, 2, 3, 4] v 4 r) 4 tol 2 1
      ⟨#[#[1 / 2, 1 / 2, 1 / 2, 1 / 2], #[y0, y1, y2, y3]], #[-c, -c, c, c], #[4 * c, a1], #[2 * c, b1], 1, false⟩ =
      .ok ⟨#[#[1 / 2, 1 / 2, 1 / 2, 1 / 2], #[-(1 / 2), -(1 / 2), 1 / 2, 1 / 2]], #[0, 0, 0, 0], #[4 * c, 4 * c],
        #[2 * c, 0], 2, decide (0 < id (tol * id (Real.sqrt (4 : ℕ))))⟩ := by
    have hs : Rounded.lanczosScale id id 2 1 #[2 * c, b1] = .ok (1 / (2 * c)) := by
      unfold Rounded.lanczosScale
      rw [if_neg (by norm_num), show rd #[2 * c, b1] (1 - 1) = .ok (2 * c) from rfl, Except.ok_bind']
      unfold Rounded.reciprocal
      rw [if_neg (by positivity)]
      rfl
    have hrd : ∀ a b : Array ℝ, rd #[a, b] (1 % 2) = .ok b := fun _ _ => rfl
    have hrd0 : ∀ a b : Array ℝ, rd #[a, b] ((1 - 1) % 2) = .ok a := fun _ _ => rfl
    have hrd' : ∀ a b : ℝ, rd #[a, b] (1 - 1) = .ok a := fun _ _ => rfl
    have hwr : ∀ a b x : Array ℝ, wr #[a, b] (1 % 2) x = .ok #[a, x] := fun _ _ _ => rfl
    have hwr' : ∀ a b x : ℝ, wr #[a, b] 1 x = .ok #[a, x] := fun _ _ _ => rfl
    have hne := hc.ne'
    unfold Rounded.lanczosBody
    simp only
    rw [hs, Except.ok_bind', hrd, Except.ok_bind', copy _ _ _ _ _ _ _ _ _ (-(1 / 2)) (-(1 / 2)) (1 / 2) (1 / 2)
      (by field_simp) (by field_simp) (by field_simp) (by field_simp), Except.ok_bind', hwr, Except.ok_bind',
      dot _ _ _ _ _ _ _ _ (-c) (-c) (3 * c) (3 * c) (by ring) (by ring) (by ring) (by ring), Except.ok_bind',
      chunk _ _ _ _ _ _ _ _ (4 * c) (by ring), Except.ok_bind', hwr', Except.ok_bind',
      sub _ _ _ _ _ _ _ _ _ c c c c (by positivity) (by ring) (by ring) (by ring) (by ring), Except.ok_bind']
    unfold Rounded.subtractPrevious
    rw [if_pos (by norm_num), hrd0, Except.ok_bind', hrd', Except.ok_bind',
      sub _ _ _ _ _ _ _ _ _ 0 0 0 0 (by positivity) (by ring) (by ring) (by ring) (by ring), Except.ok_bind',
      norm _ _ _ _ 0 (by ring) le_rfl, Except.ok_bind', hwr', Except.ok_bind']
  unfold Rounded.lanczos
  rw [hcopy, Except.ok_bind', hstart, Except.ok_bind',
    show ∀ (body : Nat → Rounded.LanczosState → Except Fault Rounded.LanczosState) (t),
    forRange 0 2 body t = (do let t ← body 0 t; body 1 t) from fun body t => by
      simp only [forRange, loopN]
      cases body 0 t with
      | error => rfl
      | ok t' =>
        simp only [Except.ok_bind']
        cases body 1 t' <;> rfl]
  simp only [Bool.false_eq_true, if_false]
  rw [step0, Except.ok_bind']
  simp only [Bool.false_eq_true, if_false]
  rw [step1]
  rfl

/-- **C100, negation.**  The same matrix where the square of `2^j` underflows, with `lanczos_tol=0`: the coefficients of
the second step are infinite and not a number. -/
theorem lanczos_underflow {e : ℕ} {emin'' emax'' : ℤ} (hD : Format p emin emax flD) (hE : Format e emin'' emax'' flE)
    (hL : Format q emin' emax' flL) (s : Small p emin emax) (s' : Small q emin' emax') (s'' : Small e emin'' emax'')
    (hc : Contained p emin emax q emin' emax') {j : ℤ} (hj : 2 * j < emin - p) (hj2 : emin + 1 ≤ j)
    (a0 a1 b0 b1 x0 x1 x2 x3 y0 y1 y2 y3 : XR ℝ) :
    lanczos flD flE flL (diagonalDot flD flL (2 ^ (j + 1)) (2 ^ (j + 1)) (3 * 2 ^ (j + 1)) (3 * 2 ^ (j + 1))) 4 2 0
      #[#[x0, x1, x2, x3], #[y0, y1, y2, y3]] #[.fin 1, .fin 1, .fin 1, .fin 1] #[a0, a1] #[b0, b1] =
      .ok (2, #[.fin (2 ^ (j + 2)), .pinf], #[.fin 0, .nan]) := by
  have hle : emin ≤ emax := by have := s.low; have := s.high; omega
  have hle' : emin' ≤ emax' := by have := s'.low; have := s'.high; omega
  have g1 := s.low
  have g2 := s.high
  have g3 := hc.low
  have g4 := hc.high
  have h := half_number s
  have h'' := half_number s''
  obtain ⟨f1, f2, f3⟩ := first_step hD hL s s' (j := j) (by omega) (by omega) (by omega) (by omega) (.fin 1) (.fin 1)
    (.fin 1) (.fin 1)
  have hj0 := two_zpow_pos j
  have hj1 := two_zpow_pos (j + 1)
  have b : ∀ x : ℝ, |x| = 2 ^ j → times flD (.fin x) (.fin x) = .fin 0 := fun x hx => square_zero hD hle hj hx.le
  have hbeta : euclideanNorm flD flL #[.fin (-2 ^ j), .fin (-2 ^ j), .fin (2 ^ j), .fin (2 ^ j)] 4 = .ok (.fin 0) := by
    unfold euclideanNorm
    rw [chunked_four, b (-2 ^ j) (by rw [abs_neg, abs_of_pos hj0]), b (2 ^ j) (abs_of_pos hj0), plus_zero hL hle',
      plus_zero hL hle', plus_zero hL hle', plus_zero hL hle']
    simp only [Except.ok_bind']
    rw [rounded_exact hD (finiteNumber_zero hle)]
    show Except.ok (rounded flD (if (0 : ℝ) < 0 then _ else _)) = _
    rw [if_neg (lt_irrefl _)]
    show Except.ok (flD (Real.sqrt 0)) = _
    rw [Real.sqrt_zero, hD.zero hle]
  have step0 : lanczosBody flD flE flL
      (diagonalDot flD flL (2 ^ (j + 1)) (2 ^ (j + 1)) (3 * 2 ^ (j + 1)) (3 * 2 ^ (j + 1))) 4 0 (.fin 2) 0
      ⟨#[#[x0, x1, x2, x3], #[y0, y1, y2, y3]], #[.fin 1, .fin 1, .fin 1, .fin 1], #[a0, a1], #[b0, b1], 0, false⟩ =
      .ok ⟨#[#[.fin (1 / 2), .fin (1 / 2), .fin (1 / 2), .fin (1 / 2)], #[y0, y1, y2, y3]],
        #[.fin (-2 ^ j), .fin (-2 ^ j), .fin (2 ^ j), .fin (2 ^ j)], #[.fin (2 ^ (j + 2)), a1], #[.fin 0, b1], 1,
        false⟩ := by
    have hs : lanczosScale flD flE (.fin 2) 0 #[b0, b1] = .ok (.fin (1 / 2)) := by
      show Except.ok (rounded flD (rounded flE (if (2 : ℝ) = 0 then _ else _))) = _
      rw [if_neg (by norm_num), rounded_exact hE h'', rounded_exact hD h]
    have hcopy : copyScaledVector flD #[.fin 1, .fin 1, .fin 1, .fin 1] 4 (.fin (1 / 2)) #[x0, x1, x2, x3] =
        .ok #[.fin (1 / 2), .fin (1 / 2), .fin (1 / 2), .fin (1 / 2)] := by
      rw [copy_four, times_exact hD h (mul_one _)]
    have hrd : ∀ a b : Array (XR ℝ), rd #[a, b] (0 % 2) = .ok a := fun _ _ => rfl
    have hwr : ∀ a b x : Array (XR ℝ), wr #[a, b] (0 % 2) x = .ok #[x, b] := fun _ _ _ => rfl
    have hwr' : ∀ a b x : XR ℝ, wr #[a, b] 0 x = .ok #[x, b] := fun _ _ _ => rfl
    have hprev : ∀ V β r, subtractPrevious flD 4 0 V β r = .ok r := fun _ _ _ => rfl
    unfold lanczosBody
    simp only
    rw [hs, Except.ok_bind', hrd, Except.ok_bind', hcopy, Except.ok_bind', hwr, Except.ok_bind', f1, Except.ok_bind', f2,
      Except.ok_bind', hwr', Except.ok_bind', f3, Except.ok_bind', hprev, Except.ok_bind', hbeta, Except.ok_bind', hwr',
      Except.ok_bind', show XR.lt (.fin (0 : ℝ)) (.fin 0) = false from decide_eq_false (lt_irrefl _)]
  have pos : ∀ x : ℝ, 0 < x → XR.signedInf x = .pinf := fun x hx => if_pos hx
  have neg : ∀ x : ℝ, x < 0 → XR.signedInf x = .ninf := fun x hx => by
    unfold XR.signedInf
    rw [if_neg (not_lt.2 hx.le), if_pos hx]
  have step1 : lanczosBody flD flE flL
      (diagonalDot flD flL (2 ^ (j + 1)) (2 ^ (j + 1)) (3 * 2 ^ (j + 1)) (3 * 2 ^ (j + 1))) 4 0 (.fin 2) 1
      ⟨#[#[.fin (1 / 2), .fin (1 / 2), .fin (1 / 2), .fin (1 / 2)], #[y0, y1, y2, y3]],
        #[.fin (-2 ^ j), .fin (-2 ^ j), .fin (2 ^ j), .fin (2 ^ j)], #[.fin (2 ^ (j + 2)), a1], #[.fin 0, b1], 1,
        false⟩ =
      .ok ⟨#[#[.fin (1 / 2), .fin (1 / 2), .fin (1 / 2), .fin (1 / 2)], #[.ninf, .ninf, .pinf, .pinf]],
        #[.nan, .nan, .nan, .nan], #[.fin (2 ^ (j + 2)), .pinf], #[.fin 0, .nan], 2, false⟩ := by
    have hs : lanczosScale flD flE (.fin 2) 1 #[.fin 0, b1] = .ok .pinf := by
      show Except.ok (rounded flD (rounded flE (if (0 : ℝ) = 0 then _ else _))) = _
      rw [if_pos rfl, pos 1 one_pos]
      rfl
    have hcopy : copyScaledVector flD #[.fin (-2 ^ j), .fin (-2 ^ j), .fin (2 ^ j), .fin (2 ^ j)] 4 .pinf
        #[y0, y1, y2, y3] = .ok #[.ninf, .ninf, .pinf, .pinf] := by
      have e1 : times flD .pinf (.fin (-2 ^ j)) = .ninf := by
        show rounded flD (XR.signedInf (-2 ^ j)) = _
        rw [neg _ (by linarith)]
        rfl
      have e2 : times flD .pinf (.fin (2 ^ j)) = .pinf := by
        show rounded flD (XR.signedInf (2 ^ j)) = _
        rw [pos _ hj0]
        rfl
      rw [copy_four, e1, e2]
    have hdot : diagonalDot flD flL (2 ^ (j + 1)) (2 ^ (j + 1)) (3 * 2 ^ (j + 1)) (3 * 2 ^ (j + 1))
        #[.ninf, .ninf, .pinf, .pinf] #[.fin (-2 ^ j), .fin (-2 ^ j), .fin (2 ^ j), .fin (2 ^ j)] =
        .ok #[.ninf, .ninf, .pinf, .pinf] := by
      have e1 : times flD (.fin (2 ^ (j + 1))) .ninf = .ninf := by
        show rounded flD (XR.signedInf (-2 ^ (j + 1))) = _
        rw [neg _ (by linarith)]
        rfl
      have e2 : times flD (.fin (3 * 2 ^ (j + 1))) .pinf = .pinf := by
        show rounded flD (XR.signedInf (3 * 2 ^ (j + 1))) = _
        rw [pos _ (by linarith)]
        rfl
      rw [dot_four, e1, e2]
      rfl
    have hsub : subtractScaledVector flD #[.ninf, .ninf, .pinf, .pinf] 4 .pinf #[.ninf, .ninf, .pinf, .pinf] =
        .ok #[.nan, .nan, .nan, .nan] := by
      rw [subtract_four _ _ _ _ _ _ _ _ (by simp)]
      rfl
    have hprev : subtractPrevious flD 4 1
        #[#[.fin (1 / 2), .fin (1 / 2), .fin (1 / 2), .fin (1 / 2)], #[.ninf, .ninf, .pinf, .pinf]]
        #[.fin 0, b1] #[.nan, .nan, .nan, .nan] = .ok #[.nan, .nan, .nan, .nan] := by
      unfold subtractPrevious
      have r0 : ∀ a b : Array (XR ℝ), rd #[a, b] ((1 - 1) % 2) = .ok a := fun _ _ => rfl
      rw [if_pos (by norm_num), r0, Except.ok_bind', show rd #[XR.fin 0, b1] (1 - 1) = .ok (XR.fin 0) from rfl,
        Except.ok_bind']
      unfold subtractScaledVector
      rw [if_pos rfl]
    have hin : innerProduct flD flL #[.ninf, .ninf, .pinf, .pinf] #[.ninf, .ninf, .pinf, .pinf] 4 = .ok .pinf := rfl
    have hnan : euclideanNorm flD flL #[.nan, .nan, .nan, .nan] 4 = .ok .nan := rfl
    have hrd : ∀ a b : Array (XR ℝ), rd #[a, b] (1 % 2) = .ok b := fun _ _ => rfl
    have hwr : ∀ a b x : Array (XR ℝ), wr #[a, b] (1 % 2) x = .ok #[a, x] := fun _ _ _ => rfl
    have hwr' : ∀ a b x : XR ℝ, wr #[a, b] 1 x = .ok #[a, x] := fun _ _ _ => rfl
    unfold lanczosBody
    simp only
    rw [hs, Except.ok_bind', hrd, Except.ok_bind', hcopy, Except.ok_bind', hwr, Except.ok_bind', hdot, Except.ok_bind', hin,
      Except.ok_bind', hwr', Except.ok_bind', hsub, Except.ok_bind', hprev, Except.ok_bind', hnan, Except.ok_bind', hwr',
      Except.ok_bind']
    rfl
  unfold lanczos
  rw [start_norm hD hL s s', Except.ok_bind', show ∀ (body : Nat → LanczosState → Except Fault LanczosState) (t),
    forRange 0 2 body t = (do let t ← body 0 t; body 1 t) from fun body t => by
      simp only [forRange, loopN]
      cases body 0 t with
      | error => rfl
      | ok t' =>
        simp only [Except.ok_bind']
        cases body 1 t' <;> rfl]
  simp only [Bool.false_eq_true, if_false]
  rw [step0, Except.ok_bind']
  simp only [Bool.false_eq_true, if_false]
  rw [step1]
  rfl

/-! ## `float` and `double` -/

/-- The extended format of x86: 64 bits, exponents from -16382 to 16383. -/
def ExtendedFormat (fl : ℝ → XR ℝ) : Prop := Format 64 (-16382) 16383 fl

theorem single_contained : Contained 24 (-126) 127 64 (-16382) 16383 := ⟨by norm_num, by norm_num, by norm_num⟩

theorem double_contained : Contained 53 (-1022) 1023 64 (-16382) 16383 := ⟨by norm_num, by norm_num, by norm_num⟩

/-- In `float` the norm of a vector with an element from `2^64` on, about `1.8e19`, is infinite; the largest number of the
format is about `3.4e38`. -/
theorem single_overflow (hD : SingleFormat flD) (hL : ExtendedFormat flL) (x : Fin n → ℝ) (hx : ∃ i, 2 ^ (64 : ℤ) ≤ |x i|) :
    euclideanNorm flD flL (Array.ofFn fun i => XR.fin (x i)) n = .ok .pinf :=
  (norm_overflow hD hL ⟨by norm_num, by norm_num, by norm_num⟩ single_contained (by norm_num) x hx (Array.ofFn fun _ : Fin n => .nan)
    (by simp)).1

/-- In `float` the norm of a vector with elements up to `2^-76`, about `1.3e-23`, is zero; the smallest normal number of the
format is about `1.2e-38`. -/
theorem single_underflow (hD : SingleFormat flD) (hL : ExtendedFormat flL) (x : Fin n → ℝ)
    (hx : ∀ i, |x i| ≤ 2 ^ (-76 : ℤ)) : euclideanNorm flD flL (Array.ofFn fun i => XR.fin (x i)) n = .ok (.fin 0) :=
  (norm_underflow hD hL ⟨by norm_num, by norm_num, by norm_num⟩ single_contained (by norm_num) x hx
    (Array.ofFn fun _ : Fin n => .nan) (by simp)).1

/-- In `double` the bound is `2^512`, about `1.3e154`. -/
theorem double_overflow (hD : DoubleFormat flD) (hL : ExtendedFormat flL) (x : Fin n → ℝ) (hx : ∃ i, 2 ^ (512 : ℤ) ≤ |x i|) :
    euclideanNorm flD flL (Array.ofFn fun i => XR.fin (x i)) n = .ok .pinf :=
  (norm_overflow hD hL ⟨by norm_num, by norm_num, by norm_num⟩ double_contained (by norm_num) x hx (Array.ofFn fun _ : Fin n => .nan)
    (by simp)).1

/-- A matrix in `float` with elements of about `3.7e19` and `1.1e20`: the tridiagonal matrix is infinite. -/
theorem single_lanczos (hD : SingleFormat flD) (hE : DoubleFormat flE) (hL : ExtendedFormat flL) (bound : ℝ)
    (a0 a1 b0 b1 x0 x1 x2 x3 y0 y1 y2 y3 : XR ℝ) :
    lanczos flD flE flL (diagonalDot flD flL (2 ^ (65 : ℤ)) (2 ^ (65 : ℤ)) (3 * 2 ^ (65 : ℤ)) (3 * 2 ^ (65 : ℤ))) 4 2 bound
      #[#[x0, x1, x2, x3], #[y0, y1, y2, y3]] #[.fin 1, .fin 1, .fin 1, .fin 1] #[a0, a1] #[b0, b1] =
      .ok (2, #[.fin (2 ^ (66 : ℤ)), .fin 0], #[.pinf, .pinf]) :=
  lanczos_overflow (j := 64) hD hE hL ⟨by norm_num, by norm_num, by norm_num⟩ ⟨by norm_num, by norm_num, by norm_num⟩
    ⟨by norm_num, by norm_num, by norm_num⟩ single_contained (by norm_num) (by norm_num) bound a0 a1 b0 b1 x0 x1 x2 x3 y0 y1 y2 y3

/-! ## The hypotheses can be met -/

/-- The vector `(3, 4)` in `float`: the hypotheses of the theorems for vectors in the range. -/
example : ∃ flD flL : ℝ → XR ℝ, SingleFormat flD ∧ ExtendedFormat flL ∧
    (∀ i, |(![3, 4] : Fin 2 → ℝ) i| ≤ 2 ^ (2 : ℤ)) ∧
    (∀ i, (![3, 4] : Fin 2 → ℝ) i = 0 ∨ (2 : ℝ) ^ (-126 : ℤ) ≤ (![3, 4] : Fin 2 → ℝ) i ^ 2) ∧
    (∃ i, (![3, 4] : Fin 2 → ℝ) i ≠ 0) ∧
    (1 + unitRoundoff 24) ^ 7 * (1 + unitRoundoff 64) ^ 2 ≤ 3 / 2 ∧
    (3 : ℕ) + 1 ≤ 24 ∧ 5 ≤ 2 ^ 3 ∧ 2 ≤ 2 ^ 3 ∧ (-126 : ℤ) ≤ 2 * 2 + (3 : ℕ) ∧ 2 * 2 + ((3 : ℕ) : ℤ) ≤ 127 := by
  obtain ⟨flD, h1⟩ := format_exists 24 (emin := -126) (emax := 127) (by norm_num)
  obtain ⟨flL, h2⟩ := format_exists 64 (emin := -16382) (emax := 16383) (by norm_num)
  refine ⟨flD, flL, h1, h2, ?_, ?_, ⟨0, by simp⟩, ?_, by norm_num, by norm_num, by norm_num, by norm_num, by norm_num⟩
  · intro i
    fin_cases i <;> norm_num [zpow_ofNat]
  · intro i
    right
    have : (2 : ℝ) ^ (-126 : ℤ) ≤ 2 ^ (0 : ℤ) := two_zpow_le (by norm_num)
    rw [zpow_zero] at this
    fin_cases i <;> norm_num at this ⊢ <;> linarith
  · unfold unitRoundoff
    norm_num

end Imate.Props.RangedVector
