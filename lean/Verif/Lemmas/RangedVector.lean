import Verif.Model.RangedVector
import Verif.Lemmas.RangedAccurate
import Verif.Lemmas.Rounded
import Verif.Lemmas.Mem

/-! # Vector kernels with a finite range of numbers: lemmas -/

namespace Imate.RangedVector
open Imate.Spec Imate.RangedConvergence

variable {p q : ℕ} {emin emax emin' emax' : ℤ} {flD flL : ℝ → XR ℝ}

/-! ## Two loops side by side -/

theorem loopN_inv2 {σ τ : Type _} {step : Nat} {body : Nat → σ → Except Fault σ} {body' : Nat → τ → Except Fault τ}
    (Inv : Nat → σ → τ → Prop) :
    ∀ (n i : Nat) (s : σ) (t : τ), Inv 0 s t →
      (∀ k < n, ∀ s t, Inv k s t → ∃ s' t', body (i + k * step) s = .ok s' ∧ body' (i + k * step) t = .ok t' ∧
        Inv (k + 1) s' t') →
      ∃ s' t', loopN step body n i s = .ok s' ∧ loopN step body' n i t = .ok t' ∧ Inv n s' t' := by
  intro n
  induction n generalizing Inv with
  | zero => intro i s t h _; exact ⟨s, t, rfl, rfl, h⟩
  | succ n ih =>
    intro i s t h hb
    obtain ⟨s1, t1, h1, g1, hi1⟩ := hb 0 (by omega) s t h
    obtain ⟨s2, t2, h2, g2, hi2⟩ := ih (fun k s t => Inv (k + 1) s t) (i + step) s1 t1 hi1 (by
      intro k hk s t hs
      obtain ⟨s', t', h', g', hi'⟩ := hb (k + 1) (by omega) s t hs
      have e : i + step + k * step = i + (k + 1) * step := by ring
      rw [e]
      exact ⟨s', t', h', g', hi'⟩)
    refine ⟨s2, t2, ?_, ?_, hi2⟩
    · simp only [Nat.zero_mul, Nat.add_zero] at h1
      simp only [loopN, h1, Except.ok_bind', h2]
    · simp only [Nat.zero_mul, Nat.add_zero] at g1
      simp only [loopN, g1, Except.ok_bind', g2]

/-- The two loops of the kernels, with and without a finite range. -/
theorem chunked_sim {n : ℕ} (wD wL : ℝ → ℝ) (x y : Fin n → ℝ) (f g : ℕ → ℝ) (hf : ∀ i : Fin n, f i = x i)
    (hg : ∀ i : Fin n, g i = y i) (R : ℕ → XR ℝ → ℝ → Prop) (h0 : R 0 (.fin 0) 0)
    (h5 : ∀ i, i + 5 ≤ n → ∀ s t, R i s t → R (i + 5)
      (plus flL s (five flD (times flD (.fin (f i)) (.fin (g i))) (times flD (.fin (f (i+1))) (.fin (g (i+1))))
        (times flD (.fin (f (i+2))) (.fin (g (i+2)))) (times flD (.fin (f (i+3))) (.fin (g (i+3))))
        (times flD (.fin (f (i+4))) (.fin (g (i+4))))))
      (wL (t + Rounded.five wD (Rounded.times wD (f i) (g i)) (Rounded.times wD (f (i+1)) (g (i+1)))
        (Rounded.times wD (f (i+2)) (g (i+2))) (Rounded.times wD (f (i+3)) (g (i+3)))
        (Rounded.times wD (f (i+4)) (g (i+4))))))
    (h1 : ∀ i, i + 1 ≤ n → ∀ s t, R i s t → R (i + 1) (plus flL s (times flD (.fin (f i)) (.fin (g i))))
      (wL (t + Rounded.times wD (f i) (g i)))) :
    ∃ s t, chunked flD flL (Array.ofFn fun i => XR.fin (x i)) (Array.ofFn fun i => XR.fin (y i)) n = .ok s ∧
      Rounded.chunkedDot wD wL (rd (Array.ofFn x)) (rd (Array.ofFn y)) n = .ok t ∧ R n s t := by
  have rx : ∀ i < n, rd (Array.ofFn fun i => XR.fin (x i)) i = .ok (XR.fin (f i)) := fun i hi => by
    have := rd_ofFn (fun i => XR.fin (x i)) ⟨i, hi⟩
    rw [← hf ⟨i, hi⟩] at this
    exact this
  have ry : ∀ i < n, rd (Array.ofFn fun i => XR.fin (y i)) i = .ok (XR.fin (g i)) := fun i hi => by
    have := rd_ofFn (fun i => XR.fin (y i)) ⟨i, hi⟩
    rw [← hg ⟨i, hi⟩] at this
    exact this
  have rx' : ∀ i < n, rd (Array.ofFn x) i = .ok (f i) := fun i hi => by
    have := rd_ofFn x ⟨i, hi⟩
    rw [← hf ⟨i, hi⟩] at this
    exact this
  have ry' : ∀ i < n, rd (Array.ofFn y) i = .ok (g i) := fun i hi => by
    have := rd_ofFn y ⟨i, hi⟩
    rw [← hg ⟨i, hi⟩] at this
    exact this
  have hq : n - n % 5 = 5 * (n / 5) := by omega
  have hc : (5 * (n / 5) + 5 - 1) / 5 = n / 5 := by omega
  unfold chunked Rounded.chunkedDot
  simp only [hq]
  unfold forStep
  rw [hc]
  obtain ⟨s, t, e1, e2, e3⟩ := loopN_inv2 (step := 5)
    (body := fun i s => do
      Except.ok (plus flL s (five flD
        (times flD (← rd (Array.ofFn fun i => XR.fin (x i)) i) (← rd (Array.ofFn fun i => XR.fin (y i)) i))
        (times flD (← rd (Array.ofFn fun i => XR.fin (x i)) (i+1)) (← rd (Array.ofFn fun i => XR.fin (y i)) (i+1)))
        (times flD (← rd (Array.ofFn fun i => XR.fin (x i)) (i+2)) (← rd (Array.ofFn fun i => XR.fin (y i)) (i+2)))
        (times flD (← rd (Array.ofFn fun i => XR.fin (x i)) (i+3)) (← rd (Array.ofFn fun i => XR.fin (y i)) (i+3)))
        (times flD (← rd (Array.ofFn fun i => XR.fin (x i)) (i+4)) (← rd (Array.ofFn fun i => XR.fin (y i)) (i+4))))))
    (body' := fun j s => do
      Except.ok (wL (s + Rounded.five wD (Rounded.times wD (← rd (Array.ofFn x) j) (← rd (Array.ofFn y) j))
        (Rounded.times wD (← rd (Array.ofFn x) (j+1)) (← rd (Array.ofFn y) (j+1)))
        (Rounded.times wD (← rd (Array.ofFn x) (j+2)) (← rd (Array.ofFn y) (j+2)))
        (Rounded.times wD (← rd (Array.ofFn x) (j+3)) (← rd (Array.ofFn y) (j+3)))
        (Rounded.times wD (← rd (Array.ofFn x) (j+4)) (← rd (Array.ofFn y) (j+4))))))
    (fun k s t => R (5 * k) s t) (n / 5) 0 (.fin 0) 0 h0 (by
      intro k hk s t hs
      have e : 0 + k * 5 = 5 * k := by ring
      rw [e]
      have := h5 (5 * k) (by omega) s t hs
      refine ⟨_, _, ?_, ?_, this⟩
      · rw [rx _ (by omega), rx _ (by omega), rx _ (by omega), rx _ (by omega), rx _ (by omega),
          ry _ (by omega), ry _ (by omega), ry _ (by omega), ry _ (by omega), ry _ (by omega)]
        rfl
      · rw [rx' _ (by omega), rx' _ (by omega), rx' _ (by omega), rx' _ (by omega), rx' _ (by omega),
          ry' _ (by omega), ry' _ (by omega), ry' _ (by omega), ry' _ (by omega), ry' _ (by omega)]
        rfl)
  rw [e1, e2]
  simp only [Except.ok_bind']
  obtain ⟨s', t', e4, e5, e6⟩ := loopN_inv2 (step := 1)
    (body := fun i s => do
      Except.ok (plus flL s (times flD (← rd (Array.ofFn fun i => XR.fin (x i)) i)
        (← rd (Array.ofFn fun i => XR.fin (y i)) i))))
    (body' := fun j s => do
      Except.ok (wL (s + Rounded.times wD (← rd (Array.ofFn x) j) (← rd (Array.ofFn y) j))))
    (fun k s t => R (5 * (n / 5) + k) s t) (n - 5 * (n / 5)) (5 * (n / 5)) s t e3 (by
      intro k hk s t hs
      rw [Nat.mul_one]
      refine ⟨_, _, ?_, ?_, h1 (5 * (n / 5) + k) (by omega) s t hs⟩
      · rw [rx _ (by omega), ry _ (by omega)]
        rfl
      · rw [rx' _ (by omega), ry' _ (by omega)]
        rfl)
  refine ⟨s', t', e4, e5, ?_⟩
  rwa [show 5 * (n / 5) + (n - 5 * (n / 5)) = n by omega] at e6

/-- The loops of the kernels with an invariant. -/
theorem chunked_inv {n : ℕ} (x y : Fin n → ℝ) (R : ℕ → XR ℝ → Prop) (f g : ℕ → ℝ) (hf : ∀ i : Fin n, f i = x i)
    (hg : ∀ i : Fin n, g i = y i) (h0 : R 0 (.fin 0))
    (h5 : ∀ i, i + 5 ≤ n → ∀ s, R i s → R (i + 5)
      (plus flL s (five flD (times flD (.fin (f i)) (.fin (g i))) (times flD (.fin (f (i+1))) (.fin (g (i+1))))
        (times flD (.fin (f (i+2))) (.fin (g (i+2)))) (times flD (.fin (f (i+3))) (.fin (g (i+3))))
        (times flD (.fin (f (i+4))) (.fin (g (i+4)))))))
    (h1 : ∀ i, i + 1 ≤ n → ∀ s, R i s → R (i + 1) (plus flL s (times flD (.fin (f i)) (.fin (g i))))) :
    ∃ s, chunked flD flL (Array.ofFn fun i => XR.fin (x i)) (Array.ofFn fun i => XR.fin (y i)) n = .ok s ∧ R n s := by
  obtain ⟨s, t, e1, -, e3⟩ := chunked_sim (flD := flD) (flL := flL) id id x y f g hf hg (fun i s _ => R i s) h0
    (fun i hi s _ hs => h5 i hi s hs) (fun i hi s _ hs => h1 i hi s hs)
  exact ⟨s, e1, e3⟩

/-! ## Overflow -/

/-- Infinite, or a number that is not negative. -/
def NonNeg (a : XR ℝ) : Prop := a = .pinf ∨ ∃ y, 0 ≤ y ∧ a = .fin y

theorem rounded_nonneg {fl : ℝ → XR ℝ} (h : Format p emin emax fl) (he : emin ≤ emax) {a : XR ℝ} (ha : NonNeg a) :
    NonNeg (rounded fl a) := by
  rcases ha with rfl | ⟨x, hx, rfl⟩
  · exact Or.inl rfl
  · exact h.nonneg he hx

theorem plus_nonneg {fl : ℝ → XR ℝ} (h : Format p emin emax fl) (he : emin ≤ emax) {a b : XR ℝ} (ha : NonNeg a)
    (hb : NonNeg b) : NonNeg (plus fl a b) := by
  apply rounded_nonneg h he
  rcases ha with rfl | ⟨x, hx, rfl⟩ <;> rcases hb with rfl | ⟨y, hy, rfl⟩
  · exact Or.inl rfl
  · exact Or.inl rfl
  · exact Or.inl rfl
  · exact Or.inr ⟨x + y, add_nonneg hx hy, rfl⟩

theorem plus_inf_left {fl : ℝ → XR ℝ} {b : XR ℝ} (hb : NonNeg b) : plus fl .pinf b = .pinf := by
  rcases hb with rfl | ⟨y, hy, rfl⟩ <;> rfl

theorem plus_inf_right {fl : ℝ → XR ℝ} {a : XR ℝ} (ha : NonNeg a) : plus fl a .pinf = .pinf := by
  rcases ha with rfl | ⟨y, hy, rfl⟩ <;> rfl

theorem square_nonneg {fl : ℝ → XR ℝ} (h : Format p emin emax fl) (he : emin ≤ emax) (x : ℝ) :
    NonNeg (times fl (.fin x) (.fin x)) :=
  rounded_nonneg h he (Or.inr ⟨x * x, mul_self_nonneg x, rfl⟩)

theorem square_inf {fl : ℝ → XR ℝ} (h : Format p emin emax fl) {j : ℤ} (hj : emax + 1 ≤ 2 * j) {x : ℝ}
    (hx : 2 ^ j ≤ |x|) : times fl (.fin x) (.fin x) = .pinf := by
  apply h.big
  rw [← abs_mul_abs_self x]
  calc (2 : ℝ) ^ (emax + 1) ≤ 2 ^ (j + j) := two_zpow_le (by omega)
    _ = 2 ^ j * 2 ^ j := zpow_add₀ (by norm_num) _ _
    _ ≤ |x| * |x| := mul_le_mul hx hx (two_zpow_pos j).le (abs_nonneg x)

/-- The sum of squares with a square that overflows. -/
theorem chunked_inf {n : ℕ} (hD : Format p emin emax flD) (hL : Format q emin' emax' flL) (he : emin ≤ emax)
    (he' : emin' ≤ emax') {j : ℤ} (hj : emax + 1 ≤ 2 * j) (x : Fin n → ℝ) (hx : ∃ i, 2 ^ j ≤ |x i|) :
    chunked flD flL (Array.ofFn fun i => XR.fin (x i)) (Array.ofFn fun i => XR.fin (x i)) n = .ok .pinf := by
  have hf : ∀ i : Fin n, (fun i => if h : i < n then x ⟨i, h⟩ else 0) i.1 = x i := fun i => by simp [i.2]
  generalize (fun i => if h : i < n then x ⟨i, h⟩ else 0) = f at hf
  obtain ⟨s, e1, e2, e3⟩ := chunked_inv (flD := flD) (flL := flL) x x
    (fun i s => NonNeg s ∧ ((∃ t < i, 2 ^ j ≤ |f t|) → s = .pinf)) f f hf hf
    ⟨Or.inr ⟨0, le_refl _, rfl⟩, fun ⟨t, ht, _⟩ => by omega⟩
    (by
      rintro i - s ⟨h1, h2⟩
      have n0 := square_nonneg hD he (f i)
      have n1 := square_nonneg hD he (f (i+1))
      have n2 := square_nonneg hD he (f (i+2))
      have n3 := square_nonneg hD he (f (i+3))
      have n4 := square_nonneg hD he (f (i+4))
      have m1 := plus_nonneg hD he n0 n1
      have m2 := plus_nonneg hD he m1 n2
      have m3 := plus_nonneg hD he m2 n3
      have m4 := plus_nonneg hD he m3 n4
      refine ⟨plus_nonneg hL he' h1 m4, ?_⟩
      rintro ⟨t, ht, h3⟩
      unfold five
      have h4 := square_inf hD hj h3
      rcases Nat.lt_or_ge t i with c | c
      · rw [h2 ⟨t, c, h3⟩]
        exact plus_inf_left m4
      · obtain rfl | rfl | rfl | rfl | rfl : t = i ∨ t = i + 1 ∨ t = i + 2 ∨ t = i + 3 ∨ t = i + 4 := by omega
        · rw [h4, plus_inf_left n1, plus_inf_left n2, plus_inf_left n3, plus_inf_left n4, plus_inf_right h1]
        · rw [h4, plus_inf_right n0, plus_inf_left n2, plus_inf_left n3, plus_inf_left n4, plus_inf_right h1]
        · rw [h4, plus_inf_right m1, plus_inf_left n3, plus_inf_left n4, plus_inf_right h1]
        · rw [h4, plus_inf_right m2, plus_inf_left n4, plus_inf_right h1]
        · rw [h4, plus_inf_right m3, plus_inf_right h1])
    (by
      rintro i - s ⟨h1, h2⟩
      have n0 := square_nonneg hD he (f i)
      refine ⟨plus_nonneg hL he' h1 n0, ?_⟩
      rintro ⟨t, ht, h3⟩
      rcases Nat.lt_or_ge t i with c | c
      · rw [h2 ⟨t, c, h3⟩]
        exact plus_inf_left n0
      · obtain rfl : t = i := by omega
        rw [square_inf hD hj h3, plus_inf_right h1])
  obtain ⟨i, hi⟩ := hx
  rw [e1, e3 ⟨i, i.2, by rw [hf i]; exact hi⟩]

/-! ## Underflow -/

theorem square_zero {fl : ℝ → XR ℝ} (h : Format p emin emax fl) (he : emin ≤ emax) {j : ℤ} (hj : 2 * j < emin - p)
    {x : ℝ} (hx : |x| ≤ 2 ^ j) : times fl (.fin x) (.fin x) = .fin 0 := by
  apply h.tiny he
  rw [abs_mul]
  calc |x| * |x| ≤ 2 ^ j * 2 ^ j := mul_le_mul hx hx (abs_nonneg x) (two_zpow_pos j).le
    _ = 2 ^ (j + j) := (zpow_add₀ (by norm_num) _ _).symm
    _ < 2 ^ (emin - p) := two_zpow_lt (by omega)

theorem plus_zero {fl : ℝ → XR ℝ} (h : Format p emin emax fl) (he : emin ≤ emax) :
    plus fl (.fin 0) (.fin 0) = .fin 0 := by
  show fl (0 + 0) = _
  rw [add_zero, h.zero he]

/-- The sum of squares that all become zero. -/
theorem chunked_zero {n : ℕ} (hD : Format p emin emax flD) (hL : Format q emin' emax' flL) (he : emin ≤ emax)
    (he' : emin' ≤ emax') {j : ℤ} (hj : 2 * j < emin - p) (x : Fin n → ℝ) (hx : ∀ i, |x i| ≤ 2 ^ j) :
    chunked flD flL (Array.ofFn fun i => XR.fin (x i)) (Array.ofFn fun i => XR.fin (x i)) n = .ok (.fin 0) := by
  have hf : ∀ i : Fin n, (fun i => if h : i < n then x ⟨i, h⟩ else 0) i.1 = x i := fun i => by simp [i.2]
  generalize (fun i => if h : i < n then x ⟨i, h⟩ else 0) = f at hf
  have hx' : ∀ i < n, |f i| ≤ 2 ^ j := fun i hi => by
    have := hx ⟨i, hi⟩
    rwa [← hf ⟨i, hi⟩] at this
  obtain ⟨s, e1, e2⟩ := chunked_inv (flD := flD) (flL := flL) x x (fun i s => s = .fin 0) f f hf hf rfl
    (by
      rintro i hi s rfl
      unfold five
      rw [square_zero hD he hj (hx' _ (by omega)), square_zero hD he hj (hx' _ (by omega)),
        square_zero hD he hj (hx' _ (by omega)), square_zero hD he hj (hx' _ (by omega)),
        square_zero hD he hj (hx' _ (by omega)), plus_zero hD he, plus_zero hD he, plus_zero hD he, plus_zero hD he,
        plus_zero hL he'])
    (by
      rintro i hi s rfl
      rw [square_zero hD he hj (hx' _ (by omega)), plus_zero hL he'])
  rw [e1, e2]

/-! ## Vectors in the range -/

/-- A number that is not negative, not subnormal (or below `2^b`), and bounded by `i * 2^k`. -/
structure Nice (p : ℕ) (emin emax b k : ℤ) (i : ℕ) (x : ℝ) : Prop where
  nonneg : 0 ≤ x
  upper : x ≤ i * 2 ^ k
  number : FiniteNumber p emin emax x
  lower : x = 0 ∨ 2 ^ b ≤ x

variable {b k : ℤ} {c : ℕ}

theorem nice_round {fl : ℝ → XR ℝ} (h : Format p emin emax fl) (hp : 1 ≤ p) (hb : emin ≤ b) (hb2 : b ≤ emax) {i : ℕ}
    {x : ℝ} (hx0 : 0 ≤ x) (hx : x ≤ i * 2 ^ k) (hx2 : x = 0 ∨ 2 ^ b ≤ x) (hi : i ≤ 2 ^ c) (hc : c + 1 ≤ p)
    (h1 : emin ≤ k + c) (h2 : k + c ≤ emax) : fl x = .fin (wide p fl x) ∧ Nice p emin emax b k i (wide p fl x) := by
  have hle : emin ≤ emax := by omega
  have hr : FiniteNumber p emin emax (i * 2 ^ k) := finiteNumber_mul hi hc h1 h2
  have hpow : (i : ℝ) * 2 ^ k ≤ 2 ^ emax := by
    calc (i : ℝ) * 2 ^ k ≤ 2 ^ c * 2 ^ k := mul_le_mul_of_nonneg_right (by exact_mod_cast hi) (two_zpow_pos k).le
      _ = 2 ^ (k + c) := by rw [zpow_add₀ (by norm_num), zpow_natCast, mul_comm]
      _ ≤ 2 ^ emax := two_zpow_le h2
  have hg : Good p fl x := by
    rcases hx2 with rfl | hx2
    · exact good_zero h hle
    · refine good_normal h hp ?_ ?_ <;> rw [abs_of_nonneg hx0]
      · exact (two_zpow_le hb).trans hx2
      · exact hx.trans hpow
  have h3 := good_bound h hg hr (by rw [abs_of_nonneg hx0]; exact hx)
  refine ⟨wide_eq hg, good_nonneg h hle hg hx0, (le_abs_self _).trans h3.1, h3.2, ?_⟩
  rcases hx2 with rfl | hx2
  · exact Or.inl (wide_zero h hle)
  · exact Or.inr (good_lower h hg (finiteNumber_pow hp hb hb2) (two_zpow_pos _).le hx2)

theorem nice_add {fl : ℝ → XR ℝ} (h : Format p emin emax fl) (hp : 1 ≤ p) (hb : emin ≤ b) (hb2 : b ≤ emax) {i j : ℕ}
    {x y : ℝ} (hx : Nice p emin emax b k i x) (hy : Nice p emin emax b k j y) (hi : i + j ≤ 2 ^ c) (hc : c + 1 ≤ p)
    (h1 : emin ≤ k + c) (h2 : k + c ≤ emax) :
    plus fl (.fin x) (.fin y) = .fin (wide p fl (x + y)) ∧ Nice p emin emax b k (i + j) (wide p fl (x + y)) := by
  refine nice_round h hp hb hb2 (add_nonneg hx.nonneg hy.nonneg) ?_ ?_ hi hc h1 h2
  · push_cast
    have := hx.upper
    have := hy.upper
    linarith
  · have := two_zpow_pos b
    rcases hx.lower with e | e <;> rcases hy.lower with e' | e'
    · exact Or.inl (by linarith)
    all_goals
      right
      have := hx.nonneg
      have := hy.nonneg
      linarith

/-- A number of a format is a number of a format that contains it. -/
theorem Nice.widen {i : ℕ} {x : ℝ} (h : Nice p emin emax b k i x) (hp : 1 ≤ p) (hpq : p ≤ q) (hb : emin' ≤ b)
    (hi : i ≤ 2 ^ c) (h2 : k + c ≤ emax') (hle : emin' ≤ emax') : Nice q emin' emax' b k i x := by
  refine ⟨h.nonneg, h.upper, ?_, h.lower⟩
  rcases h.lower with rfl | h3
  · exact finiteNumber_zero hle
  · obtain ⟨m, e, g1, g2⟩ := finiteNumber_representable h.number
    refine representable_finite (by omega) ⟨m, e, lt_of_lt_of_le g1 (pow_le_pow_right₀ (by norm_num) hpq), g2⟩ ?_ ?_ <;>
      rw [abs_of_nonneg h.nonneg]
    · exact (two_zpow_le hb).trans h3
    · calc x ≤ i * 2 ^ k := h.upper
        _ ≤ 2 ^ c * 2 ^ k := mul_le_mul_of_nonneg_right (by exact_mod_cast hi) (two_zpow_pos k).le
        _ = 2 ^ (k + c) := by rw [zpow_add₀ (by norm_num), zpow_natCast, mul_comm]
        _ ≤ 2 ^ emax' := two_zpow_le h2

/-- The sum of squares is computed as without a range. -/
theorem chunked_nice {n : ℕ} (hD : Format p emin emax flD) (hL : Format q emin' emax' flL) (hp : 1 ≤ p) (hpq : p ≤ q)
    (hmin : emin' ≤ emin) (hmax : emax ≤ emax') (hle : emin ≤ emax) (hc : c + 1 ≤ p) (h1 : emin ≤ k + c)
    (h2 : k + c ≤ emax) (hn : n ≤ 2 ^ c) (h5 : 5 ≤ 2 ^ c) (x : Fin n → ℝ) (hx : ∀ i, x i * x i ≤ 2 ^ k)
    (hx2 : ∀ i, x i = 0 ∨ 2 ^ emin ≤ x i * x i) :
    ∃ s, chunked flD flL (Array.ofFn fun i => XR.fin (x i)) (Array.ofFn fun i => XR.fin (x i)) n = .ok (.fin s) ∧
      Rounded.chunkedDot (wide p flD) (wide q flL) (rd (Array.ofFn x)) (rd (Array.ofFn x)) n = .ok s ∧
      Nice q emin' emax' emin k n s := by
  have hf : ∀ i : Fin n, (fun i => if h : i < n then x ⟨i, h⟩ else 0) i.1 = x i := fun i => by simp [i.2]
  generalize (fun i => if h : i < n then x ⟨i, h⟩ else 0) = f at hf
  have one : (1 : ℕ) ≤ 2 ^ c := Nat.one_le_two_pow
  have sq : ∀ i < n, times flD (.fin (f i)) (.fin (f i)) = .fin (Rounded.times (wide p flD) (f i) (f i)) ∧
      Nice p emin emax emin k 1 (Rounded.times (wide p flD) (f i) (f i)) := by
    intro i hi
    rw [hf ⟨i, hi⟩]
    refine nice_round hD hp (le_refl _) hle (c := c) (mul_self_nonneg _) ?_ ?_ one hc h1 h2
    · simpa using hx ⟨i, hi⟩
    · exact (hx2 ⟨i, hi⟩).imp (fun e => by rw [e, mul_zero]) id
  obtain ⟨s, t, e1, e2, e3, e4⟩ := chunked_sim (flD := flD) (flL := flL) (wide p flD) (wide q flL) x x f f hf hf
    (fun i s t => s = .fin t ∧ Nice q emin' emax' emin k i t)
    ⟨rfl, le_refl _, by simp, finiteNumber_zero (by omega), Or.inl rfl⟩
    (by
      rintro i hi s t ⟨rfl, h3⟩
      obtain ⟨a0, b0⟩ := sq i (by omega)
      obtain ⟨a1, b1⟩ := sq (i + 1) (by omega)
      obtain ⟨a2, b2⟩ := sq (i + 2) (by omega)
      obtain ⟨a3, b3⟩ := sq (i + 3) (by omega)
      obtain ⟨a4, b4⟩ := sq (i + 4) (by omega)
      obtain ⟨c1, d1⟩ := nice_add hD hp (le_refl _) hle b0 b1 (by omega) hc h1 h2
      obtain ⟨c2, d2⟩ := nice_add hD hp (le_refl _) hle d1 b2 (by omega) hc h1 h2
      obtain ⟨c3, d3⟩ := nice_add hD hp (le_refl _) hle d2 b3 (by omega) hc h1 h2
      obtain ⟨c4, d4⟩ := nice_add hD hp (le_refl _) hle d3 b4 (by omega) hc h1 h2
      unfold five
      rw [a0, a1, a2, a3, a4, c1, c2, c3, c4]
      exact nice_add hL (by omega) hmin (by omega) h3
        (d4.widen hp hpq hmin (c := c) (by omega) (by omega) (by omega)) (c := c) (by omega) (by omega) (by omega)
        (by omega))
    (by
      rintro i hi s t ⟨rfl, h3⟩
      obtain ⟨a0, b0⟩ := sq i (by omega)
      rw [a0]
      exact nice_add hL (by omega) hmin (by omega) h3
        (b0.widen hp hpq hmin (c := c) (by omega) (by omega) (by omega)) (c := c) (by omega) (by omega) (by omega)
        (by omega))
  exact ⟨t, by rw [e1, e3], e2, e4⟩

/-- Every number up to the largest power of two has a relative or an absolute error. -/
theorem fmt_error {fl : ℝ → XR ℝ} (h : Format p emin emax fl) (hp : 1 ≤ p) (hle : emin ≤ emax) {x : ℝ}
    (hx : |x| ≤ 2 ^ emax) : ∃ y, fl x = .fin y ∧ |y - x| ≤ 2 ^ (-(p : ℤ)) * |x| + 2 ^ (emin - p) := by
  have hu : (0 : ℝ) ≤ 2 ^ (-(p : ℤ)) * |x| := mul_nonneg (two_zpow_pos _).le (abs_nonneg x)
  rcases le_or_gt (2 ^ emin) |x| with h1 | h1
  · have hg := good_normal h hp h1 hx
    refine ⟨_, wide_eq hg, ?_⟩
    have := Rounded.nearest_rel hp (wide_nearest (p := p) (fl := fl) hp) x
    have := two_zpow_pos (emin - p)
    linarith
  · obtain ⟨y, e1, e2, e3⟩ := h.nearest x (lt_of_le_of_lt hx (by
      have := (finiteNumber_pow (p := p) hp hle (le_refl emax)).lt
      rwa [abs_of_pos (two_zpow_pos _)] at this))
    refine ⟨y, e1, ?_⟩
    set d : ℝ := 2 ^ (emin - p + 1) with hd
    have hd0 : 0 < d := two_zpow_pos _
    have hr := abs_sub_round (x / d)
    have hxd : |x / d| < 2 ^ (p - 1) := by
      rw [abs_div, abs_of_pos hd0, div_lt_iff₀ hd0, hd, ← zpow_natCast, ← zpow_add₀ (by norm_num)]
      rwa [show ((p - 1 : ℕ) : ℤ) + (emin - p + 1) = emin by omega]
    have hm : |round (x / d)| < 2 ^ p := by
      have h3 : |((round (x / d) : ℤ) : ℝ)| < 2 ^ (p - 1) + 1 := by
        have := abs_sub_abs_le_abs_sub ((round (x / d) : ℤ) : ℝ) (x / d)
        rw [abs_sub_comm] at this
        linarith
      have h4 : (2 : ℝ) ^ (p - 1) + 1 ≤ 2 ^ p := by
        have h5 : (2 : ℝ) ^ p = 2 ^ (p - 1) * 2 := by rw [← pow_succ]; congr 1; omega
        have h6 : (1 : ℝ) ≤ 2 ^ (p - 1) := one_le_pow₀ (by norm_num)
        linarith
      have h7 : |((round (x / d) : ℤ) : ℝ)| < 2 ^ p := lt_of_lt_of_le h3 h4
      exact_mod_cast h7
    have h8 := e3 (round (x / d) * d) ⟨round (x / d), emin - p + 1, hm, by omega, by omega, rfl⟩
    have h9 : |x - round (x / d) * d| ≤ 2 ^ (emin - p) := by
      have e : x - round (x / d) * d = (x / d - round (x / d)) * d := by field_simp
      rw [e, abs_mul, abs_of_pos hd0]
      have : (2 : ℝ) ^ (emin - p) = 1 / 2 * d := by
        rw [hd, zpow_add_one₀ (by norm_num)]; ring
      rw [this]
      exact mul_le_mul_of_nonneg_right hr hd0.le
    rw [abs_sub_comm]
    linarith

end Imate.RangedVector
