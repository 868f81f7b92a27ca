import Mathlib.Algebra.Order.Field.Power
import Mathlib.Data.Int.Log
import Mathlib.Algebra.Order.Round
import Mathlib.Tactic.Positivity
import Mathlib.Tactic.Linarith
import Mathlib.Tactic.FieldSimp
import Verif.Lemmas.Mem
import Verif.Lemmas.MatrixOps
import Verif.Model.Rounded
import Verif.Spec.Rounding
import Verif.Spec.Storage

/-!
# Rounding errors of the kernels
-/

namespace Imate.Rounded

open Finset Spec

/-- The standard model of rounding. -/
def Rel (u : ℝ) (fl : ℝ → ℝ) : Prop := ∀ x, |fl x - x| ≤ u * |x|

/-! ### Rounding to nearest -/

theorem round_mono {x y : ℝ} (h : x ≤ y) : round x ≤ round y := by
  rw [round_eq, round_eq]
  exact Int.floor_mono (by linarith)

/-- A function that rounds to nearest (ties upwards). -/
noncomputable def roundTo (p : ℕ) (x : ℝ) : ℝ :=
  if x = 0 then 0 else (round (x / (2 : ℝ) ^ (Int.log 2 |x| + 1 - p)) : ℝ) * (2 : ℝ) ^ (Int.log 2 |x| + 1 - p)

theorem representable_zero (p : ℕ) : Representable p 0 := ⟨0, 0, by simp, by simp⟩

theorem roundTo_error (p : ℕ) {x : ℝ} (hx : x ≠ 0) :
    |roundTo p x - x| ≤ (2 : ℝ) ^ (Int.log 2 |x| + 1 - p) / 2 := by
  unfold roundTo
  rw [if_neg hx]
  set t : ℝ := (2 : ℝ) ^ (Int.log 2 |x| + 1 - p) with ht
  have hpos : 0 < t := by positivity
  have h := abs_sub_round (x / t)
  have e : (round (x / t) : ℝ) * t - x = -((x / t - round (x / t)) * t) := by
    field_simp
    ring
  rw [e, abs_neg, abs_mul, abs_of_pos hpos]
  nlinarith

theorem roundTo_rel (p : ℕ) : Rel ((2 : ℝ) ^ (-(p : ℤ))) (roundTo p) := by
  intro x
  by_cases hx : x = 0
  · subst hx
    simp [roundTo]
  · refine (roundTo_error p hx).trans ?_
    have h := Int.zpow_log_le_self (b := 2) (by norm_num) (abs_pos.2 hx)
    have e : (2 : ℝ) ^ (Int.log 2 |x| + 1 - p) / 2 = (2 : ℝ) ^ (-(p : ℤ)) * (2 : ℝ) ^ (Int.log 2 |x|) := by
      rw [show Int.log 2 |x| + 1 - (p : ℤ) = -(p : ℤ) + Int.log 2 |x| + 1 by ring, zpow_add₀ (by norm_num),
        zpow_add₀ (by norm_num)]
      ring
    rw [e]
    have h' : (2 : ℝ) ^ (Int.log 2 |x|) ≤ |x| := by exact_mod_cast h
    exact mul_le_mul_of_nonneg_left h' (by positivity)

theorem roundTo_nearest {p : ℕ} (hp : 1 ≤ p) : Nearest p (roundTo p) := by
  intro x
  by_cases hx : x = 0
  · subst hx
    have h0 : roundTo p 0 = 0 := by simp [roundTo]
    rw [h0]
    exact ⟨representable_zero p, fun y _ => by simp⟩
  have habs : 0 < |x| := abs_pos.2 hx
  set L := Int.log 2 |x| with hL
  set e := L + 1 - (p : ℤ) with he
  have hlow : (2 : ℝ) ^ L ≤ |x| := by exact_mod_cast Int.zpow_log_le_self (b := 2) (by norm_num) habs
  have hup : |x| < (2 : ℝ) ^ (L + 1) := by exact_mod_cast Int.lt_zpow_succ_log_self (b := 2) (by norm_num) |x|
  have hpos : (0 : ℝ) < (2 : ℝ) ^ e := by positivity
  have hr : roundTo p x = (round (x / (2 : ℝ) ^ e) : ℝ) * (2 : ℝ) ^ e := by
    unfold roundTo
    rw [if_neg hx]
  have hLe : (2 : ℝ) ^ (L + 1) = (2 : ℝ) ^ (p : ℤ) * (2 : ℝ) ^ e := by
    rw [← zpow_add₀ (by norm_num)]
    congr 1
    omega
  have hLe' : (2 : ℝ) ^ L = (2 : ℝ) ^ ((p : ℤ) - 1) * (2 : ℝ) ^ e := by
    rw [← zpow_add₀ (by norm_num)]
    congr 1
    omega
  have hp2 : (2 : ℝ) ^ ((p : ℤ) - 1) = ((2 ^ (p - 1) : ℤ) : ℝ) := by
    rw [show (p : ℤ) - 1 = ((p - 1 : ℕ) : ℤ) by omega, zpow_natCast]
    push_cast
    rfl
  -- the nearest multiple
  have near : ∀ k : ℤ, |roundTo p x - x| ≤ |(k : ℝ) * (2 : ℝ) ^ e - x| := by
    intro k
    have h := round_le (x / (2 : ℝ) ^ e) k
    have e1 : roundTo p x - x = -((x / (2 : ℝ) ^ e - round (x / (2 : ℝ) ^ e)) * (2 : ℝ) ^ e) := by
      rw [hr]; field_simp; ring
    have e2 : (k : ℝ) * (2 : ℝ) ^ e - x = -((x / (2 : ℝ) ^ e - k) * (2 : ℝ) ^ e) := by
      field_simp; ring
    rw [e1, e2, abs_neg, abs_neg, abs_mul, abs_mul]
    exact mul_le_mul_of_nonneg_right h (abs_nonneg _)
  refine ⟨?_, ?_⟩
  · have hb : |(round (x / (2 : ℝ) ^ e) : ℤ)| ≤ 2 ^ p := by
      have h1 : |x / (2 : ℝ) ^ e| < (2 : ℝ) ^ p := by
        rw [abs_div, abs_of_pos hpos, div_lt_iff₀ hpos]
        rw [hLe, zpow_natCast] at hup
        exact hup
      have h1' := abs_lt.1 h1
      rw [abs_le]
      constructor
      · have := round_mono h1'.1.le
        have e3 : round (-(2 : ℝ) ^ p) = -(2 : ℤ) ^ p := by
          have : (-(2 : ℝ) ^ p) = ((-(2 : ℤ) ^ p : ℤ) : ℝ) := by push_cast; rfl
          rw [this, round_intCast]
        rwa [e3] at this
      · have := round_mono h1'.2.le
        have e3 : round ((2 : ℝ) ^ p) = (2 : ℤ) ^ p := by
          have : ((2 : ℝ) ^ p) = (((2 : ℤ) ^ p : ℤ) : ℝ) := by push_cast; rfl
          rw [this, round_intCast]
        rwa [e3] at this
    rcases lt_or_eq_of_le hb with h | h
    · exact ⟨_, e, h, hr⟩
    · have hdvd : ∃ s : ℤ, |s| < 2 ^ p ∧ (round (x / (2 : ℝ) ^ e) : ℤ) = s * 2 := by
        have h2 : (2 : ℤ) ^ p = 2 ^ (p - 1) * 2 := by
          rw [← pow_succ]; congr 1; omega
        have hpp : (0 : ℤ) < 2 ^ (p - 1) := by positivity
        rcases abs_eq (by positivity : (0 : ℤ) ≤ 2 ^ p) |>.1 h with h | h
        · exact ⟨2 ^ (p - 1), by rw [abs_of_pos hpp, h2]; omega, by rw [h, h2]⟩
        · exact ⟨-2 ^ (p - 1), by rw [abs_neg, abs_of_pos hpp, h2]; omega, by rw [h, h2]; ring⟩
      obtain ⟨s, hs1, hs2⟩ := hdvd
      refine ⟨s, e + 1, hs1, ?_⟩
      rw [hr, hs2, zpow_add₀ (by norm_num)]
      push_cast
      ring
  · rintro y ⟨s, f, hs, rfl⟩
    by_cases hf : e ≤ f
    · have := near (s * 2 ^ (f - e).toNat)
      refine this.trans (le_of_eq ?_)
      congr 2
      push_cast
      rw [mul_assoc]
      congr 1
      rw [← zpow_natCast, ← zpow_add₀ (by norm_num)]
      congr 1
      omega
    · -- a finer number is smaller than the power of two below `x`
      have hy : |(s : ℝ) * (2 : ℝ) ^ f| ≤ (2 : ℝ) ^ L := by
        rw [abs_mul, abs_of_pos (by positivity : (0 : ℝ) < (2 : ℝ) ^ f)]
        have h1 : |(s : ℝ)| ≤ (2 : ℝ) ^ (p : ℤ) := by
          rw [zpow_natCast]
          exact_mod_cast hs.le
        calc |(s : ℝ)| * (2 : ℝ) ^ f ≤ (2 : ℝ) ^ (p : ℤ) * (2 : ℝ) ^ (e - 1) := by
              apply mul_le_mul h1 _ (by positivity) (by positivity)
              exact zpow_le_zpow_right₀ (by norm_num) (by omega)
          _ = (2 : ℝ) ^ L := by
              rw [← zpow_add₀ (by norm_num)]
              congr 1
              omega
      rcases lt_or_gt_of_ne hx with hneg | hposx
      · have := near (-(2 ^ (p - 1)))
        refine this.trans ?_
        have e4 : ((-(2 ^ (p - 1)) : ℤ) : ℝ) * (2 : ℝ) ^ e = -(2 : ℝ) ^ L := by
          rw [hLe', hp2]; push_cast; ring
        rw [e4]
        rw [abs_of_neg hneg] at hlow
        rw [abs_of_nonneg (by linarith)]
        have := neg_abs_le ((s : ℝ) * (2 : ℝ) ^ f)
        have := le_abs_self ((s : ℝ) * (2 : ℝ) ^ f - x)
        linarith
      · have := near (2 ^ (p - 1))
        refine this.trans ?_
        have e4 : (((2 ^ (p - 1)) : ℤ) : ℝ) * (2 : ℝ) ^ e = (2 : ℝ) ^ L := by
          rw [hLe', hp2]
        rw [e4]
        rw [abs_of_pos hposx] at hlow
        rw [abs_of_nonpos (by linarith)]
        have := le_abs_self ((s : ℝ) * (2 : ℝ) ^ f)
        have := neg_abs_le ((s : ℝ) * (2 : ℝ) ^ f - x)
        linarith

theorem nearest_rel {p : ℕ} (hp : 1 ≤ p) {fl : ℝ → ℝ} (h : Nearest p fl) : Rel ((2 : ℝ) ^ (-(p : ℤ))) fl := fun x =>
  ((h x).2 _ (roundTo_nearest hp x).1).trans (roundTo_rel p x)

/-! ### Sums of rounded numbers -/

/-- `y` approximates `s` with an error of `G - 1` relative to `T`. -/
def Approx (G s T y : ℝ) : Prop := |s| ≤ T ∧ |y - s| ≤ (G - 1) * T

theorem Approx.nonneg {G s T y : ℝ} (h : Approx G s T y) : 0 ≤ T := (abs_nonneg s).trans h.1

theorem Approx.weaken {G G' s T y : ℝ} (h : Approx G s T y) (hG : G ≤ G') : Approx G' s T y :=
  ⟨h.1, h.2.trans (mul_le_mul_of_nonneg_right (by linarith) h.nonneg)⟩

theorem approx_zero {G : ℝ} : Approx G 0 0 0 := ⟨by simp, by simp⟩

theorem approx_self {G x : ℝ} (hG : 1 ≤ G) : Approx G x |x| x :=
  ⟨le_rfl, by rw [sub_self, abs_zero]; exact mul_nonneg (by linarith) (abs_nonneg x)⟩

theorem Approx.round {G s T y u : ℝ} {fl : ℝ → ℝ} (hu : 0 ≤ u) (hfl : Rel u fl) (h : Approx G s T y) :
    Approx (G * (1 + u)) s T (fl y) := by
  refine ⟨h.1, ?_⟩
  have h1 := hfl y
  have h2 : |y| ≤ G * T := by
    have := abs_sub_abs_le_abs_sub y s
    have := h.1
    have := h.2
    nlinarith
  have h3 : |fl y - s| ≤ |fl y - y| + |y - s| := by
    have : fl y - s = (fl y - y) + (y - s) := by ring
    rw [this]
    exact abs_add_le _ _
  have h4 := h.2
  have h5 : u * |y| ≤ u * (G * T) := mul_le_mul_of_nonneg_left h2 hu
  nlinarith

theorem Approx.add {G s T y s' T' y' : ℝ} (h : Approx G s T y) (h' : Approx G s' T' y') :
    Approx G (s + s') (T + T') (y + y') := by
  refine ⟨(abs_add_le _ _).trans (add_le_add h.1 h'.1), ?_⟩
  have : y + y' - (s + s') = (y - s) + (y' - s') := by ring
  rw [this]
  refine (abs_add_le _ _).trans ?_
  have := h.2
  have := h'.2
  nlinarith

section

variable {flD flL : ℝ → ℝ} {u U : ℝ}

theorem approx_times (hu : 0 ≤ u) (hD : Rel u flD) (x y : ℝ) : Approx (1 + u) (x * y) |x * y| (times flD x y) := by
  have := (approx_self (G := 1) (x := x * y) le_rfl).round hu hD
  rwa [one_mul] at this

theorem approx_five (hu : 0 ≤ u) (hD : Rel u flD) {s0 s1 s2 s3 s4 t0 t1 t2 t3 t4 p0 p1 p2 p3 p4 : ℝ}
    (h0 : Approx (1 + u) s0 t0 p0) (h1 : Approx (1 + u) s1 t1 p1) (h2 : Approx (1 + u) s2 t2 p2)
    (h3 : Approx (1 + u) s3 t3 p3) (h4 : Approx (1 + u) s4 t4 p4) :
    Approx ((1 + u) ^ 5) (s0 + s1 + s2 + s3 + s4) (t0 + t1 + t2 + t3 + t4) (five flD p0 p1 p2 p3 p4) := by
  have hpow : ∀ k : ℕ, (1 + u) ≤ (1 + u) ^ (k + 1) := fun k => le_self_pow₀ (by linarith) (by omega)
  have a1 := (h0.add h1).round hu hD
  have a2 := ((a1.weaken (G' := (1 + u) ^ 2) (by ring_nf; rfl)).add (h2.weaken (hpow 1))).round hu hD
  have a3 := ((a2.weaken (G' := (1 + u) ^ 3) (by ring_nf; rfl)).add (h3.weaken (hpow 2))).round hu hD
  have a4 := ((a3.weaken (G' := (1 + u) ^ 4) (by ring_nf; rfl)).add (h4.weaken (hpow 3))).round hu hD
  exact a4.weaken (by ring_nf; rfl)

theorem sum_five (f : ℕ → ℝ) (k : ℕ) : ∑ i ∈ range (5 * (k + 1)), f i = ∑ i ∈ range (5 * k), f i +
    (f (5 * k) + f (5 * k + 1) + f (5 * k + 2) + f (5 * k + 3) + f (5 * k + 4)) := by
  rw [show 5 * (k + 1) = 5 * k + 4 + 1 by ring]
  rw [sum_range_succ, show 5 * k + 4 = 5 * k + 3 + 1 by ring, sum_range_succ, show 5 * k + 3 = 5 * k + 2 + 1 by ring,
    sum_range_succ, show 5 * k + 2 = 5 * k + 1 + 1 by ring, sum_range_succ, sum_range_succ]
  ring

/-- The unrolled loop: every product is rounded at most five times in `DataType` and `n/5 + n%5` times in
`long double`. -/
theorem chunkedDot_approx (hu : 0 ≤ u) (hU : 0 ≤ U) (hD : Rel u flD) (hL : Rel U flL) {a b : ℕ → Except Fault ℝ}
    {n : ℕ} (f g : ℕ → ℝ) (ha : ∀ j < n, a j = .ok (f j)) (hb : ∀ j < n, b j = .ok (g j)) :
    ∃ r, chunkedDot flD flL a b n = .ok r ∧ Approx ((1 + u) ^ 5 * (1 + U) ^ (n / 5 + n % 5))
      (∑ j ∈ range n, f j * g j) (∑ j ∈ range n, |f j * g j|) r := by
  have h1u : (1 : ℝ) ≤ (1 + u) ^ 5 := one_le_pow₀ (by linarith)
  have hq : n - n % 5 = 5 * (n / 5) := by omega
  have hc : (5 * (n / 5) + 5 - 1) / 5 = n / 5 := by omega
  unfold chunkedDot
  simp only [hq]
  obtain ⟨s, h1, h2⟩ := loopN_inv (step := 5) (body := fun j s => do
      Except.ok (flL (s + five flD (times flD (← a j) (← b j)) (times flD (← a (j+1)) (← b (j+1)))
      (times flD (← a (j+2)) (← b (j+2))) (times flD (← a (j+3)) (← b (j+3)))
      (times flD (← a (j+4)) (← b (j+4))))))
    (fun k s => Approx ((1 + u) ^ 5 * (1 + U) ^ k) (∑ j ∈ range (5 * k), f j * g j)
      (∑ j ∈ range (5 * k), |f j * g j|) s) (n / 5) 0 0 (by simpa using approx_zero) (by
    intro k hk s hs
    have e : 0 + k * 5 = 5 * k := by ring
    rw [e]
    rw [ha (5 * k) (by omega), ha (5 * k + 1) (by omega), ha (5 * k + 2) (by omega), ha (5 * k + 3) (by omega),
      ha (5 * k + 4) (by omega), hb (5 * k) (by omega), hb (5 * k + 1) (by omega), hb (5 * k + 2) (by omega),
      hb (5 * k + 3) (by omega), hb (5 * k + 4) (by omega)]
    simp only [Except.ok_bind']
    refine ⟨_, rfl, ?_⟩
    have h5 := approx_five hu hD (approx_times hu hD (f (5 * k)) (g (5 * k)))
      (approx_times hu hD (f (5 * k + 1)) (g (5 * k + 1))) (approx_times hu hD (f (5 * k + 2)) (g (5 * k + 2)))
      (approx_times hu hD (f (5 * k + 3)) (g (5 * k + 3))) (approx_times hu hD (f (5 * k + 4)) (g (5 * k + 4)))
    have h6 := (hs.add (h5.weaken (G' := (1 + u) ^ 5 * (1 + U) ^ k)
      (le_mul_of_one_le_right (by positivity) (one_le_pow₀ (by linarith))))).round hU hL
    rw [sum_five, sum_five, pow_succ (1 + U), ← mul_assoc]
    exact h6)
  have e1 : forStep 5 (5 * (n / 5)) (fun j s => do
      Except.ok (flL (s + five flD (times flD (← a j) (← b j)) (times flD (← a (j+1)) (← b (j+1)))
      (times flD (← a (j+2)) (← b (j+2))) (times flD (← a (j+3)) (← b (j+3)))
      (times flD (← a (j+4)) (← b (j+4)))))) 0 = .ok s := by
    unfold forStep
    rw [hc]
    exact h1
  rw [e1]
  simp only [Except.ok_bind']
  obtain ⟨r, h3, h4⟩ := forRange_inv (body := fun j s => do
      Except.ok (flL (s + times flD (← a j) (← b j))))
    (fun k s => Approx ((1 + u) ^ 5 * (1 + U) ^ (n / 5 + (k - 5 * (n / 5)))) (∑ j ∈ range k, f j * g j)
      (∑ j ∈ range k, |f j * g j|) s) (show 5 * (n / 5) ≤ n by omega) s (by simpa using h2) (by
    intro j hj1 hj2 s hs
    rw [ha j hj2, hb j hj2]
    simp only [Except.ok_bind']
    refine ⟨_, rfl, ?_⟩
    have hw : 1 + u ≤ (1 + u) ^ 5 * (1 + U) ^ (n / 5 + (j - 5 * (n / 5))) :=
      (le_self_pow₀ (by linarith) (by norm_num)).trans
        (le_mul_of_one_le_right (by positivity) (one_le_pow₀ (by linarith)))
    have h6 := (hs.add ((approx_times hu hD (f j) (g j)).weaken hw)).round hU hL
    rw [sum_range_succ, sum_range_succ, show n / 5 + (j + 1 - 5 * (n / 5)) = n / 5 + (j - 5 * (n / 5)) + 1 by omega,
      pow_succ (1 + U), ← mul_assoc]
    exact h6)
  refine ⟨r, h3, ?_⟩
  rwa [show n - 5 * (n / 5) = n % 5 by omega] at h4

/-- Any loop that adds rounded products to a sum in `long double`. -/
theorem loop_approx (hu : 0 ≤ u) (hU : 0 ≤ U) (hD : Rel u flD) (hL : Rel U flL) {body : ℕ → ℝ → Except Fault ℝ}
    {lo hi : ℕ} (hle : lo ≤ hi) (f g : ℕ → ℝ)
    (hb : ∀ k, lo ≤ k → k < hi → ∀ s, body k s = .ok (flL (s + times flD (f k) (g k)))) :
    ∃ r, forRange lo hi body 0 = .ok r ∧ Approx ((1 + u) * (1 + U) ^ (hi - lo))
      (∑ k ∈ Ico lo hi, f k * g k) (∑ k ∈ Ico lo hi, |f k * g k|) r := by
  refine forRange_inv (fun k s => Approx ((1 + u) * (1 + U) ^ (k - lo)) (∑ k ∈ Ico lo k, f k * g k)
      (∑ k ∈ Ico lo k, |f k * g k|) s) hle 0 (by simpa using approx_zero) ?_
  intro k h1 h2 s hs
  rw [hb k h1 h2 s]
  refine ⟨_, rfl, ?_⟩
  have hw : 1 + u ≤ (1 + u) * (1 + U) ^ (k - lo) :=
    le_mul_of_one_le_right (by positivity) (one_le_pow₀ (by linarith))
  have h6 := (hs.add ((approx_times hu hD (f k) (g k)).weaken hw)).round hU hL
  rw [sum_Ico_succ_top h1, sum_Ico_succ_top h1, show k + 1 - lo = k - lo + 1 by omega, pow_succ, ← mul_assoc]
  exact h6

theorem plainDot_approx (hu : 0 ≤ u) (hU : 0 ≤ U) (hD : Rel u flD) (hL : Rel U flL) {a b : ℕ → Except Fault ℝ}
    {n : ℕ} (f g : ℕ → ℝ) (ha : ∀ j < n, a j = .ok (f j)) (hb : ∀ j < n, b j = .ok (g j)) :
    ∃ r, plainDot flD flL a b n = .ok r ∧ Approx ((1 + u) * (1 + U) ^ n)
      (∑ j ∈ range n, f j * g j) (∑ j ∈ range n, |f j * g j|) r := by
  unfold plainDot
  obtain ⟨r, h1, h2⟩ := loop_approx (flL := flL) hu hU hD hL (body := fun j s => do
      Except.ok (flL (s + times flD (← a j) (← b j)))) (Nat.zero_le n) f g (by
    intro k _ hk s
    rw [ha k hk, hb k hk]
    simp only [Except.ok_bind'])
  refine ⟨r, h1, ?_⟩
  rw [Finset.range_eq_Ico]
  exact h2

end

end Imate.Rounded

namespace Imate.Rounded

open Finset Spec Matrix

/-- A loop that writes one element per iteration. -/
theorem forRange_write_rel {n : ℕ} {body : ℕ → Array ℝ → Except Fault (Array ℝ)} (c : Array ℝ) (hc : c.size = n)
    (P : Fin n → ℝ → Prop)
    (hb : ∀ i : Fin n, ∃ x, P i x ∧ ∀ c' : Array ℝ, c'.size = n → body i.1 c' = wr c' i.1 x) :
    ∃ r : Fin n → ℝ, forRange 0 n body c = .ok (Array.ofFn r) ∧ ∀ i, P i (r i) := by
  choose r h1 h2 using hb
  exact ⟨r, forRange_write_ofFn c r hc fun i c' hs _ => h2 i c' hs, h1⟩

section

variable {flD flL : ℝ → ℝ} {u U : ℝ} {n m : ℕ}

theorem chunkedDot_fin (hu : 0 ≤ u) (hU : 0 ≤ U) (hD : Rel u flD) (hL : Rel U flL) {a b : ℕ → Except Fault ℝ}
    (f g : Fin n → ℝ) (ha : ∀ j : Fin n, a j.1 = .ok (f j)) (hb : ∀ j : Fin n, b j.1 = .ok (g j)) :
    ∃ r, chunkedDot flD flL a b n = .ok r ∧ Approx ((1 + u) ^ 5 * (1 + U) ^ n)
      (∑ j, f j * g j) (∑ j, |f j| * |g j|) r := by
  obtain ⟨r, h1, h2⟩ := chunkedDot_approx hu hU hD hL (n := n) (fun j => if h : j < n then f ⟨j, h⟩ else 0)
    (fun j => if h : j < n then g ⟨j, h⟩ else 0)
    (by intro j hj; simpa [hj] using ha ⟨j, hj⟩) (by intro j hj; simpa [hj] using hb ⟨j, hj⟩)
  refine ⟨r, h1, ?_⟩
  rw [Finset.sum_range, Finset.sum_range] at h2
  simp only [Fin.is_lt, dif_pos, Fin.eta, abs_mul] at h2
  refine h2.weaken (mul_le_mul_of_nonneg_left (pow_le_pow_right₀ (by linarith) ?_) (by positivity))
  omega

theorem plainDot_fin (hu : 0 ≤ u) (hU : 0 ≤ U) (hD : Rel u flD) (hL : Rel U flL) {a b : ℕ → Except Fault ℝ}
    (f g : Fin n → ℝ) (ha : ∀ j : Fin n, a j.1 = .ok (f j)) (hb : ∀ j : Fin n, b j.1 = .ok (g j)) :
    ∃ r, plainDot flD flL a b n = .ok r ∧ Approx ((1 + u) ^ 5 * (1 + U) ^ n)
      (∑ j, f j * g j) (∑ j, |f j| * |g j|) r := by
  obtain ⟨r, h1, h2⟩ := plainDot_approx hu hU hD hL (n := n) (fun j => if h : j < n then f ⟨j, h⟩ else 0)
    (fun j => if h : j < n then g ⟨j, h⟩ else 0)
    (by intro j hj; simpa [hj] using ha ⟨j, hj⟩) (by intro j hj; simpa [hj] using hb ⟨j, hj⟩)
  refine ⟨r, h1, ?_⟩
  rw [Finset.sum_range, Finset.sum_range] at h2
  simp only [Fin.is_lt, dif_pos, Fin.eta, abs_mul] at h2
  exact h2.weaken (mul_le_mul_of_nonneg_right (le_self_pow₀ (by linarith) (by norm_num)) (by positivity))

theorem Approx.cast (hu : 0 ≤ u) (hD : Rel u flD) {k e : ℕ} {s T y : ℝ}
    (h : Approx ((1 + u) ^ k * (1 + U) ^ e) s T y) : Approx ((1 + u) ^ (k + 1) * (1 + U) ^ e) s T (flD y) := by
  have := h.round hu hD
  rwa [show (1 + u) ^ k * (1 + U) ^ e * (1 + u) = (1 + u) ^ (k + 1) * (1 + U) ^ e by ring] at this

/-- One compressed row. -/
theorem gather_approx (hu : 0 ≤ u) (hU : 0 ≤ U) (hD : Rel u flD) (hL : Rel U flL) {data : Array ℝ} {ix : Array ℕ}
    {lo hi : ℕ} {M P : Fin m → ℝ} (hle : lo ≤ hi) (hsz : hi ≤ data.size)
    (hix : ∀ k, lo ≤ k → k < hi → ∃ j < m, ix[k]? = some j)
    (hM : ∀ j : Fin m, M j = ∑ k ∈ Ico lo hi, if ix[k]? = some j.1 then data.getD k 0 else 0)
    (hP : ∀ j : Fin m, P j = ∑ k ∈ Ico lo hi, if ix[k]? = some j.1 then (data.map abs).getD k 0 else 0)
    (v : Fin m → ℝ) :
    ∃ r, gather flD flL data ix (Array.ofFn v) lo hi = .ok r ∧ Approx ((1 + u) ^ 1 * (1 + U) ^ (hi - lo))
      (∑ j, M j * v j) (∑ j, P j * |v j|) r := by
  unfold gather
  obtain ⟨r, h1, h2⟩ := loop_approx (flL := flL) hu hU hD hL (body := fun k s => do
      let column ← rd ix k
      Except.ok (flL (s + times flD (← rd data k) (← rd (Array.ofFn v) column)))) hle (fun k => data.getD k 0)
    (fun k => if h : (ix.getD k 0) < m then v ⟨ix.getD k 0, h⟩ else 0) (by
      intro k h1 h2 s
      obtain ⟨j, hj, hkj⟩ := hix k h1 h2
      rw [rd_ok hkj]
      have hgd : ix.getD k 0 = j := by simp [Array.getD_eq_getD_getElem?, hkj]
      have hd : data[k]? = some (data.getD k 0) := by
        simp [Array.getD_eq_getD_getElem?, Array.getElem?_eq_getElem (show k < data.size by omega)]
      simp only [Except.ok_bind', rd_ok hd, hgd, hj, dif_pos]
      rw [rd_ofFn v ⟨j, hj⟩]
      rfl)
  refine ⟨r, h1, ?_⟩
  have e1 := MatrixOps.compressed_row_sum hix hM v
  have e2 := MatrixOps.compressed_row_sum hix hP fun j => |v j|
  rw [← e1, ← e2, pow_one]
  have e3 : ∑ k ∈ Ico lo hi, |data.getD k 0 * (if h : (ix.getD k 0) < m then v ⟨ix.getD k 0, h⟩ else 0)| =
      ∑ k ∈ Ico lo hi, (data.map abs).getD k 0 * (if h : (ix.getD k 0) < m then |v ⟨ix.getD k 0, h⟩| else 0) := by
    refine Finset.sum_congr rfl fun k hk => ?_
    rw [abs_mul]
    congr 1
    · simp only [Array.getD_eq_getD_getElem?, Array.getElem?_map]
      cases data[k]? <;> simp
    · split_ifs <;> simp
  rw [e3] at h2
  exact h2

/-! ### The scattering kernels -/

/-- Number of entries with index `j` at positions `base ≤ k < hi`. -/
def cnt (ix : Array ℕ) (base hi j : ℕ) : ℕ := ∑ k ∈ Ico base hi, if ix[k]? = some j then 1 else 0

theorem cnt_succ (ix : Array ℕ) {base k : ℕ} (h : base ≤ k) (j : ℕ) :
    cnt ix base (k + 1) j = cnt ix base k j + if ix[k]? = some j then 1 else 0 := by
  unfold cnt
  rw [sum_Ico_succ_top h]

theorem cnt_le (ix : Array ℕ) (base hi j : ℕ) :
    cnt ix base hi j ≤ ((range ix.size).filter fun k => ix[k]? = some j).card := by
  unfold cnt
  rw [Finset.sum_boole, Nat.cast_id]
  apply Finset.card_le_card
  intro k hk
  simp only [Finset.mem_filter, Finset.mem_range, Finset.mem_Ico] at hk ⊢
  refine ⟨?_, hk.2⟩
  by_contra hc
  rw [Array.getElem?_eq_none (by omega)] at hk
  simp at hk

theorem scatter_approx (hu : 0 ≤ u) (hD : Rel u flD) {data : Array ℝ} {ix : Array ℕ} {base lo hi p : ℕ} {b : Array ℝ}
    {bp : ℝ} (hbase : base ≤ lo) (hle : lo ≤ hi) (hsz : hi ≤ data.size)
    (hix : ∀ k, lo ≤ k → k < hi → ∃ j < m, ix[k]? = some j) (hb : rd b p = .ok bp)
    {S T : Fin m → ℝ} {w : Fin m → ℝ} (hw : ∀ j, Approx ((1 + u) ^ (cnt ix base lo j.1 + 1)) (S j) (T j) (w j)) :
    ∃ r : Fin m → ℝ, scatter flD data ix b p lo hi (Array.ofFn w) = .ok (Array.ofFn r) ∧
      ∀ j, Approx ((1 + u) ^ (cnt ix base hi j.1 + 1))
        (S j + ∑ k ∈ Ico lo hi, (if ix[k]? = some j.1 then data.getD k 0 else 0) * bp)
        (T j + ∑ k ∈ Ico lo hi, (if ix[k]? = some j.1 then (data.map abs).getD k 0 else 0) * |bp|) (r j) := by
  unfold scatter
  obtain ⟨c', h1, r, h2, h3⟩ := forRange_inv (body := fun k c => do
      let column ← rd ix k
      wr c column (flD ((← rd c column) + times flD (← rd data k) (← rd b p))))
    (fun k c' => ∃ r : Fin m → ℝ, c' = Array.ofFn r ∧ ∀ j, Approx ((1 + u) ^ (cnt ix base k j.1 + 1))
        (S j + ∑ k ∈ Ico lo k, (if ix[k]? = some j.1 then data.getD k 0 else 0) * bp)
        (T j + ∑ k ∈ Ico lo k, (if ix[k]? = some j.1 then (data.map abs).getD k 0 else 0) * |bp|) (r j))
    hle (Array.ofFn w) ⟨w, rfl, by simpa using hw⟩ (by
      rintro k hk1 hk2 s ⟨r, rfl, hr⟩
      obtain ⟨j, hj, hkj⟩ := hix k hk1 hk2
      have hd : data[k]? = some (data.getD k 0) := by
        simp [Array.getD_eq_getD_getElem?, Array.getElem?_eq_getElem (show k < data.size by omega)]
      simp only [rd_ok hkj, Except.ok_bind', rd_ok hd, hb]
      rw [rd_ofFn r ⟨j, hj⟩]
      simp only [Except.ok_bind']
      rw [wr_ok (by simpa using hj)]
      refine ⟨_, rfl, Function.update r ⟨j, hj⟩ (flD (r ⟨j, hj⟩ + times flD (data.getD k 0) bp)), ?_, ?_⟩
      · apply eq_ofFn (by simp)
        intro i
        rw [Array.getElem?_set]
        by_cases hij : j = i.1
        · have : (⟨j, hj⟩ : Fin m) = i := by ext; exact hij
          subst this
          simp
        · have : i ≠ ⟨j, hj⟩ := fun h => hij (by rw [h])
          simp [hij, Function.update_of_ne this]
      · intro i
        rw [sum_Ico_succ_top hk1, sum_Ico_succ_top hk1, cnt_succ ix (by omega), hkj]
        by_cases hij : j = i.1
        · have : i = (⟨j, hj⟩ : Fin m) := by ext; exact hij.symm
          subst this
          simp only [if_true, Function.update_self]
          have ht := approx_times hu hD (data.getD k 0) bp
          have hG : 1 + u ≤ (1 + u) ^ (cnt ix base k j + 1) := le_self_pow₀ (by linarith) (by omega)
          have := ((hr ⟨j, hj⟩).add (ht.weaken hG)).round hu hD
          have e : |data.getD k 0 * bp| = (data.map abs).getD k 0 * |bp| := by
            rw [abs_mul]
            congr 1
            simp only [Array.getD_eq_getD_getElem?, Array.getElem?_map]
            cases data[k]? <;> simp
          rw [e] at this
          rw [← add_assoc, ← add_assoc, show cnt ix base k j + 1 + 1 = (cnt ix base k j + 1) + 1 by rfl, pow_succ]
          exact this
        · have : i ≠ ⟨j, hj⟩ := fun h => hij (by rw [h])
          simp only [Option.some.injEq, hij, if_false, zero_mul, add_zero, Function.update_of_ne this]
          exact hr i)
  exact ⟨r, by rw [h1, h2], h3⟩

theorem scatterAll_approx (hu : 0 ≤ u) (hD : Rel u flD) {data : Array ℝ} {ix ptr : Array ℕ}
    {M P : Matrix (Fin n) (Fin m) ℝ} (h : CSRRepr data ix ptr M) (hP : CSRRepr (data.map abs) ix ptr P)
    (v : Fin n → ℝ) :
    ∃ r : Fin m → ℝ, forRange 0 n (fun row c => do
      scatter flD data ix (Array.ofFn v) row (← rd ptr row) (← rd ptr (row + 1)) c)
      (Array.ofFn fun _ : Fin m => (0 : ℝ)) = .ok (Array.ofFn r) ∧
      ∀ j, Approx ((1 + u) ^ (((range ix.size).filter fun k => ix[k]? = some j.1).card + 1)) ((Mᵀ *ᵥ v) j)
        ((Pᵀ *ᵥ fun i => |v i|) j) (r j) := by
  have hu1 : (1 : ℝ) ≤ 1 + u := by linarith
  obtain ⟨base, hbase⟩ : ∃ base, ptr[0]? = some base := by
    have h0 : 0 < ptr.size := by rw [h.1]; omega
    exact ⟨ptr[0], Array.getElem?_eq_getElem h0⟩
  obtain ⟨c', h1, lo, -, -, r, h2, h3⟩ := forRange_inv (body := fun row c => do
      scatter flD data ix (Array.ofFn v) row (← rd ptr row) (← rd ptr (row + 1)) c)
    (fun k c' => ∃ lo, ptr[k]? = some lo ∧ base ≤ lo ∧ ∃ r : Fin m → ℝ, c' = Array.ofFn r ∧
      ∀ j, Approx ((1 + u) ^ (cnt ix base lo j.1 + 1))
        (∑ i ∈ range k, if hi : i < n then M ⟨i, hi⟩ j * v ⟨i, hi⟩ else 0)
        (∑ i ∈ range k, if hi : i < n then P ⟨i, hi⟩ j * |v ⟨i, hi⟩| else 0) (r j))
    (Nat.zero_le n) (Array.ofFn fun _ : Fin m => (0 : ℝ))
    ⟨base, hbase, le_rfl, _, rfl, fun j => by simpa using approx_zero⟩ (by
      rintro i _ hi s ⟨lo, hlo, hbl, r, rfl, hr⟩
      obtain ⟨lo', hi', g1, g2, g3, g4, g5, g6⟩ := h.2.2 ⟨i, hi⟩
      obtain ⟨lo2, hi2, k1, k2, k3, k4, k5, k6⟩ := hP.2.2 ⟨i, hi⟩
      simp only at g1 g2 k1 k2
      rw [hlo, Option.some.injEq] at g1 k1
      subst g1 k1
      rw [g2, Option.some.injEq] at k2
      subst k2
      have h2' : rd ptr (i + 1) = .ok hi' := rd_ok g2
      simp only [rd_ok hlo, h2', Except.ok_bind']
      obtain ⟨r', e1, e2⟩ := scatter_approx hu hD hbl g3 g4 g5 (rd_ofFn v ⟨i, hi⟩) hr
      refine ⟨_, e1, hi', g2, hbl.trans g3, r', rfl, fun j => ?_⟩
      have := e2 j
      rw [← Finset.sum_mul, ← Finset.sum_mul, ← g6 j, ← k6 j] at this
      rw [sum_range_succ, sum_range_succ, dif_pos hi, dif_pos hi]
      exact this)
  refine ⟨r, by rw [h1, h2], fun j => ?_⟩
  have h4 := (h3 j).weaken (pow_le_pow_right₀ hu1 (Nat.succ_le_succ (cnt_le ix base lo j.1)))
  rw [Finset.sum_range, Finset.sum_range] at h4
  simp only [Fin.is_lt, dif_pos, Fin.eta] at h4
  exact h4

/-! ### Stagnation -/

/-- Above `2^(p+1)` the next number with `p` bits is at least 4 larger. -/
theorem gap {p : ℕ} (hp : 1 ≤ p) {y : ℝ} (hy : Representable p y) (h : (2 : ℝ) ^ (p + 1) < y) :
    (2 : ℝ) ^ (p + 1) + 4 ≤ y := by
  obtain ⟨s, e, hs, rfl⟩ := hy
  have hpe : (0 : ℝ) < (2 : ℝ) ^ e := by positivity
  have hs' : (s : ℝ) < (2 : ℝ) ^ p := by
    have : s < 2 ^ p := (le_abs_self s).trans_lt hs
    exact_mod_cast this
  have h1 : (2 : ℝ) ^ p * 2 < (2 : ℝ) ^ p * (2 : ℝ) ^ e := by
    rw [← pow_succ]
    exact h.trans (mul_lt_mul_of_pos_right hs' hpe)
  have h2 : (2 : ℝ) ^ (1 : ℤ) < (2 : ℝ) ^ e := by
    rw [zpow_one]
    exact lt_of_mul_lt_mul_left h1 (by positivity)
  have h3 : 1 < e := (zpow_lt_zpow_iff_right₀ (by norm_num)).1 h2
  obtain ⟨t, ht⟩ : ∃ t : ℕ, e = (t : ℤ) + 2 := ⟨(e - 2).toNat, by omega⟩
  have e4 : (s : ℝ) * (2 : ℝ) ^ e = ((s * 2 ^ t * 4 : ℤ) : ℝ) := by
    rw [ht, zpow_add₀ (by norm_num), zpow_natCast]
    push_cast
    ring
  obtain ⟨q, hq⟩ : ∃ q, p = q + 1 := ⟨p - 1, by omega⟩
  have e5 : (2 : ℝ) ^ (p + 1) = ((2 ^ q * 4 : ℤ) : ℝ) := by
    rw [hq]
    push_cast
    ring
  rw [e4, e5] at h
  rw [e4, e5]
  have h6 : (2 : ℤ) ^ q * 4 < s * 2 ^ t * 4 := by exact_mod_cast h
  have h7 : (2 : ℤ) ^ q * 4 + 4 ≤ s * 2 ^ t * 4 := by omega
  exact_mod_cast h7

theorem representable_pow {p : ℕ} (hp : 1 ≤ p) (k : ℕ) : Representable p ((2 : ℝ) ^ k) := by
  refine ⟨1, k, ?_, by simp⟩
  rw [abs_one]
  exact one_lt_pow₀ (by norm_num) (by omega)

theorem nearest_one {p : ℕ} (hp : 1 ≤ p) {fl : ℝ → ℝ} (h : Nearest p fl) : fl 1 = 1 := by
  have := (h 1).2 1 (by simpa using representable_pow hp 0)
  simp only [sub_self, abs_zero] at this
  have := abs_nonpos_iff.1 this
  linarith

/-- Adding 1 to a sum never takes it beyond `2^(p+1)`. -/
theorem stagnate {p : ℕ} (hp : 1 ≤ p) {fl : ℝ → ℝ} (h : Nearest p fl) {s : ℝ} (hs : s ≤ (2 : ℝ) ^ (p + 1)) :
    fl (s + 1) ≤ (2 : ℝ) ^ (p + 1) := by
  by_contra hc
  push Not at hc
  have h1 := gap hp (h (s + 1)).1 hc
  have h2 := (h (s + 1)).2 _ (representable_pow hp (p + 1))
  have h3 := le_abs_self (fl (s + 1) - (s + 1))
  have h4 : |(2 : ℝ) ^ (p + 1) - (s + 1)| ≤ max ((2 : ℝ) ^ (p + 1) - (s + 1)) 1 := by
    rw [abs_le]
    constructor
    · have := le_max_right ((2 : ℝ) ^ (p + 1) - (s + 1)) 1
      linarith
    · exact le_max_left _ _
  rcases max_choice ((2 : ℝ) ^ (p + 1) - (s + 1)) 1 with hm | hm <;> rw [hm] at h4 <;> linarith

end

end Imate.Rounded
