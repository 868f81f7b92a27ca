import Verif.Model.Correlation
import Mathlib.MeasureTheory.Measure.Lebesgue.VolumeOfBalls

/-!
# C52: from the density to the threshold
-/

namespace Imate.Props

open Imate.Sample Real MeasureTheory

theorem gammaEven_eq (m : ℕ) (g : ℝ) : gammaEven m g = g * Gamma (m + 1) := by
  induction m generalizing g with
  | zero => simp [gammaEven]
  | succ m ih =>
    rw [gammaEven, ih]
    push_cast
    rw [Gamma_add_one (s := (m : ℝ) + 1) (by positivity)]
    ring

theorem gammaOdd_eq (m : ℕ) (g : ℝ) : gammaOdd m g = g * (Gamma (m + 1 / 2) / √π) := by
  have hp : √π ≠ 0 := (sqrt_pos.2 pi_pos).ne'
  induction m generalizing g with
  | zero => simp [gammaOdd, -one_div, Gamma_one_half_eq, hp]
  | succ m ih =>
    rw [gammaOdd, ih]
    push_cast
    rw [show (m : ℝ) + 1 + 1 / 2 = (m + 1 / 2) + 1 by ring, Gamma_add_one (s := (m : ℝ) + 1 / 2) (by positivity)]
    ring

theorem ballRadius_eq (v : ℝ) (d : ℕ) : ballRadius v d = (Gamma (d / 2 + 1) * v) ^ (1 / (d : ℝ)) / √π := by
  have hp : √π ≠ 0 := (sqrt_pos.2 pi_pos).ne'
  unfold ballRadius
  rcases Nat.even_or_odd' d with ⟨m, rfl | rfl⟩
  · have h1 : 2 * m % 2 = 0 := by omega
    have h2 : 2 * m / 2 = m := by omega
    simp only [h1, if_true, h2, gammaEven_eq, one_mul]
    congr 4
    push_cast
    ring_nf
  · have h1 : (2 * m + 1) % 2 ≠ 0 := by omega
    have h2 : (2 * m + 1 + 1) / 2 = m + 1 := by omega
    simp only [h1, if_false, h2, gammaOdd_eq]
    rw [mul_div_cancel₀ _ hp]
    congr 4
    push_cast
    ring_nf

/-- The ball with the radius the code computes has the requested volume, in every dimension. -/
theorem ball_radius_volume {v : ℝ} (hv : 0 ≤ v) {d : ℕ} (hd : 0 < d) (c : EuclideanSpace ℝ (Fin d)) :
    volume (Metric.ball c (ballRadius v d)) = ENNReal.ofReal v := by
  have : Nonempty (Fin d) := ⟨⟨0, hd⟩⟩
  have hp : 0 < √π := sqrt_pos.2 pi_pos
  have hG : 0 < Gamma ((d : ℝ) / 2 + 1) := Gamma_pos_of_pos (by positivity)
  have hr : 0 ≤ ballRadius v d := by rw [ballRadius_eq]; positivity
  rw [EuclideanSpace.volume_ball, Fintype.card_fin, ← ENNReal.ofReal_pow hr, ← ENNReal.ofReal_mul (by positivity)]
  congr 1
  rw [ballRadius_eq, div_pow, ← rpow_natCast (_ ^ _), ← rpow_mul (by positivity), one_div,
    inv_mul_cancel₀ (by positivity), rpow_one]
  field_simp

example : volume (Metric.ball (0 : EuclideanSpace ℝ (Fin 3)) (ballRadius 2 3)) = ENNReal.ofReal 2 :=
  ball_radius_volume (by norm_num) (by norm_num) 0

/-- The threshold is the kernel at the documented radius: on a grid with `g ≥ 2` points in each direction and the
spacing `l = 1 / (g - 1)`, the ball of the radius `r / l` has the volume `density * N`, and the threshold is the
kernel at `r / scale`.  `N` is the number of points. -/
theorem threshold_documented (kernel : Kernel) (param : XR ℝ) (scale density : ℝ) {g d : ℕ} (hg : 2 ≤ g) (hd : 0 < d)
    (h : 1 ≤ density * ((g ^ d : ℕ) : ℝ)) :
    ∃ r, kernelThreshold kernel param scale (g ^ d) d density = .ok (kernel (some (r / scale)) param) ∧
      volume (Metric.ball (0 : EuclideanSpace ℝ (Fin d)) (r / (1 / ((g : ℝ) - 1)))) =
        ENNReal.ofReal (density * ((g ^ d : ℕ) : ℝ)) := by
  have hg' : (2 : ℝ) ≤ g := by exact_mod_cast hg
  have hroot : ((g ^ d : ℕ) : ℝ) ^ (1 / (d : ℝ)) = g := by
    push_cast
    rw [one_div, pow_rpow_inv_natCast (by positivity) hd.ne']
  have hne : (g : ℝ) - 1 ≠ 0 := by linarith
  refine ⟨1 / ((g : ℝ) - 1) * ballRadius (density * ((g ^ d : ℕ) : ℝ)) d, ?_, ?_⟩
  · simp only [kernelThreshold, not_lt.2 h, if_false, hroot, hne]
  · rw [mul_div_cancel_left₀ _ (one_div_ne_zero hne), ball_radius_volume (by linarith) hd]

example : (1 : ℝ) ≤ 1 / 10 * ((4 ^ 2 : ℕ) : ℝ) := by norm_num

/-- A density for which a ball holds less than one point is refused. -/
theorem low_density_raises (kernel : Kernel) (param : XR ℝ) (scale density : ℝ) (n d : ℕ) (h : density * n < 1) :
    kernelThreshold kernel param scale n d density = .error .valueError := by
  simp [kernelThreshold, h]

/-- Refuted: with every other argument at its default, `sparse=True` raises. -/
theorem default_sparse_raises (kv : ℝ → ℝ → ℝ) (rand : ℕ → ℕ) (randMax numThreads : ℕ) :
    sparseSetup kv rand randMax 20 1 (1 / 10) "exponential" none true (1 / 1000) numThreads = .error .valueError := by
  have : (generatePoints rand randMax 20 1 true).length = 20 := by simp [generatePoints, gridPoints]
  have h := low_density_raises (exponentialKernel kv) (kernelParam "exponential" none) (1 / 10) (1 / 1000) 20 1
    (by norm_num)
  simp only [sparseSetup, checkKernel, getKernel, this]
  simp [ofNative, h, bind, Except.bind, -one_div]

end Imate.Props
