import Verif.Model.Points
import Mathlib.Data.List.OfFn
import Mathlib.Data.List.Nodup
import Mathlib.Tactic.Ring
import Mathlib.Tactic.Linarith
import Mathlib.Data.Fin.VecNotation
import Mathlib.Tactic.FieldSimp
import Mathlib.Tactic.NormNum
import Mathlib.Tactic.Positivity

/-!
# C48: the points of the correlation matrix
-/

namespace Imate.Props

open Imate.Sample

/-- The first `d` digits of `m` in base `g`. -/
def digs (g : ℕ) : ℕ → ℕ → List ℕ
  | 0, _ => []
  | d + 1, m => (m % g) :: digs g d (m / g)

theorem length_digs (g d m : ℕ) : (digs g d m).length = d := by
  induction d generalizing m with
  | zero => rfl
  | succ d ih => simp [digs, ih]

theorem nextPoint_false (g : ℕ) (l : List ℝ) : nextPoint g false l = l := by
  induction l with
  | nil => rfl
  | cons c l ih => simp [nextPoint, ih]

theorem nextPoint_digs {g : ℕ} (hg : 0 < g) (d m : ℕ) :
    nextPoint g true ((digs g d m).map (fun k : ℕ => (k : ℝ))) = (digs g d (m + 1)).map (fun k : ℕ => (k : ℝ)) := by
  induction d generalizing m with
  | zero => rfl
  | succ d ih =>
    have hlt := Nat.mod_lt m hg
    simp only [digs, List.map_cons, nextPoint]
    have hiff : ((m % g : ℕ) : ℝ) ≥ (g : ℝ) - 1 ↔ m % g + 1 = g := by
      rw [ge_iff_le, sub_le_iff_le_add]
      constructor
      · intro h
        have : g ≤ m % g + 1 := by exact_mod_cast h
        omega
      · intro h
        exact_mod_cast h.ge
    by_cases h : m % g + 1 = g
    · rw [if_pos (hiff.2 h), ih]
      have h1 : m + 1 = g * (m / g + 1) := by
        have := Nat.div_add_mod m g
        rw [Nat.mul_add]
        omega
      have h2 : (m + 1) % g = 0 := by rw [h1]; exact Nat.mul_mod_right _ _
      have h3 : (m + 1) / g = m / g + 1 := by rw [h1]; exact Nat.mul_div_cancel_left _ hg
      rw [h2, h3]
      simp
    · rw [if_neg (fun h' => h (hiff.1 h')), nextPoint_false]
      have h0 := Nat.div_add_mod m g
      have h2 : (m + 1) / g = m / g := by
        conv_lhs => rw [← h0]
        rw [Nat.add_assoc, Nat.mul_add_div hg, Nat.div_eq_of_lt (show m % g + 1 < g by omega), Nat.add_zero]
      have h3 : (m + 1) % g = m % g + 1 := by
        conv_lhs => rw [← h0]
        rw [Nat.add_assoc, Nat.mul_add_mod, Nat.mod_eq_of_lt (show m % g + 1 < g by omega)]
      rw [h2, h3]
      simp

theorem digs_zero (g d : ℕ) : digs g d 0 = List.replicate d 0 := by
  induction d with
  | zero => rfl
  | succ d ih => simp [digs, ih, List.replicate_succ]

theorem latticePoint_eq {g : ℕ} (hg : 0 < g) (d m : ℕ) :
    latticePoint g d m = (digs g d m).map (fun k : ℕ => (k : ℝ)) := by
  induction m with
  | zero => simp [latticePoint, digs_zero]
  | succ m ih => rw [latticePoint, ih, nextPoint_digs hg]

theorem digs_inj {g : ℕ} (d : ℕ) : ∀ m m', m < g ^ d → m' < g ^ d → digs g d m = digs g d m' → m = m' := by
  induction d with
  | zero => intro m m' h h' _; simp at h h'; omega
  | succ d ih =>
    intro m m' h h' he
    simp only [digs, List.cons.injEq] at he
    have h1 := ih (m / g) (m' / g) (Nat.div_lt_of_lt_mul (by rwa [pow_succ, mul_comm] at h))
      (Nat.div_lt_of_lt_mul (by rwa [pow_succ, mul_comm] at h')) he.2
    rw [← Nat.div_add_mod m g, ← Nat.div_add_mod m' g, h1, he.1]

theorem digs_surj {g : ℕ} (hg : 0 < g) (d : ℕ) (f : Fin d → Fin g) :
    ∃ m < g ^ d, digs g d m = List.ofFn (fun k => (f k).1) := by
  induction d with
  | zero => exact ⟨0, by simp, by simp [digs]⟩
  | succ d ih =>
    obtain ⟨m, hm, he⟩ := ih (fun k => f k.succ)
    have h0 := (f 0).2
    refine ⟨(f 0).1 + g * m, ?_, ?_⟩
    · calc (f 0).1 + g * m < g + g * m := by omega
        _ = g * (m + 1) := by ring
        _ ≤ g * g ^ d := Nat.mul_le_mul_left _ hm
        _ = g ^ (d + 1) := by rw [pow_succ, mul_comm]
    · rw [List.ofFn_succ]
      simp only [digs]
      rw [Nat.add_mul_mod_self_left, Nat.mod_eq_of_lt h0, Nat.add_mul_div_left _ _ hg, Nat.div_eq_of_lt h0,
        Nat.zero_add, he]

theorem digs_lt {g : ℕ} (hg : 0 < g) (d m : ℕ) : ∀ k ∈ digs g d m, k < g := by
  induction d generalizing m with
  | zero => simp [digs]
  | succ d ih =>
    intro k hk
    rcases List.mem_cons.1 hk with rfl | hk
    · exact Nat.mod_lt _ hg
    · exact ih _ k hk

/-- With at least two points in each direction, the points are the nodes of the lattice on the unit cube, each of
them once. -/
theorem grid_points_lattice {g : ℕ} (hg : 2 ≤ g) (d : ℕ) :
    (gridPoints g d).length = g ^ d ∧ (gridPoints g d).Nodup ∧
      ∀ v : Point, v ∈ gridPoints g d ↔
        ∃ f : Fin d → Fin g, v = List.ofFn fun k => some (((f k).1 : ℝ) / ((g : ℝ) - 1)) := by
  have hg0 : 0 < g := by omega
  have hg1 : (g : ℝ) - 1 ≠ 0 := by
    have : (2 : ℝ) ≤ g := by exact_mod_cast hg
    linarith
  have hsc : ∀ p, (latticePoint g d p).map (scaleCoord g) =
      (digs g d p).map fun k : ℕ => some ((k : ℝ) / ((g : ℝ) - 1)) := by
    intro p
    rw [latticePoint_eq hg0, List.map_map]
    refine List.map_congr_left fun k _ => ?_
    simp only [Function.comp, scaleCoord]
    rw [if_neg (by omega), mul_one_div]
  have hinj : Function.Injective fun k : ℕ => some ((k : ℝ) / ((g : ℝ) - 1)) := by
    intro k k' h
    have h' : (k : ℝ) / ((g : ℝ) - 1) = (k' : ℝ) / ((g : ℝ) - 1) := Option.some.inj h
    rw [div_left_inj' hg1] at h'
    exact_mod_cast h'
  refine ⟨by simp [gridPoints], ?_, fun v => ?_⟩
  · unfold gridPoints
    refine List.Nodup.map_on ?_ List.nodup_range
    intro p hp p' hp' h
    rw [hsc, hsc] at h
    exact digs_inj d p p' (List.mem_range.1 hp) (List.mem_range.1 hp') (List.map_injective_iff.2 hinj h)
  · unfold gridPoints
    simp only [List.mem_map, List.mem_range]
    constructor
    · rintro ⟨p, _, rfl⟩
      refine ⟨fun k => ⟨(digs g d p)[k.1]'(by rw [length_digs]; exact k.2), digs_lt hg0 d p _ (List.getElem_mem _)⟩, ?_⟩
      rw [hsc]
      apply List.ext_getElem
      · simp [length_digs]
      · intro i h1 h2
        simp
    · rintro ⟨f, rfl⟩
      obtain ⟨m, hm, he⟩ := digs_surj hg0 d f
      refine ⟨m, hm, ?_⟩
      rw [hsc, he, List.map_ofFn]
      rfl

example : ∃ v ∈ gridPoints 3 2, v = [some (1 / 2), some 1] := by
  refine ⟨_, ((grid_points_lattice (by norm_num) 2).2.2 _).2 ⟨![1, 2], rfl⟩, ?_⟩
  norm_num [List.ofFn_succ]

/-- All coordinates are in the unit interval, on the grid and for random points. -/
theorem points_in_unit_cube (rand : ℕ → ℕ) {randMax : ℕ} (hr : ∀ k, rand k ≤ randMax) {size : ℕ} (d : ℕ) (grid : Bool)
    (hg : grid = true → 2 ≤ size) :
    ∀ v ∈ generatePoints rand randMax size d grid, v.length = d ∧ ∀ c ∈ v, ∃ x : ℝ, c = some x ∧ 0 ≤ x ∧ x ≤ 1 := by
  intro v hv
  cases grid
  · simp only [generatePoints, randomPoints, Bool.false_eq_true, if_false, List.mem_map] at hv
    obtain ⟨p, _, rfl⟩ := hv
    refine ⟨by simp, fun c hc => ?_⟩
    obtain ⟨k, _, rfl⟩ := List.mem_map.1 hc
    exact ⟨_, rfl, by positivity, div_le_one_of_le₀ (by exact_mod_cast hr _) (by positivity)⟩
  · simp only [generatePoints, if_true] at hv
    obtain ⟨f, rfl⟩ := ((grid_points_lattice (hg rfl) d).2.2 v).1 hv
    refine ⟨by simp, fun c hc => ?_⟩
    obtain ⟨k, rfl⟩ := List.mem_ofFn.1 hc
    have h2 : (2 : ℝ) ≤ size := by exact_mod_cast hg rfl
    have hk : ((f k).1 : ℝ) ≤ (size : ℝ) - 1 := by
      rw [le_sub_iff_add_le]
      exact_mod_cast (f k).2
    exact ⟨_, rfl, div_nonneg (by positivity) (by linarith), div_le_one_of_le₀ hk (by linarith)⟩

/-- With one point in each direction (`size=1`, `grid=True`) every coordinate of the point is `nan`. -/
theorem grid_size_one_nan (d : ℕ) : gridPoints 1 d = [List.replicate d none] := by
  have : (latticePoint 1 d 0).map (scaleCoord 1) = List.replicate d none := by simp [latticePoint, scaleCoord]
  simp [gridPoints, this]

/-- C48: every number of the generator is used for one coordinate, in the order in which they come. -/
theorem random_points_numbers (rand : ℕ → ℕ) (randMax size d : ℕ) :
    (generatePoints rand randMax size d false).flatten =
      (List.range (size * d)).map fun k => some ((rand k : ℝ) / randMax) := by
  have h : generatePoints rand randMax size d false = randomPoints rand randMax size d := rfl
  rw [h]
  clear h
  unfold randomPoints
  induction size with
  | zero => simp
  | succ size ih =>
    rw [List.range_succ, List.map_append, List.flatten_append, ih, Nat.succ_mul, List.range_add, List.map_append]
    simp [Function.comp_def]

end Imate.Props
