import Verif.Lemmas.GolubKahn

/-! The Golub-Kahn iteration of degree one with re-orthogonalisation (a buffer of one row). -/

namespace Imate.Lanczos

open Matrix

variable {n : Nat} {A : Matrix (Fin n) (Fin n) ℝ} {z : Fin n → ℝ}

theorem golubKahn_degree_one {dot tdot : (Fin n → ℝ) → Except Fault (Fin n → ℝ)}
    (hdot : ∀ x, dot x = .ok (A *ᵥ x)) (htdot : ∀ x, tdot x = .ok (Aᵀ *ᵥ x))
    (hA : Function.Injective A.mulVec) (hz : z ≠ 0) (eps tol : ℝ) (orthogonalize : Int)
    (ho : orthogonalize ≠ 0) (a0 b0 : ℝ) :
    ∃ c, golubKahn Real.sqrt eps dot tdot z 1 tol orthogonalize #[a0] #[b0] = .ok c ∧
      c.size = 1 ∧ c.alpha = #[ga A z 0] ∧
      c.beta = #[Real.sqrt ((Aᵀ *ᵥ gu A z 0 - ga A z 0 • (Aᵀ *ᵥ gu A z 0)) ⬝ᵥ
        (Aᵀ *ᵥ gu A z 0 - ga A z 0 • (Aᵀ *ᵥ gu A z 0)))] := by
  have hb0 : gb A z 0 ≠ 0 := norm_ne_zero hz
  have ha0 : ga A z 0 ≠ 0 := ga_ne_zero hA 0 (fun i hi => by
    obtain rfl : i = 0 := by omega
    exact hb0) 0 le_rfl
  have hbuf : golubKahnBufferSize 1 orthogonalize = 1 := by
    unfold golubKahnBufferSize
    rw [if_neg ho]
    split <;> omega
  have hload : ∀ x : Fin n → ℝ, load (#[some x] : Rows ℝ n) 0 = .ok x := fun x => rfl
  have hstore : ∀ (y x : Option (Fin n → ℝ)), Lanczos.store (#[y] : Rows ℝ n) 0 x = .ok #[x] :=
    fun y x => rfl
  have hrep : (Array.replicate 1 none : Rows ℝ n) = #[none] := rfl
  have hgs : ∀ (V : Rows ℝ n) (l slot : Nat) (k : Nat),
      gramSchmidtIn Real.sqrt eps V 1 l k slot = .ok V := by
    intro V l slot k
    unfold gramSchmidtIn
    have : gsNumSteps n 1 k = 0 := by unfold gsNumSteps; simp
    rw [this]; rfl
  have hnorm : ∀ x : Fin n → ℝ, normalizeIn Real.sqrt (#[some x] : Rows ℝ n) 0 =
      .ok (#[divide x (Lanczos.norm Real.sqrt x)], Lanczos.norm Real.sqrt x) := by
    intro x; rfl
  have hsub : ∀ (x : Fin n → ℝ) (c : ℝ), subtractIn (#[some x] : Rows ℝ n) 0 c 0 =
      .ok #[some (x - c • x)] := by
    intro x c; rfl
  have hdiv0 : divide z (Lanczos.norm Real.sqrt z) = some (gv A z 0) := divide_eq hb0
  have hdiv1 : divide (A *ᵥ gv A z 0) (ga A z 0) = some (gu A z 0) := by
    rw [← gp_zero]; exact divide_eq ha0
  have hna : Lanczos.norm Real.sqrt (A *ᵥ gv A z 0) = ga A z 0 := by rw [← gp_zero]; rfl
  refine ⟨⟨1, #[ga A z 0], #[Lanczos.norm Real.sqrt
    (Aᵀ *ᵥ gu A z 0 - ga A z 0 • (Aᵀ *ᵥ gu A z 0))]⟩, ?_, rfl, rfl, rfl⟩
  unfold golubKahn
  simp only [hbuf, hrep, hstore, Except.ok_bind', hdiv0]
  unfold forRange
  simp only [loopN, Nat.sub_zero]
  rw [if_neg (by simp)]
  unfold golubKahnBody gkSubtractPrevious gkReorthogonalizeU gkReorthogonalizeV
  simp only [Nat.mod_self, hload, Except.ok_bind', hdot, hstore, gt_iff_lt,
    Nat.lt_irrefl, if_false, and_false, hnorm, htdot, hsub, hgs, Nat.mod_one, ite_self, hna, hdiv1]
  rfl

end Imate.Lanczos
