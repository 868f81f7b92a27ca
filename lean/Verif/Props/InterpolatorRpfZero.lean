import Verif.Props.InterpolatorFindings

/-!
# C40: the rational polynomial at zero can be 0/0

The five diagonal entries of `B` are the fourth roots of integers, so that `tau(t)^4` is a polynomial with rational
coefficients, which were chosen such that `tau` takes the values of `(t² + 8 t + 19) / (t + 4)` at the four points.  The
fitted fraction is then this one with both polynomials multiplied by `t`.
-/

namespace Imate.Props

open Imate.Spec Imate.Interp Imate.Eigen Matrix Finset

/-- Fourth powers of the entries of `B`. -/
def zeroW : Fin 5 → ℝ := ![2701577060, 908266515, 5599448470, 9788927148, 2580807]

/-- Quotients of the entries of `A` and `B`. -/
def zeroX : Fin 5 → ℝ := ![1, 2, 4, 5, 30]

theorem zeroW_pos (i : Fin 5) : 0 < zeroW i := by fin_cases i <;> norm_num [zeroW]

theorem zeroX_pos (i : Fin 5) : 0 < zeroX i := by fin_cases i <;> norm_num [zeroX]

/-- Two positive definite diagonal matrices and the Schatten norm of order four. -/
noncomputable def zeroProblem : Problem 5 :=
  ⟨diagonal fun i => zeroX i * zeroW i ^ (1 / 4 : ℝ), some (diagonal fun i => zeroW i ^ (1 / 4 : ℝ)), false, 4,
    fun M => .ok (schattenNorm M 4)⟩

theorem fourth_root {w : ℝ} (hw : 0 < w) : (w ^ (1 / 4 : ℝ)) ^ 4 = w := by
  rw [← Real.rpow_natCast, ← Real.rpow_mul hw.le]
  norm_num

theorem norm_four {d : Fin 5 → ℝ} (hd : ∀ i, 0 < d i) :
    schattenNorm (diagonal d) 4 = ((∑ i, d i ^ 4) / 5) ^ (1 / 4 : ℝ) := by
  rw [schattenNorm_diagonal (by norm_num)]
  have : ∀ i, d i ^ (4 : ℝ) = d i ^ 4 := fun i => by exact_mod_cast Real.rpow_natCast (d i) 4
  simp only [this]
  rw [abs_of_nonneg (by positivity)]
  norm_num

theorem zeroProblem_good : GoodProblem zeroProblem := by
  refine goodProblem_of (by norm_num) ?_ ?_ fun _ _ => rfl
  · exact Interp.posDef_diagonal fun i => mul_pos (zeroX_pos i) (Real.rpow_pos_of_pos (zeroW_pos i) _)
  · intro B h
    injection h with h
    subst h
    exact Interp.posDef_diagonal fun i => Real.rpow_pos_of_pos (zeroW_pos i) _

theorem zeroProblem_eval {t : ℝ} (ht : 0 ≤ t) :
    zeroProblem.eval t = .ok (((∑ i, zeroW i * (zeroX i + t) ^ 4) / 5) ^ (1 / 4 : ℝ)) := by
  unfold Problem.eval
  have : zeroProblem.A + t • zeroProblem.matB = diagonal fun i => (zeroX i + t) * zeroW i ^ (1 / 4 : ℝ) := by
    simp only [zeroProblem, Problem.matB, Option.getD_some]
    rw [← diagonal_smul, diagonal_add]
    congr 1
    funext i
    simp only [Pi.smul_apply, smul_eq_mul]
    ring
  rw [this]
  change Except.ok (schattenNorm _ 4) = _
  rw [norm_four fun i => mul_pos (by linarith [zeroX_pos i]) (Real.rpow_pos_of_pos (zeroW_pos i) _)]
  congr 4
  funext i
  rw [mul_pow, fourth_root (zeroW_pos i), mul_comm]

theorem rpow_quarter {x y : ℝ} (hx : 0 ≤ x) (h : x ^ 4 = y) : y ^ (1 / 4 : ℝ) = x := by
  subst h
  rw [← Real.rpow_natCast, ← Real.rpow_mul hx]
  norm_num

theorem zeroProblem_base {l : List ℝ} {b : Base} (hb : BaseOf zeroProblem l b) :
    b.normB ^ 4 = 19000800000 / 5 ∧ b.tau0 ^ 4 = 9659225787120 / 19000800000 ∧
      ∀ x ∈ b.nodes, 0 ≤ x.1 → ∀ y, 0 ≤ y → y ^ 4 * 19000800000 = ∑ i, zeroW i * (zeroX i + x.1) ^ 4 → x.2 = y := by
  have hn : b.normB ^ 4 = 19000800000 / 5 := by
    have h := hb.normB_eq _ rfl
    have h1 : Except.ok (schattenNorm (diagonal fun i => zeroW i ^ (1 / 4 : ℝ)) 4) = (.ok b.normB : Except PyExc ℝ) := h
    injection h1 with h1
    rw [norm_four fun i => Real.rpow_pos_of_pos (zeroW_pos i) _] at h1
    rw [← h1, fourth_root (by
      have : ∀ i, 0 < (zeroW i ^ (1 / 4 : ℝ)) ^ 4 := fun i => by
        rw [fourth_root (zeroW_pos i)]; exact zeroW_pos i
      exact div_pos (sum_pos (fun i _ => this i) ⟨0, mem_univ _⟩) (by norm_num))]
    simp only [fun i => fourth_root (zeroW_pos i)]
    simp [zeroW, Fin.sum_univ_five]
    norm_num
  have hpos : ∀ t, 0 ≤ t → 0 < (∑ i, zeroW i * (zeroX i + t) ^ 4) / 5 := fun t ht =>
    div_pos (sum_pos (fun i _ => mul_pos (zeroW_pos i) (pow_pos (by linarith [zeroX_pos i]) 4)) ⟨0, mem_univ _⟩)
      (by norm_num)
  refine ⟨hn, ?_, ?_⟩
  · have h := hb.zero
    rw [zeroProblem_eval le_rfl] at h
    injection h with h
    have h4 := congrArg (fun z : ℝ => z ^ 4) h
    beta_reduce at h4
    rw [fourth_root (hpos 0 le_rfl), mul_pow, hn] at h4
    simp [zeroW, zeroX, Fin.sum_univ_five] at h4
    norm_num at h4 ⊢
    linarith
  · intro x hx ht y hy he
    have h := hb.values x hx
    rw [zeroProblem_eval ht] at h
    injection h with h
    have h4 := congrArg (fun z : ℝ => z ^ 4) h
    beta_reduce at h4
    rw [fourth_root (hpos _ ht), mul_pow, hn, ← he] at h4
    have hxy : x.2 ^ 4 = y ^ 4 := by linarith
    have hx2 : 0 ≤ x.2 := by
      have := hb.normB_pos
      have h0 : 0 ≤ x.2 * b.normB := by rw [← h]; exact (Real.rpow_pos_of_pos (hpos _ ht) _).le
      by_contra hneg
      push Not at hneg
      nlinarith
    exact (pow_left_inj₀ hx2 hy (by norm_num)).1 hxy

/-- The system of the four points is solved by `(0, 19, 8, 4)`. -/
theorem zero_system {T : ℝ} (hT : 0 < T) (hT4 : T ^ 4 = 9659225787120 / 19000800000) :
    solve (rpfMatrix 2 T ![1, 2, 6, 11] ![28 / 5, 13 / 2, 103 / 10, 76 / 5])
      (rpfRhs 2 ![1, 2, 6, 11] ![28 / 5, 13 / 2, 103 / 10, 76 / 5]) = .ok ![0, 19, 8, 4] := by
  have hC : rpfMatrix 2 T ![1, 2, 6, 11] ![28 / 5, 13 / 2, 103 / 10, 76 / 5] =
      !![1 - 28 / 5 / T, 1, 1, -(28 / 5); 1 - 13 / 2 / T, 2, 4, -13; 1 - 103 / 10 / T, 6, 36, -(309 / 5);
        1 - 76 / 5 / T, 11, 121, -(836 / 5)] := by
    ext i j
    fin_cases i <;> fin_cases j <;> simp [rpfMatrix] <;> norm_num
  have hne : T ≠ 19 / 4 := by
    rintro rfl
    norm_num at hT4
  have hdet : (rpfMatrix 2 T ![1, 2, 6, 11] ![28 / 5, 13 / 2, 103 / 10, 76 / 5]).det ≠ 0 := by
    rw [hC]
    have h : (!![1 - 28 / 5 / T, 1, 1, -(28 / 5); 1 - 13 / 2 / T, 2, 4, -13; 1 - 103 / 10 / T, 6, 36, -(309 / 5);
        1 - 76 / 5 / T, 11, 121, -(836 / 5)] : Matrix (Fin 4) (Fin 4) ℝ).det = (-24) * (1 - 19 / 4 / T) := by
      simp [det_succ_row_zero, Fin.sum_univ_succ, Fin.succAbove]
      ring
    intro h0
    rw [h] at h0
    have h1 : 1 - 19 / 4 / T = 0 := by simpa using h0
    apply hne
    field_simp at h1
    linarith
  unfold solve
  rw [if_neg hdet]
  congr 1
  have : rpfRhs 2 ![1, 2, 6, 11] ![28 / 5, 13 / 2, 103 / 10, 76 / 5] =
      rpfMatrix 2 T ![1, 2, 6, 11] ![28 / 5, 13 / 2, 103 / 10, 76 / 5] *ᵥ ![0, 19, 8, 4] := by
    rw [hC]
    funext i
    fin_cases i <;> simp [rpfRhs, mulVec, dotProduct, Fin.sum_univ_succ] <;> norm_num
  rw [this, mulVec_mulVec, nonsing_inv_mul _ (isUnit_iff_ne_zero.2 hdet), one_mulVec]

theorem zero_pole {T : ℝ} : ¬ positivePole (rpfDen 2 T ![0, 19, 8, 4]) := by
  rintro ⟨z, hz, hlt⟩
  have h : z * (z + 4) = 0 := by
    have e : rpfDen 2 T ![0, 19, 8, 4] = [1, 4, 0] := by simp [rpfDen, List.ofFn_succ]
    rw [e] at hz
    simp [polyval] at hz
    rcases hz with h | h
    · rw [h, mul_zero]
    · rw [h, zero_mul]
  rcases mul_eq_zero.1 h with rfl | h
  · simp [ltC] at hlt
  · rw [eq_neg_of_add_eq_zero_left h] at hlt
    simp [ltC] at hlt
    norm_num at hlt

theorem rpfInit_eq {b : Base} {q : ℕ} (hq : 2 * q = b.nodes.length) (h0 : b.tau0 ≠ 0) {x : Fin (2 * q) → ℝ}
    (hs : solve (rpfMatrix q b.tau0 (fun i => b.t (i.cast hq)) fun i => b.tau (i.cast hq))
      (rpfRhs q (fun i => b.t (i.cast hq)) fun i => b.tau (i.cast hq)) = .ok x)
    (hp : ¬ positivePole (rpfDen q b.tau0 x)) : rpfInit b = .ok ⟨b, rpfNum q x, rpfDen q b.tau0 x⟩ := by
  have h : b.nodes.length / 2 = q := by omega
  subst h
  unfold rpfInit
  simp only [dif_pos hq, if_neg h0, hs, bind, Except.bind, if_neg hp]

/-- C40: for these positive definite matrices, the Schatten norm of order four and four increasing positive points, the
rational polynomial is made and takes no value at zero: it is 0/0, where the norm of `A` was computed. -/
theorem rpf_no_value_at_zero (st : Interp.Settings) : ∃ f s, GoodProblem zeroProblem ∧ ComputesSchatten zeroProblem ∧
    zeroProblem.create st "rpf" (.list [1, 2, 6, 11]) = .ok f ∧ zeroProblem.eval 0 = .ok s ∧ 0 < s ∧
      zeroProblem.interpolate f 0 = .ok none := by
  classical
  have hP := zeroProblem_good
  obtain ⟨b, hb⟩ := base_some hP (ti := .list [1, 2, 6, 11]) (.inl rfl) (by simp)
  have hb' := base_ok hP (.inl rfl) hb
  obtain ⟨-, h0, hv⟩ := zeroProblem_base hb'
  have hpos := hb'.tau0_pos
  obtain ⟨T, nB, nodes⟩ := b
  simp only at h0 hv hpos
  have hnodes : nodes = [(1, 28 / 5), (2, 13 / 2), (6, 103 / 10), (11, 76 / 5)] := by
    have hp : nodes.map Prod.fst = [1, 2, 6, 11] := hb'.points
    match nodes, hp, hv with
    | [(a1, y1), (a2, y2), (a3, y3), (a4, y4)], hp, hv =>
      simp only [List.map_cons, List.map_nil, List.cons.injEq, and_true] at hp
      obtain ⟨rfl, rfl, rfl, rfl⟩ := hp
      have e1 := hv (1, y1) (by simp) (by norm_num) (28 / 5) (by norm_num) (by
        simp [zeroW, zeroX, Fin.sum_univ_five]; norm_num)
      have e2 := hv (2, y2) (by simp) (by norm_num) (13 / 2) (by norm_num) (by
        simp [zeroW, zeroX, Fin.sum_univ_five]; norm_num)
      have e3 := hv (6, y3) (by simp) (by norm_num) (103 / 10) (by norm_num) (by
        simp [zeroW, zeroX, Fin.sum_univ_five]; norm_num)
      have e4 := hv (11, y4) (by simp) (by norm_num) (76 / 5) (by norm_num) (by
        simp [zeroW, zeroX, Fin.sum_univ_five]; norm_num)
      simp only at e1 e2 e3 e4
      subst e1 e2 e3 e4
      rfl
  subst hnodes
  have hsys := zero_system hpos h0
  have hinit : rpfInit ⟨T, nB, [(1, 28 / 5), (2, 13 / 2), (6, 103 / 10), (11, 76 / 5)]⟩ =
      .ok ⟨⟨T, nB, [(1, 28 / 5), (2, 13 / 2), (6, 103 / 10), (11, 76 / 5)]⟩, rpfNum 2 ![0, 19, 8, 4],
        rpfDen 2 T ![0, 19, 8, 4]⟩ := by
    refine rpfInit_eq (q := 2) (by simp) hpos.ne' ?_ zero_pole
    rw [← hsys]
    congr 2 <;> funext i <;> fin_cases i <;> rfl
  refine ⟨.rpf ⟨⟨T, nB, [(1, 28 / 5), (2, 13 / 2), (6, 103 / 10), (11, 76 / 5)]⟩, rpfNum 2 ![0, 19, 8, 4],
    rpfDen 2 T ![0, 19, 8, 4]⟩, T * nB, hP, fun _ _ => rfl, ?_, hb'.zero, mul_pos hpos hb'.normB_pos, ?_⟩
  · rw [create_rpf]
    simp only [Problem.rpf, Points.toList, bind, Except.bind, hb]
    rw [if_neg (by simp), hinit]
    rfl
  · have e : rpfDen 2 T ![0, 19, 8, 4] = [1, 4, 0] := by simp [rpfDen, List.ofFn_succ]
    simp only [Problem.interpolate, Rpf.interpolate, e]
    simp [polyval, Base.finish]

end Imate.Props
