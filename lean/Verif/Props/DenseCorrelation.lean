import Verif.Lemmas.Dense
import Verif.Lemmas.GaussianKernel
import Verif.Spec.Correlation
import Verif.Props.Kernel
import Verif.Props.Points
import Mathlib.LinearAlgebra.Matrix.PosDef

/-!
# C49: the dense correlation matrix
-/

namespace Imate.Props

open Imate.Sample Imate.Bessel Imate.Spec Real

/-- The points `pts` of the program are the points `x` of the space. -/
def HoldsPoints {n d : ℕ} (pts : List Point) (x : Fin n → EuclideanSpace ℝ (Fin d)) : Prop :=
  pts = List.ofFn fun i => List.ofFn fun k => some (x i k)

/-- The arguments `kernel` and `kernel_param` that choose the Matern correlation of the smoothness `nu > 0`: the
exponential kernel is the one of smoothness 1/2, whatever the parameter, and the default of `matern` is 1/2. -/
def Chooses (kernel : String) (param : Option (XR ℝ)) (nu : ℝ) : Prop :=
  0 < nu ∧ ((kernel = "exponential" ∧ nu = 1 / 2) ∨ (kernel = "matern" ∧ param = none ∧ nu = 1 / 2) ∨
    (kernel = "matern" ∧ param = some (.fin nu)))

theorem distance2_ofFn : ∀ {d : ℕ} (x y : Fin d → ℝ),
    distance2 (List.ofFn fun k => some (x k)) (List.ofFn fun k => some (y k)) = some (∑ k, (x k - y k) ^ 2)
  | 0, _, _ => by simp [distance2]
  | d + 1, x, y => by
    have h := distance2_ofFn (fun k => x k.succ) (fun k => y k.succ)
    rw [List.ofFn_succ, List.ofFn_succ]
    simp only [distance2, h, Fin.sum_univ_succ]

theorem euclideanDistance_ofFn {d : ℕ} (x y : EuclideanSpace ℝ (Fin d)) (scale : ℝ) :
    euclideanDistance (List.ofFn fun k => some (x k)) (List.ofFn fun k => some (y k)) scale =
      some (dist x y / scale) := by
  rw [euclideanDistance, distance2_ofFn (fun k => x k) (fun k => y k), EuclideanSpace.dist_eq]
  simp [Real.dist_eq, sq_abs]

theorem maternKernel_spec {kv : ℝ → ℝ → ℝ} (hkv : IsBesselK kv) {nu x : ℝ} (hnu : 0 < nu) (hx : 0 ≤ x) :
    maternKernel kv (some x) (.fin nu) = some (maternCorrelation nu x) := by
  unfold maternCorrelation
  by_cases h : nu < 100
  · rw [matern_kernel_documented hkv hnu h hx]
    simp [h]
  · rw [maternKernel_gauss kv (not_lt.1 h)]
    by_cases h0 : x = 0 <;> simp [h, h0]

theorem chosen_kernel {kv : ℝ → ℝ → ℝ} (hkv : IsBesselK kv) {kernel : String} {param : Option (XR ℝ)} {nu : ℝ}
    (h : Chooses kernel param nu) :
    checkKernel kernel = .ok () ∧ ∃ k, getKernel kv kernel = .ok k ∧
      ∀ x, 0 ≤ x → k (some x) (kernelParam kernel param) = some (maternCorrelation nu x) := by
  obtain ⟨hnu, ⟨rfl, rfl⟩ | ⟨rfl, rfl, rfl⟩ | ⟨rfl, rfl⟩⟩ := h
  · exact ⟨by simp [checkKernel], exponentialKernel kv, by simp [getKernel], fun x hx => maternKernel_spec hkv hnu hx⟩
  · refine ⟨by simp [checkKernel], maternKernel kv, by simp [getKernel], fun x hx => ?_⟩
    simpa [kernelParam] using maternKernel_spec hkv hnu hx
  · refine ⟨by simp [checkKernel], maternKernel kv, by simp [getKernel], fun x hx => ?_⟩
    simpa [kernelParam] using maternKernel_spec hkv hnu hx

theorem correlation_eq {n d : ℕ} {k : Kernel} {p : XR ℝ} {nu scale : ℝ} (hs : 0 < scale) {pts : List Point}
    {x : Fin n → EuclideanSpace ℝ (Fin d)} (hp : HoldsPoints pts x)
    (hk : ∀ r, 0 ≤ r → k (some r) p = some (maternCorrelation nu r)) (i j : Fin n) :
    correlation k p scale pts i j = some (correlationMatrix nu scale x i j) := by
  rw [HoldsPoints] at hp
  have hget : ∀ i : Fin n, pts.getD i [] = List.ofFn fun k => some (x i k) := by
    intro i
    simp [hp, List.getD_eq_getElem?_getD]
  rw [correlation, hget, hget, euclideanDistance_ofFn, hk _ (by positivity)]
  rfl

theorem correlationMatrix_symm {n d : ℕ} (nu scale : ℝ) (x : Fin n → EuclideanSpace ℝ (Fin d)) (i j : Fin n) :
    correlationMatrix nu scale x i j = correlationMatrix nu scale x j i := by
  simp [correlationMatrix, dist_comm]

/-- The points the program generates are points of the space: all of the grid, with at least two in each direction,
each once; or the random ones. -/
theorem generated_points (rand : ℕ → ℕ) {randMax : ℕ} (hr : ∀ k, rand k ≤ randMax) {size : ℕ} (d : ℕ) (grid : Bool)
    (hg : grid = true → 2 ≤ size) :
    ∃ x : Fin (if grid then size ^ d else size) → EuclideanSpace ℝ (Fin d),
      HoldsPoints (generatePoints rand randMax size d grid) x ∧ (grid = true → Function.Injective x) ∧
      ∀ i k, 0 ≤ x i k ∧ x i k ≤ 1 := by
  have hcube := points_in_unit_cube rand hr d grid hg
  set pts := generatePoints rand randMax size d grid with hpts
  have hlen : pts.length = if grid then size ^ d else size := by
    cases grid <;> simp [hpts, generatePoints, randomPoints, gridPoints]
  have hall : ∀ i : Fin (if grid then size ^ d else size), ∃ v : Fin d → ℝ,
      pts[i.1]'(by rw [hlen]; exact i.2) = (List.ofFn fun k => some (v k)) ∧ ∀ k, 0 ≤ v k ∧ v k ≤ 1 := by
    intro i
    obtain ⟨h1, h2⟩ := hcube _ (List.getElem_mem (by rw [hlen]; exact i.2 : i.1 < pts.length))
    set v := pts[i.1]'(by rw [hlen]; exact i.2)
    choose! f hf using h2
    refine ⟨fun k => f (v[k.1]'(by rw [h1]; exact k.2)), ?_, fun k => (hf _ (List.getElem_mem _)).2⟩
    refine List.ext_getElem (by simp [h1]) fun k hk hk' => ?_
    rw [List.getElem_ofFn]
    exact (hf _ (List.getElem_mem hk)).1
  choose v hv hv01 using hall
  have hp : HoldsPoints pts fun i => WithLp.toLp 2 (v i) := by
    refine List.ext_getElem (by simp [hlen]) fun i hi hi' => ?_
    rw [List.getElem_ofFn]
    exact hv ⟨i, by rw [← hlen]; exact hi⟩
  refine ⟨fun i => WithLp.toLp 2 (v i), hp, fun hgrid i j hij => ?_, fun i k => hv01 i k⟩
  have hnd : pts.Nodup := by
    rw [hpts, hgrid]
    exact (grid_points_lattice (hg hgrid) d).2.1
  have hvv : v i = v j := by simpa using hij
  have : pts[i.1]'(by rw [hlen]; exact i.2) = pts[j.1]'(by rw [hlen]; exact j.2) := by rw [hv i, hv j, hvv]
  exact Fin.ext (hnd.getElem_inj_iff.1 this)

/-- The dense correlation matrix is the documented one under every schedule: no thread accesses memory outside of the
matrix, and the entry `(i, j)` is the Matern correlation of the scaled distance of the generated points `i` and `j`. -/
theorem dense_correlation_correct {kv : ℝ → ℝ → ℝ} (hkv : IsBesselK kv) (rand : ℕ → ℕ) {randMax : ℕ}
    (hr : ∀ k, rand k ≤ randMax) {size : ℕ} (d : ℕ) {scale : ℝ} (hs : 0 < scale) {kernel : String}
    {param : Option (XR ℝ)} {nu : ℝ} (hk : Chooses kernel param nu) (grid : Bool) (hg : grid = true → 2 ≤ size) :
    let n := if grid then size ^ d else size
    ∃ x : Fin n → EuclideanSpace ℝ (Fin d),
      HoldsPoints (generatePoints rand randMax size d grid) x ∧ (grid = true → Function.Injective x) ∧
      ∀ numThreads started es, 0 < started → Interleaving (densePrograms n numThreads started) es →
        ∃ c, correlationDense kv rand randMax size d scale kernel param grid es = .ok c ∧ c.size = n * n ∧
          ∀ i j : Fin n, c[i.1 * n + j.1]? = some (some (correlationMatrix nu scale x i j)) := by
  intro n
  obtain ⟨x, hp, hinj, _⟩ := generated_points rand hr d grid hg
  refine ⟨x, hp, hinj, fun T started es hst hi => ?_⟩
  obtain ⟨hc, k, hgk, hkk⟩ := chosen_kernel hkv hk
  have hlen : (generatePoints rand randMax size d grid).length = n := by rw [hp]; simp [n]
  obtain ⟨c, h1, h2, h3⟩ := denseRun_correct
    (correlation k (kernelParam kernel param) scale (generatePoints rand randMax size d grid)) (some 0) n T hst hi
  refine ⟨c, ?_, h2, fun i j => ?_⟩
  · simp only [correlationDense, hc, hgk, hlen]
    simp [ofNative, h1, bind, Except.bind]
  · rw [h3 i j i.2 j.2]
    rcases le_total i j with h | h
    · rw [min_eq_left (show i.1 ≤ j.1 from h), max_eq_right (show i.1 ≤ j.1 from h), correlation_eq hs hp hkk]
    · rw [min_eq_right (show j.1 ≤ i.1 from h), max_eq_left (show j.1 ≤ i.1 from h), correlation_eq hs hp hkk,
        correlationMatrix_symm]

/-- The correlation matrix has ones on the diagonal, entries in (0, 1], is symmetric, and is positive definite when
the points are distinct (as on the grid). -/
theorem correlation_matrix_posDef {n d : ℕ} {nu scale : ℝ} (hnu : 0 < nu) (hs : 0 < scale)
    {x : Fin n → EuclideanSpace ℝ (Fin d)} :
    (∀ i, correlationMatrix nu scale x i i = 1) ∧
    (∀ i j, 0 < correlationMatrix nu scale x i j ∧ correlationMatrix nu scale x i j ≤ 1) ∧
    (correlationMatrix nu scale x).IsSymm ∧
    (Function.Injective x → (correlationMatrix nu scale x).PosDef) := by
  have key : ∃ f, IsCorrelation f ∧ ∀ r, 0 ≤ r → maternCorrelation nu r = f r := by
    obtain ⟨f, hf, he⟩ := (kernels_are_correlations_partial (kv := besselK) fun _ _ _ _ => rfl).1 nu hnu
    refine ⟨f, hf, fun r hr => ?_⟩
    have := (maternKernel_spec (kv := besselK) (fun _ _ _ _ => rfl) hnu hr).symm.trans (he r hr)
    simpa using this
  obtain ⟨f, hf, he⟩ := key
  have hr : ∀ i j, 0 ≤ dist (x i) (x j) / scale := fun i j => by positivity
  have hsymm : (correlationMatrix nu scale x).IsSymm := by
    ext i j
    exact correlationMatrix_symm nu scale x j i
  refine ⟨fun i => by simp [correlationMatrix, maternCorrelation], fun i j => ?_, hsymm, fun hinj => ?_⟩
  · have : correlationMatrix nu scale x i j = f (dist (x i) (x j) / scale) := he _ (hr i j)
    rw [this]
    exact hf.2.1 _ (hr i j)
  · refine Matrix.PosDef.of_dotProduct_mulVec_pos ?_ fun v hv => ?_
    · rw [Matrix.IsHermitian, Matrix.conjTranspose_eq_transpose_of_trivial]
      exact hsymm
    · have hsum : star v ⬝ᵥ (correlationMatrix nu scale x).mulVec v =
          ∑ i, ∑ j, v i * v j * correlationMatrix nu scale x i j := by
        simp only [dotProduct, Matrix.mulVec, star_trivial, Finset.mul_sum]
        exact Finset.sum_congr rfl fun i _ => Finset.sum_congr rfl fun j _ => by ring
      rw [hsum]
      by_cases h : nu < 100
      · have hc : ∀ i j, correlationMatrix nu scale x i j =
            mix nu (nu / (2 * scale ^ 2) * ‖x i - x j‖ ^ 2) * (Gamma nu)⁻¹ := by
          intro i j
          have h1 := maternKernel_spec (kv := besselK) (fun _ _ _ _ => rfl) hnu (hr i j)
          rw [maternKernel_mix (fun _ _ _ _ => rfl) hnu h (hr i j)] at h1
          rw [correlationMatrix, Matrix.of_apply, ← Option.some.inj h1, div_eq_mul_inv, dist_eq_norm]
          congr 2
          field_simp
        have := mix_posDef hnu (c := nu / (2 * scale ^ 2)) (by positivity) hinj hv
        have hG := Gamma_pos_of_pos hnu
        simp only [hc, ← mul_assoc, ← Finset.sum_mul]
        positivity
      · have hc : ∀ i j, correlationMatrix nu scale x i j = exp (-(1 / (2 * scale ^ 2)) * ‖x i - x j‖ ^ 2) := by
          intro i j
          have h1 := maternKernel_spec (kv := besselK) (fun _ _ _ _ => rfl) hnu (hr i j)
          rw [maternKernel_gauss _ (not_lt.1 h)] at h1
          rw [correlationMatrix, Matrix.of_apply, ← Option.some.inj h1, dist_eq_norm]
          congr 1
          field_simp
        simp only [hc]
        exact gauss_posDef (by positivity) hinj hv

/-- A case: four points on a line, three threads. -/
example : Chooses "matern" (some (.fin (7 / 2))) (7 / 2) ∧ IsBesselK besselK ∧
    ∃ es, Interleaving (densePrograms 4 3 3) es := by
  refine ⟨⟨by norm_num, .inr (.inr ⟨rfl, rfl⟩)⟩, fun _ _ _ _ => rfl, ?_⟩
  have : ∀ ps : List (List DenseAct), ∃ es, Interleaving ps es := by
    intro ps
    generalize hN : (ps.map List.length).sum = N
    induction N using Nat.strong_induction_on generalizing ps with
    | _ N ih =>
      by_cases h : ∀ p ∈ ps, p = []
      · exact ⟨[], .done h⟩
      · push Not at h
        obtain ⟨p, hp, hne⟩ := h
        obtain ⟨t, ht, rfl⟩ := List.mem_iff_getElem.1 hp
        obtain ⟨e, rest, he⟩ := List.exists_cons_of_ne_nil hne
        have hsum : ((ps.set t rest).map List.length).sum < N := by
          rw [← hN]
          conv_rhs => rw [← List.set_getElem_self ht, he]
          rw [List.map_set, List.map_set, List.sum_set, List.sum_set]
          simp [ht]
        obtain ⟨es, hes⟩ := ih _ hsum _ rfl
        exact ⟨e :: es, .step (by rw [List.getElem?_eq_getElem ht, he]) hes⟩
  exact this _

/-- Refuted: on the grid with one point the matrix is `nan` instead of one. -/
theorem dense_size_one_nan (kv : ℝ → ℝ → ℝ) (rand : ℕ → ℕ) (randMax : ℕ) {d : ℕ} (hd : 0 < d) :
    correlationDense kv rand randMax 1 d (1 / 10) "exponential" none true [.compute 0 0] = .ok #[none] := by
  obtain ⟨d, rfl⟩ : ∃ e, d = e + 1 := ⟨d - 1, by omega⟩
  have hp : generatePoints rand randMax 1 (d + 1) true = [List.replicate (d + 1) none] := by
    rw [generatePoints, if_pos rfl, grid_size_one_nan]
  simp [correlationDense, checkKernel, getKernel, hp, ofNative, denseRun, denseExec, wr, correlation,
    euclideanDistance, distance2, List.replicate_succ, exponentialKernel, maternKernel, bind, Except.bind, pure, Except.pure]

end Imate.Props
