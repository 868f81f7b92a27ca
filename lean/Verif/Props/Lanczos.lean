import Verif.Lemmas.KrylovGram
import Verif.Lemmas.GramSchmidt
import Verif.Lemmas.GolubKahnOne
import Mathlib.Tactic.NormNum

/-! # C11, C12, C15, C16: the Krylov iterations -/

namespace Imate.Props

open Matrix Imate.Lanczos Imate.Spec

variable {n : Nat} {A : Matrix (Fin n) (Fin n) ℝ} {z : Fin n → ℝ}

/-! ## C11 -/

/-- **C11.** For every symmetric matrix, non-zero start vector, degree and value of `orthogonalize`
the Lanczos iteration runs without touching memory outside its buffers, and its output is a Lanczos
factorisation: `A V = V T + w eᵀ` with `V` orthonormal and started at `z`, `T = VᵀAV` the tridiagonal
matrix of the returned `alpha`, `beta`, and the last `beta` the norm of the residual `w`.  It stops
early only when that norm is below the tolerance. -/
theorem lanczos_correct {dot : (Fin n → ℝ) → Except Fault (Fin n → ℝ)}
    (hdot : ∀ x, dot x = .ok (A *ᵥ x)) (hA : A.IsSymm) (hz : z ≠ 0) (eps tol : ℝ) (htol : 0 < tol)
    (m : Nat) (hm : 1 ≤ m) (orthogonalize : Int) {alpha beta : Array ℝ} (ha : alpha.size = m)
    (hb : beta.size = m) :
    ∃ c, lanczos Real.sqrt eps dot z m tol orthogonalize alpha beta = .ok c ∧
      1 ≤ c.size ∧ c.size ≤ m ∧ c.alpha.size = m ∧ c.beta.size = m ∧
      (∀ i, i + 1 < c.size → tol * Real.sqrt n ≤ c.beta.getD i 0) ∧
      (c.size < m → c.beta.getD (c.size - 1) 0 < tol * Real.sqrt n) ∧
      ∃ (V : Matrix (Fin n) (Fin c.size) ℝ) (w : Fin n → ℝ),
        KrylovFactorisation A z V
          (tridiagonal c.size (fun i => c.alpha.getD i 0) (fun i => c.beta.getD i 0)) w ∧
        c.beta.getD (c.size - 1) 0 = Real.sqrt (w ⬝ᵥ w) := by
  obtain ⟨c, hc, hr⟩ := lanczos_result hdot hA hz eps tol htol m orthogonalize ha hb
  have hpos := hr.pos (by omega)
  have hn : 0 < n := by
    rcases Nat.eq_zero_or_pos n with h | h
    · subst h; exact absurd (Subsingleton.elim z 0) hz
    · exact h
  have hthr : 0 < tol * Real.sqrt n := mul_pos htol (Real.sqrt_pos.2 (by exact_mod_cast hn))
  have hga : ∀ i < c.size, c.alpha.getD i 0 = aa A z i := by
    intro i hi; rw [Array.getD_eq_getD_getElem?, hr.alpha i hi]; rfl
  have hgb : ∀ i < c.size, c.beta.getD i 0 = bb A z (i + 1) := by
    intro i hi; rw [Array.getD_eq_getD_getElem?, hr.beta i hi]; rfl
  have hT : tridiagonal c.size (fun i => c.alpha.getD i 0) (fun i => c.beta.getD i 0) =
      tridiagonal c.size (aa A z) (fun i => bb A z (i + 1)) := by
    ext i j
    unfold tridiagonal
    simp only [hga i.1 i.2, hgb i.1 i.2, hgb j.1 j.2]
  refine ⟨c, hc, hpos, hr.le, hr.asize, hr.bsize, ?_, ?_, cols c.size (vv A z), rr A z c.size, ?_, ?_⟩
  · intro i hi
    rw [hgb i (by omega)]; exact hr.big i hi
  · intro hi
    rw [hgb _ (by omega), Nat.sub_add_cancel hpos]; exact hr.early hi
  · rw [hT]
    apply lanczos_factor hA hpos
    intro i hi
    rcases Nat.eq_zero_or_pos i with rfl | hp
    · exact norm_ne_zero hz
    · have := hr.big (i - 1) (by omega)
      rw [Nat.sub_add_cancel hp] at this
      exact (lt_of_lt_of_le hthr this).ne'
  · rw [hgb _ (by omega), Nat.sub_add_cancel hpos]; rfl

/-- Non-vacuity: a symmetric matrix, a start vector, partial re-orthogonalisation with a window
shorter than the degree. -/
example : ∃ c, lanczos Real.sqrt (1/1000) (fun x => .ok (!![2, 1; 1, 3] *ᵥ x)) ![1, -1] 5 (1/100) 3
    (Array.replicate 5 7) (Array.replicate 5 0) = .ok c ∧ 1 ≤ c.size ∧ c.size ≤ 5 := by
  obtain ⟨c, h, h1, h2, _⟩ := lanczos_correct (n := 2) (A := !![2, 1; 1, 3]) (z := ![1, -1])
    (dot := fun x => .ok (!![2, 1; 1, 3] *ᵥ x)) (fun _ => rfl)
    (by ext i j; fin_cases i <;> fin_cases j <;> rfl)
    (by intro h; have := congrFun h 0; simp at this) (1/1000) (1/100) (by norm_num) 5 (by norm_num) 3
    (alpha := Array.replicate 5 7) (beta := Array.replicate 5 0) (by simp) (by simp)
  exact ⟨c, h, h1, h2⟩

theorem forRange_error {σ : Type _} {body : Nat → σ → Except Fault σ} {m : Nat} (hm : 2 ≤ m)
    {s s1 : σ} {e : Fault} (h0 : body 0 s = .ok s1) (h1 : body 1 s1 = .error e) :
    forRange 0 m body s = .error e := by
  obtain ⟨k, rfl⟩ : ∃ k, m = k + 2 := ⟨m - 2, by omega⟩
  unfold forRange
  show loopN 1 body (k + 2) 0 s = _
  simp only [loopN, h0, Except.ok_bind', Nat.zero_add, h1, Except.error_bind']

/-- **C11 (violation for `lanczos_tol = 0`).**  The value `lanczos_tol = 0` passes the argument checks
(`trace_estimator_utilities.py:236-242`), but then an exact breakdown is not noticed (`beta[j] < 0` is
false) and the next step divides by zero: whenever the start vector is an eigenvector and the degree
is at least two, the result is not a number. -/
theorem lanczos_zero_tolerance {dot : (Fin n → ℝ) → Except Fault (Fin n → ℝ)}
    (hdot : ∀ x, dot x = .ok (A *ᵥ x)) (hA : A.IsSymm) (hz : z ≠ 0) (lam : ℝ)
    (hlam : A *ᵥ z = lam • z) (eps : ℝ) (m : Nat) (hm : 2 ≤ m) (orthogonalize : Int)
    {alpha beta : Array ℝ} (ha : alpha.size = m) (hb : beta.size = m) :
    lanczos Real.sqrt eps dot z m 0 orthogonalize alpha beta = .error .invalid := by
  have hb0 : bb A z 0 ≠ 0 := norm_ne_zero hz
  have hb1 : bb A z 1 = 0 := by
    apply norm_eq_zero.2
    have hv : A *ᵥ vv A z 0 = lam • vv A z 0 := by
      rw [vv_eq, mulVec_smul, rr_zero, hlam, smul_comm]
    rw [rr_one, aa, hv, dotProduct_smul, vv_unit hb0]
    simp
  set buf := lanczosBufferSize m orthogonalize
  set s0 : LanczosState ℝ n := ⟨Array.replicate buf none, z, alpha, beta, 0, false⟩ with hs0
  have hinv : LInv A z m buf (0 * Real.sqrt n) 0 s0 :=
    ⟨ha, hb, by simp [s0], by simp [s0], by simp [s0], by simp [s0], by simp [s0],
      fun _ => ⟨rfl, by simp, rfl, by simp [s0], by simp⟩⟩
  obtain ⟨s1, h1, hi1⟩ := lanczosBody_inv hdot hA eps 0 orthogonalize (j := 0) (by omega)
    (by intro i hi; obtain rfl : i = 0 := by omega
        exact hb0) hinv rfl
  have hstop : s1.stop = false := by
    by_contra hc
    have := (hi1.stopped (by simpa using hc)).2
    rw [zero_mul] at this
    exact absurd this (not_lt.2 (Lanczos.norm_nonneg _))
  obtain ⟨hsz, _, hr, hV⟩ := hi1.running hstop
  have h2 : lanczosBody Real.sqrt eps dot 0 orthogonalize buf (Lanczos.norm Real.sqrt z) 1 s1 =
      .error .invalid := by
    obtain ⟨hbp, _⟩ := lanczosBufferSize_pos (m := m) (j := 1) orthogonalize (by omega)
    have hlt : 1 % buf < s1.V.size := by rw [hV.1]; exact Nat.mod_lt _ hbp
    unfold lanczosBody lanczosNormalize
    have hbeta : rd s1.beta (1 - 1) = .ok 0 := by
      rw [← hb1]; exact rd_ok (hi1.beta 0 (by omega))
    rw [if_neg (by omega), hbeta, Except.ok_bind']
    unfold divide
    rw [if_pos rfl, Lanczos.store, wr_ok hlt, Except.ok_bind', load, rd_ok (x := none) (by simp)]
    rfl
  unfold lanczos
  simp only
  rw [forRange_error hm (s1 := s1) (e := .invalid)]
  · rfl
  · show (if false = true then _ else _) = _
    rw [if_neg (by simp)]; exact h1
  · show (if s1.stop = true then _ else _) = _
    rw [if_neg (by simp [hstop])]; exact h2

/-- Non-vacuity: the identity matrix. -/
example : lanczos Real.sqrt 0 (fun x => .ok ((1 : Matrix (Fin 2) (Fin 2) ℝ) *ᵥ x)) ![1, -1] 20 0 0
    (Array.replicate 20 0) (Array.replicate 20 0) = .error .invalid :=
  lanczos_zero_tolerance (A := 1) (fun _ => rfl) (Matrix.transpose_one)
    (by intro h; have := congrFun h 0; simp at this) 1 (by simp) 0 20 (by norm_num) 0 (by simp) (by simp)

/-! ## C12 -/

/-- **C12.** The option `orthogonalize`, and the uninitialised contents of the output arrays, do not
change the computed size and coefficients. -/
theorem orthogonalize_no_effect {dot : (Fin n → ℝ) → Except Fault (Fin n → ℝ)}
    (hdot : ∀ x, dot x = .ok (A *ᵥ x)) (hA : A.IsSymm) (hz : z ≠ 0) (eps eps' tol : ℝ)
    (htol : 0 < tol) (m : Nat) (hm : 1 ≤ m) (orth orth' : Int) {alpha beta alpha' beta' : Array ℝ}
    (ha : alpha.size = m) (hb : beta.size = m) (ha' : alpha'.size = m) (hb' : beta'.size = m) :
    ∃ c c', lanczos Real.sqrt eps dot z m tol orth alpha beta = .ok c ∧
      lanczos Real.sqrt eps' dot z m tol orth' alpha' beta' = .ok c' ∧
      c.size = c'.size ∧
      ∀ i < c.size, c.alpha[i]? = c'.alpha[i]? ∧ c.beta[i]? = c'.beta[i]? ∧
        c.alpha[i]?.isSome ∧ c.beta[i]?.isSome := by
  obtain ⟨c, hc, hr⟩ := lanczos_result hdot hA hz eps tol htol m orth ha hb
  obtain ⟨c', hc', hr'⟩ := lanczos_result hdot hA hz eps' tol htol m orth' ha' hb'
  have hpos := hr.pos (by omega)
  have hpos' := hr'.pos (by omega)
  have hsz : c.size = c'.size := by
    rcases Nat.lt_trichotomy c.size c'.size with h | h | h
    · have h1 := hr.early (lt_of_lt_of_le h hr'.le)
      have h2 := hr'.big (c.size - 1) (by omega)
      rw [Nat.sub_add_cancel hpos] at h2
      exact absurd h1 (not_lt.2 h2)
    · exact h
    · have h1 := hr'.early (lt_of_lt_of_le h hr.le)
      have h2 := hr.big (c'.size - 1) (by omega)
      rw [Nat.sub_add_cancel hpos'] at h2
      exact absurd h1 (not_lt.2 h2)
  refine ⟨c, c', hc, hc', hsz, ?_⟩
  intro i hi
  rw [hr.alpha i hi, hr.beta i hi, hr'.alpha i (by omega), hr'.beta i (by omega)]
  simp

example : ∃ c c', lanczos Real.sqrt (1/1000) (fun x => .ok (!![2, 1; 1, 3] *ᵥ x)) ![1, -1] 5 (1/100)
      0 (Array.replicate 5 0) (Array.replicate 5 0) = .ok c ∧
    lanczos Real.sqrt (1/1000) (fun x => .ok (!![2, 1; 1, 3] *ᵥ x)) ![1, -1] 5 (1/100) (-1)
      (Array.replicate 5 0) (Array.replicate 5 0) = .ok c' ∧ c.size = c'.size := by
  obtain ⟨c, c', h1, h2, h3, _⟩ := orthogonalize_no_effect (n := 2) (A := !![2, 1; 1, 3])
    (z := ![1, -1]) (dot := fun x => .ok (!![2, 1; 1, 3] *ᵥ x)) (fun _ => rfl)
    (by ext i j; fin_cases i <;> fin_cases j <;> rfl)
    (by intro h; have := congrFun h 0; simp at this) (1/1000) (1/1000) (1/100) (by norm_num) 5
    (by norm_num) 0 (-1) (alpha := Array.replicate 5 0) (beta := Array.replicate 5 0)
    (alpha' := Array.replicate 5 0) (beta' := Array.replicate 5 0) (by simp) (by simp) (by simp)
    (by simp)
  exact ⟨c, c', h1, h2, h3⟩

/-! ## C15 -/

/-- **C15 (all but the last `beta` of degree-one runs).**  For every invertible square matrix, non-zero
start vector, degree `m ≥ 2` (or `m = 1` without re-orthogonalisation) and value of `orthogonalize`, the
Golub-Kahn iteration stays inside its buffers, never uses an unwritten or non-finite vector, and its
output satisfies `A V = U B`, `Aᵀ U = V Bᵀ + q eᵀ` with orthonormal `U`, `V`; consequently `BᵀB` is the
Lanczos matrix of `AᵀA` with the same basis. -/
theorem golub_kahn_correct_partial {dot tdot : (Fin n → ℝ) → Except Fault (Fin n → ℝ)}
    (hdot : ∀ x, dot x = .ok (A *ᵥ x)) (htdot : ∀ x, tdot x = .ok (Aᵀ *ᵥ x))
    (hA : Function.Injective A.mulVec) (hz : z ≠ 0) (eps tol : ℝ) (htol : 0 < tol)
    (m : Nat) (orthogonalize : Int) (hm : 2 ≤ m ∨ (1 ≤ m ∧ orthogonalize = 0))
    {alpha beta : Array ℝ} (ha : alpha.size = m) (hb : beta.size = m) :
    ∃ c, golubKahn Real.sqrt eps dot tdot z m tol orthogonalize alpha beta = .ok c ∧
      1 ≤ c.size ∧ c.size ≤ m ∧ c.alpha.size = m ∧ c.beta.size = m ∧
      (∀ i < c.size, 0 < c.alpha.getD i 0) ∧
      (∀ i, i + 1 < c.size → tol * Real.sqrt n ≤ c.beta.getD i 0) ∧
      (c.size < m → c.beta.getD (c.size - 1) 0 < tol * Real.sqrt n) ∧
      ∃ (U V : Matrix (Fin n) (Fin c.size) ℝ) (q : Fin n → ℝ),
        Bidiagonalisation A z U V
          (bidiagonal c.size (fun i => c.alpha.getD i 0) (fun i => c.beta.getD i 0)) q ∧
        c.beta.getD (c.size - 1) 0 = Real.sqrt (q ⬝ᵥ q) ∧
        KrylovFactorisation (Aᵀ * A) z V
          ((bidiagonal c.size (fun i => c.alpha.getD i 0) (fun i => c.beta.getD i 0))ᵀ *
            bidiagonal c.size (fun i => c.alpha.getD i 0) (fun i => c.beta.getD i 0))
          (c.alpha.getD (c.size - 1) 0 • q) := by
  obtain ⟨c, hc, hr⟩ := golubKahn_result hdot htdot (fun j hj => ga_ne_zero hA j hj) hz eps tol htol m
    orthogonalize hm ha hb
  have hpos := hr.pos (by omega)
  have hn : 0 < n := by
    rcases Nat.eq_zero_or_pos n with h | h
    · subst h; exact absurd (Subsingleton.elim z 0) hz
    · exact h
  have hthr : 0 < tol * Real.sqrt n := mul_pos htol (Real.sqrt_pos.2 (by exact_mod_cast hn))
  have hga : ∀ i < c.size, c.alpha.getD i 0 = ga A z i := by
    intro i hi; rw [Array.getD_eq_getD_getElem?, hr.alpha i hi]; rfl
  have hgb : ∀ i < c.size, c.beta.getD i 0 = gb A z (i + 1) := by
    intro i hi; rw [Array.getD_eq_getD_getElem?, hr.beta i hi]; rfl
  have hB : bidiagonal c.size (fun i => c.alpha.getD i 0) (fun i => c.beta.getD i 0) =
      bidiagonal c.size (ga A z) (fun i => gb A z (i + 1)) := by
    ext i j
    unfold bidiagonal
    simp only [hga i.1 i.2, hgb i.1 i.2]
  have hbne : ∀ i < c.size, gb A z i ≠ 0 := by
    intro i hi
    rcases Nat.eq_zero_or_pos i with rfl | hp
    · exact norm_ne_zero hz
    · have := hr.big (i - 1) (by omega)
      rw [Nat.sub_add_cancel hp] at this
      exact (lt_of_lt_of_le hthr this).ne'
  have hane : ∀ i < c.size, ga A z i ≠ 0 := fun i hi =>
    ga_ne_zero hA (c.size - 1) (fun i hi => hbne i (by omega)) i (by omega)
  have hbid := golubKahn_factor hpos hbne hane
  refine ⟨c, hc, hpos, hr.le, hr.asize, hr.bsize, ?_, ?_, ?_, cols c.size (gu A z),
    cols c.size (gv A z), gq A z c.size, ?_, ?_, ?_⟩
  · intro i hi
    rw [hga i hi]
    exact lt_of_le_of_ne (Lanczos.norm_nonneg _) (Ne.symm (hane i hi))
  · intro i hi
    rw [hgb i (by omega)]; exact hr.big i hi
  · intro hi
    rw [hgb _ (by omega), Nat.sub_add_cancel hpos]; exact hr.early hi
  · rw [hB]; exact hbid
  · rw [hgb _ (by omega), Nat.sub_add_cancel hpos]; rfl
  · rw [hB, hga _ (by omega)]
    exact bidiagonalisation_krylov hbid

theorem invertible_injective {B : Matrix (Fin n) (Fin n) ℝ} (h : B.det ≠ 0) :
    Function.Injective B.mulVec := by
  intro x y hxy
  have h1 := congrArg (fun v => B⁻¹ *ᵥ v) hxy
  simpa [mulVec_mulVec, nonsing_inv_mul B (isUnit_iff_ne_zero.2 h)] using h1

/-- Non-vacuity: an invertible, non-symmetric matrix with partial re-orthogonalisation. -/
example : ∃ c, golubKahn Real.sqrt (1/1000) (fun x => .ok (!![2, 1; 0, 3] *ᵥ x))
    (fun x => .ok ((!![2, 1; 0, 3] : Matrix (Fin 2) (Fin 2) ℝ)ᵀ *ᵥ x)) ![1, -1] 5 (1/100) 3
    (Array.replicate 5 7) (Array.replicate 5 0) = .ok c ∧ 1 ≤ c.size := by
  obtain ⟨c, h, h1, _⟩ := golub_kahn_correct_partial (n := 2) (A := !![2, 1; 0, 3]) (z := ![1, -1])
    (dot := fun x => .ok (!![2, 1; 0, 3] *ᵥ x))
    (tdot := fun x => .ok ((!![2, 1; 0, 3] : Matrix (Fin 2) (Fin 2) ℝ)ᵀ *ᵥ x))
    (fun _ => rfl) (fun _ => rfl)
    (invertible_injective (by simp [Matrix.det_fin_two]))
    (by intro h; have := congrFun h 0; simp at this) (1/1000) (1/100) (by norm_num) 5 3
    (Or.inl (by norm_num)) (alpha := Array.replicate 5 7) (beta := Array.replicate 5 0) (by simp)
    (by simp)
  exact ⟨c, h, h1⟩

/-- **C15 (degree one).**  With `m = 1` and re-orthogonalisation requested, the buffer has a single
row, and the new right vector overwrites the old one before the old one is subtracted.  The diagonal
is still correct; the reported `beta[0]` is `|1 - alpha[0]|·‖Aᵀu‖` instead of `‖Aᵀu - alpha[0] v‖`. -/
theorem golub_kahn_degree_one {dot tdot : (Fin n → ℝ) → Except Fault (Fin n → ℝ)}
    (hdot : ∀ x, dot x = .ok (A *ᵥ x)) (htdot : ∀ x, tdot x = .ok (Aᵀ *ᵥ x))
    (hA : Function.Injective A.mulVec) (hz : z ≠ 0) (eps tol : ℝ) (orthogonalize : Int)
    (ho : orthogonalize ≠ 0) (a0 b0 : ℝ) :
    ∃ c, golubKahn Real.sqrt eps dot tdot z 1 tol orthogonalize #[a0] #[b0] = .ok c ∧
      c.size = 1 ∧ c.alpha = #[ga A z 0] ∧
      c.beta = #[Real.sqrt ((Aᵀ *ᵥ gu A z 0 - ga A z 0 • (Aᵀ *ᵥ gu A z 0)) ⬝ᵥ
        (Aᵀ *ᵥ gu A z 0 - ga A z 0 • (Aᵀ *ᵥ gu A z 0)))] :=
  golubKahn_degree_one hdot htdot hA hz eps tol orthogonalize ho a0 b0

/-- The violation is real: for the 1×1 matrix `2` the true residual is zero, the reported `beta` is
`2`. -/
theorem golub_kahn_degree_one_wrong :
    ∃ c, golubKahn Real.sqrt (0 : ℝ) (fun x => .ok ((2 : Matrix (Fin 1) (Fin 1) ℝ) *ᵥ x))
      (fun x => .ok ((2 : Matrix (Fin 1) (Fin 1) ℝ)ᵀ *ᵥ x)) (fun _ => 1) 1 (1/2) (-1) #[0] #[0] = .ok c ∧
      c.size = 1 ∧ c.alpha = #[2] ∧ c.beta = #[2] ∧ gq (2 : Matrix (Fin 1) (Fin 1) ℝ) (fun _ => 1) 1 = 0 := by
  have h2 : ∀ x : Fin 1 → ℝ, (2 : Matrix (Fin 1) (Fin 1) ℝ) *ᵥ x = (2 : ℝ) • x := by
    intro x
    rw [show (2 : Matrix (Fin 1) (Fin 1) ℝ) = (2 : ℝ) • 1 by
      ext i j; rw [Subsingleton.elim i j]; simp [Matrix.ofNat_apply],
      smul_mulVec, one_mulVec]
  have h2t : ((2 : Matrix (Fin 1) (Fin 1) ℝ))ᵀ = 2 := by ext i j; fin_cases i; fin_cases j; rfl
  have hinj : Function.Injective (2 : Matrix (Fin 1) (Fin 1) ℝ).mulVec := by
    intro x y h
    simp only [h2] at h
    exact smul_right_injective _ (two_ne_zero) h
  have hz : (fun _ => 1 : Fin 1 → ℝ) ≠ 0 := by intro h; have := congrFun h 0; simp at this
  obtain ⟨c, h1, hs, ha, hb⟩ := golub_kahn_degree_one (A := (2 : Matrix (Fin 1) (Fin 1) ℝ))
    (fun _ => rfl) (fun _ => rfl) hinj hz 0 (1/2) (-1) (by norm_num) 0 0
  have hgv : gv (2 : Matrix (Fin 1) (Fin 1) ℝ) (fun _ => 1) 0 = fun _ => 1 := by
    funext i
    show (Lanczos.norm Real.sqrt (fun _ => 1 : Fin 1 → ℝ))⁻¹ * 1 = 1
    simp [Lanczos.norm, dotProduct]
  have hgp : gp (2 : Matrix (Fin 1) (Fin 1) ℝ) (fun _ => 1) 0 = fun _ => 2 := by
    rw [gp_zero, hgv, h2]; funext i; simp
  have hsq : Real.sqrt (2 * 2) = 2 := Real.sqrt_mul_self (by norm_num)
  have hga : ga (2 : Matrix (Fin 1) (Fin 1) ℝ) (fun _ => 1) 0 = 2 := by
    rw [ga, hgp]; simp [Lanczos.norm, dotProduct]
  have hgu : gu (2 : Matrix (Fin 1) (Fin 1) ℝ) (fun _ => 1) 0 = fun _ => 1 := by
    rw [gu, hgp, hga]; funext i; simp
  refine ⟨c, h1, hs, by rw [ha, hga], ?_, ?_⟩
  · rw [hb, hga, hgu, h2t, h2]
    congr 2
    rw [show ((2 : ℝ) • (fun _ => 1 : Fin 1 → ℝ) - (2 : ℝ) • ((2 : ℝ) • fun _ => 1)) ⬝ᵥ
      ((2 : ℝ) • (fun _ => 1 : Fin 1 → ℝ) - (2 : ℝ) • ((2 : ℝ) • fun _ => 1)) = 2 * 2 by
        simp [dotProduct]; norm_num, hsq]
  · rw [gq_succ, hga, hgu, hgv, h2t, h2]; simp

/-- **C15 (violation for singular matrices).**  If the start vector is in the kernel of `A` (in
particular for the zero matrix), `alpha[0] = 0` and the first left vector is `0/0`. -/
theorem golub_kahn_singular {dot tdot : (Fin n → ℝ) → Except Fault (Fin n → ℝ)}
    (hdot : ∀ x, dot x = .ok (A *ᵥ x)) (hz : z ≠ 0) (hker : A *ᵥ z = 0) (eps tol : ℝ)
    (m : Nat) (orthogonalize : Int) (hm : 2 ≤ m ∨ (1 ≤ m ∧ orthogonalize = 0))
    {alpha beta : Array ℝ} (ha : alpha.size = m) :
    golubKahn Real.sqrt eps dot tdot z m tol orthogonalize alpha beta = .error .invalid := by
  have hb0 : gb A z 0 ≠ 0 := norm_ne_zero hz
  have hbuf := golubKahnBufferSize_ge hm
  have hA0 : A *ᵥ gv A z 0 = 0 := by
    show A *ᵥ ((gb A z 0)⁻¹ • z) = 0
    rw [mulVec_smul, hker, smul_zero]
  unfold golubKahn
  set buf := golubKahnBufferSize m orthogonalize
  have hlt0 : 0 < (Array.replicate buf (none : Option (Fin n → ℝ))).size := by simp; omega
  have hz0 : 0 % buf = 0 := Nat.zero_mod _
  obtain ⟨k, rfl⟩ : ∃ k, m = k + 1 := ⟨m - 1, by omega⟩
  simp only
  rw [show divide z (Lanczos.norm Real.sqrt z) = some (gv A z 0) from divide_eq hb0, Lanczos.store,
    wr_ok hlt0, Except.ok_bind']
  unfold forRange
  rw [show k + 1 - 0 = k + 1 from rfl]
  simp only [loopN]
  rw [if_neg (by simp)]
  have hbody : ∀ b, golubKahnBody Real.sqrt eps dot tdot tol orthogonalize buf 0
      ⟨Array.replicate buf none, (Array.replicate buf none).set 0 (some (gv A z 0)) hlt0, alpha, b, 0,
        false⟩ = .error .invalid := by
    intro b
    unfold golubKahnBody gkSubtractPrevious gkReorthogonalizeU
    simp only [hz0]
    rw [load_ok (x := gv A z 0) (by simp), Except.ok_bind', hdot, Except.ok_bind', hA0, Lanczos.store,
      wr_ok hlt0, Except.ok_bind', if_neg (by omega), Except.ok_bind', if_neg (by omega),
      Except.ok_bind']
    unfold normalizeIn
    rw [load_ok (x := 0) (by simp)]
    have hn0 : Lanczos.norm Real.sqrt (0 : Fin n → ℝ) = 0 := norm_eq_zero.2 rfl
    have hd0 : divide (0 : Fin n → ℝ) 0 = none := by unfold divide; rw [if_pos rfl]
    have hlt1 : 0 < ((Array.replicate buf (none : Option (Fin n → ℝ))).set 0 (some 0) hlt0).size := by
      simp; omega
    simp only [Except.ok_bind', hn0, hd0]
    rw [Lanczos.store, wr_ok hlt1, Except.ok_bind', Except.ok_bind']
    simp only
    rw [wr_ok (by omega), Except.ok_bind', load, rd_ok (x := none) (by
      simp only [Array.set_set, Array.getElem?_set_self])]
    rfl
  rw [hbody]
  rfl

/-- Non-vacuity: the zero matrix. -/
example : golubKahn Real.sqrt 0 (fun x => .ok ((0 : Matrix (Fin 2) (Fin 2) ℝ) *ᵥ x))
    (fun x => .ok ((0 : Matrix (Fin 2) (Fin 2) ℝ)ᵀ *ᵥ x)) ![1, -1] 20 (1/100) 0
    (Array.replicate 20 0) (Array.replicate 20 0) = .error .invalid :=
  golub_kahn_singular (A := 0) (fun _ => rfl)
    (by intro h; have := congrFun h 0; simp at this) (by simp) 0 _ 20 0 (by norm_num) (by simp)

/-! ## C16 -/

/-- **C16 (window length).** The number of buffered vectors used. -/
theorem gram_schmidt_window_length (vectorSize numVectors : Nat) (numOrtho : Int)
    (hv : 2 ≤ numVectors) :
    (numOrtho = 0 → gsNumSteps vectorSize numVectors numOrtho = 0) ∧
    ((numOrtho < 0 ∨ numOrtho > numVectors) →
      gsNumSteps vectorSize numVectors numOrtho = min numVectors vectorSize) ∧
    (∀ k : Nat, 0 < k → k ≤ numVectors → numOrtho = k →
      gsNumSteps vectorSize numVectors numOrtho = min k vectorSize) := by
  refine ⟨?_, ?_, ?_⟩
  · intro h; unfold gsNumSteps; rw [if_pos (Or.inl h)]
  · intro h
    unfold gsNumSteps
    rw [if_neg (by omega)]
    simp only
    rw [if_pos h]
    split <;> omega
  · intro k hk hk' h
    unfold gsNumSteps
    rw [if_neg (by omega)]
    subst h
    simp only
    rw [if_neg (by omega : ¬ ((k : Int) < 0 ∨ (k : Int) > numVectors)), Int.toNat_natCast]
    split <;> omega

/-- **C16 (which vectors).** Step `s` visits the row written `s` steps before the last one, wrapping
around the buffer; different steps visit different rows, all inside the buffer. -/
theorem gram_schmidt_visits {numVectors last : Nat} (hl : last < numVectors) :
    (∀ s < numVectors, gsIndex numVectors last s < numVectors ∧
      (gsIndex numVectors last s + s) % numVectors = last) ∧
    (∀ s < numVectors, ∀ t < numVectors,
      gsIndex numVectors last s = gsIndex numVectors last t → s = t) := by
  refine ⟨?_, ?_⟩
  · intro s hs
    unfold gsIndex
    rw [Nat.mod_eq_of_lt hl]
    split
    · rename_i h
      exact ⟨by omega, by rw [Nat.sub_add_cancel h, Nat.mod_eq_of_lt hl]⟩
    · refine ⟨by omega, ?_⟩
      rw [Nat.sub_add_cancel (by omega), Nat.add_mod_right, Nat.mod_eq_of_lt hl]
  · intro s hs t ht h
    rw [gsIndex_window hl hs, gsIndex_window hl ht] at h
    exact window_inj hl hs ht h

/-- **C16 (no fault).** With every row of the buffer written, the process stays inside the buffer. -/
theorem gram_schmidt_in_bounds (eps : ℝ) (V : Rows ℝ n) (numVectors last : Nat) (numOrtho : Int)
    (v : Fin n → ℝ) (hl : last < numVectors) (hV : ∀ i < numVectors, ∃ x, V[i]? = some (some x)) :
    ∃ v', gramSchmidt Real.sqrt eps V numVectors last numOrtho v = .ok v' :=
  gramSchmidt_ok Real.sqrt eps V numVectors last numOrtho v hl hV

/-- **C16 (frame).** When the vector is itself a row of the buffer, no other row changes. -/
theorem gram_schmidt_frame (eps : ℝ) (V V' : Rows ℝ n) (numVectors last : Nat) (numOrtho : Int)
    (slot : Nat) (h : gramSchmidtIn Real.sqrt eps V numVectors last numOrtho slot = .ok V') :
    V'.size = V.size ∧ ∀ i, i ≠ slot → V'[i]? = V[i]? :=
  gramSchmidtIn_frame Real.sqrt eps V V' numVectors last numOrtho slot h

/-- **C16 (result; missing: vectors the two skip rules apply to).** If the rows in the window are
pairwise orthogonal and not tiny, and no coefficient has absolute value within `2·eps` of one, the
result is the vector minus its projections on exactly the window, and it is orthogonal to it. -/
theorem gram_schmidt_result_partial (eps : ℝ) (V : Rows ℝ n) (numVectors last : Nat) (numOrtho : Int)
    (v : Fin n → ℝ) (X : Nat → Fin n → ℝ) (hl : last < numVectors)
    (hV : ∀ i < numVectors, V[i]? = some (some (X i)))
    (window : Nat → Nat) (hw : ∀ s, window s = (last + numVectors - s) % numVectors)
    (ho : ∀ s < gsNumSteps n numVectors numOrtho, ∀ t < gsNumSteps n numVectors numOrtho, s ≠ t →
      X (window s) ⬝ᵥ X (window t) = 0)
    (h0 : ∀ s < gsNumSteps n numVectors numOrtho, X (window s) ≠ 0)
    (h1 : ∀ s < gsNumSteps n numVectors numOrtho,
      eps * Real.sqrt n ≤ Real.sqrt (X (window s) ⬝ᵥ X (window s)))
    (h2 : ∀ s < gsNumSteps n numVectors numOrtho,
      2 * eps < |(|(X (window s) ⬝ᵥ v) / (X (window s) ⬝ᵥ X (window s))| - 1)|) :
    ∃ v', gramSchmidt Real.sqrt eps V numVectors last numOrtho v = .ok v' ∧
      v' = v - ∑ s ∈ Finset.range (gsNumSteps n numVectors numOrtho),
        ((X (window s) ⬝ᵥ v) / (X (window s) ⬝ᵥ X (window s))) • X (window s) ∧
      ∀ s < gsNumSteps n numVectors numOrtho, X (window s) ⬝ᵥ v' = 0 := by
  obtain rfl : window = fun s => (last + numVectors - s) % numVectors := funext hw
  refine ⟨_, gramSchmidt_eq eps V numVectors last numOrtho v X hl hV ho h1 h2, rfl, ?_⟩
  intro s hs
  rw [dotProduct_sub, dot_projections hl (gsNumSteps_le _ _ _) ho (fun s hs h => h0 s hs
    (dotProduct_self_eq_zero.1 h)) hs, sub_self]

/-- Non-vacuity: two orthogonal rows, a vector with a component along both. -/
example : ∃ v', gramSchmidt Real.sqrt (1/100) (#[some ![1, 0], some ![0, 2]] : Rows ℝ 2) 2 1 (-1)
    ![3, 5] = .ok v' ∧ v' = 0 := by
  have hN : gsNumSteps 2 2 (-1) = 2 := by decide
  have hcase : ∀ s < 2, s = 0 ∨ s = 1 := by omega
  have e0 : (1 + 2 - 0) % 2 = 1 := rfl
  have e1 : (1 + 2 - 1) % 2 = 0 := rfl
  obtain ⟨v', h1, h2, _⟩ := gram_schmidt_result_partial (n := 2) (1/100)
    (#[some ![1, 0], some ![0, 2]] : Rows ℝ 2) 2 1 (-1) ![3, 5]
    (fun i => if i = 0 then ![1, 0] else ![0, 2]) (by norm_num)
    (by intro i hi; rcases hcase i hi with rfl | rfl <;> rfl)
    (fun s => (1 + 2 - s) % 2) (fun _ => rfl)
    (by
      rw [hN]
      intro s hs t ht hne
      rcases hcase s hs with rfl | rfl <;> rcases hcase t ht with rfl | rfl <;>
        simp_all [dotProduct, Fin.sum_univ_two])
    (by
      rw [hN]
      intro s hs h
      rcases hcase s hs with rfl | rfl
      · have := congrFun h 1; simp at this
      · have := congrFun h 0; simp at this)
    (by
      rw [hN]
      intro s hs
      apply Real.le_sqrt_of_sq_le
      rw [mul_pow, Real.sq_sqrt (by norm_num)]
      rcases hcase s hs with rfl | rfl <;> simp [dotProduct, Fin.sum_univ_two] <;> norm_num)
    (by
      rw [hN]
      intro s hs
      rcases hcase s hs with rfl | rfl <;> simp [dotProduct, Fin.sum_univ_two] <;> norm_num
      )
  refine ⟨v', h1, ?_⟩
  rw [h2, hN]
  funext i
  fin_cases i <;> simp [Finset.sum_range_succ, dotProduct, Fin.sum_univ_two]
  norm_num

/-- **C16 (violation).** A vector equal to a row of the window is not orthogonalised against it: the
result is the vector itself, although its inner product with that row is one. -/
theorem gram_schmidt_identical_skipped (eps : ℝ) (heps : 0 < eps) (x : Fin n → ℝ)
    (hx : x ⬝ᵥ x = 1) (y : Fin n → ℝ) (hy : y ⬝ᵥ x = 0) :
    gramSchmidt Real.sqrt eps (#[some y, some x] : Rows ℝ n) 2 1 (-1) x = .ok x ∧ x ⬝ᵥ x ≠ 0 := by
  refine ⟨?_, by rw [hx]; exact one_ne_zero⟩
  have hn : 0 < n := by
    rcases Nat.eq_zero_or_pos n with h | h
    · subst h; simp [dotProduct] at hx
    · exact h
  have hstep : gsStep Real.sqrt eps x x = x := by
    unfold gsStep
    simp only
    split
    · rfl
    · rw [if_pos]
      have hnn : Lanczos.norm Real.sqrt x = 1 := by unfold Lanczos.norm; rw [hx, Real.sqrt_one]
      rw [hnn, hx]
      norm_num
      first | positivity | (refine ⟨heps.le, ?_⟩; positivity)
  have hstep2 : gsStep Real.sqrt eps y x = x := gsStep_orthogonal eps hy
  unfold gramSchmidt
  obtain ⟨s', e1, e2⟩ := forRange_inv (body := fun step v => do
    let Vi ← load (#[some y, some x] : Rows ℝ n) (gsIndex 2 1 step)
    .ok (gsStep Real.sqrt eps Vi v)) (fun _ u => u = x)
    (Nat.zero_le (gsNumSteps n 2 (-1))) x rfl (by
      intro i _ hi u hu
      have hN := gsNumSteps_le n 2 (-1)
      have : i = 0 ∨ i = 1 := by omega
      subst hu
      rcases this with rfl | rfl
      · exact ⟨_, rfl, hstep⟩
      · exact ⟨_, rfl, hstep2⟩)
  rw [e1, e2]

example : gramSchmidt Real.sqrt (1/100) (#[some ![0, 1], some ![1, 0]] : Rows ℝ 2) 2 1 (-1) ![1, 0] =
    .ok ![1, 0] :=
  (gram_schmidt_identical_skipped (1/100) (by norm_num) ![1, 0] (by simp [dotProduct]) ![0, 1]
    (by simp [dotProduct])).1

end Imate.Props
