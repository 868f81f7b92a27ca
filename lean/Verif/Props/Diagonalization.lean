import Verif.Lemmas.Diagonalization
import Mathlib.Tactic.NormNum
import Mathlib.Tactic.FinCases

/-! # C68, C69: the decomposition step of a sample -/

namespace Imate.Props

open Matrix Imate.Lanczos Imate.Spec Imate.Diagonalization Polynomial

variable {n : Nat}

/-! ## C68: a failure of the decomposition -/

/-- **C68, refuted.** Whatever LAPACK reports makes no difference: for every LAPACK, operator, function, vector and
options a sample is what it would be if every call had returned `info = 0`.  No data type reports a failure. -/
theorem decomposition_info_ignored {K : Type _} [Field K] [LinearOrder K] (ext : External K) (opt : Options K)
    (op : Operator K n) (f : K → K) (parameters : Array K) (num : Nat) (z : Fin n → K) (junkAlpha junkBeta : Array K)
    (converged : Array Bool) (estimate : Array K) (toDouble : K → K) (junk : Nat → K) (junkInt : Nat → Int)
    (stev : StevRoutine K) (bdsdc : BdsdcRoutine K) :
    slqSample (direct ext junk junkInt stev bdsdc) opt op f parameters num z junkAlpha junkBeta converged estimate =
      slqSample (direct ext junk junkInt (fun n d e z w => { stev n d e z w with info := 0 })
        (fun n d e u v w i => { bdsdc n d e u v w i with info := 0 }))
        opt op f parameters num z junkAlpha junkBeta converged estimate ∧
    slqSample (long ext toDouble junk junkInt stev bdsdc) opt op f parameters num z junkAlpha junkBeta converged
        estimate =
      slqSample (long ext toDouble junk junkInt (fun n d e z w => { stev n d e z w with info := 0 })
        (fun n d e u v w i => { bdsdc n d e u v w i with info := 0 }))
        opt op f parameters num z junkAlpha junkBeta converged estimate := by
  have h1 : ∀ (f g : Nat → Array K → Array K → Array K → Array K → Except Fault (Stev K)),
      (∀ n d e z w, (f n d e z w).map (fun r => (r.d, r.z)) = (g n d e z w).map (fun r => (r.d, r.z))) →
      eigh junk f = eigh junk g := by
    intro f g h
    funext k a b
    unfold eigh eighTridiagonal
    cases hw : newArray junk (2 * (k : Int) - 2) with
    | error _ => rfl
    | ok w =>
      rw [Except.ok_bind', Except.ok_bind']
      have := h k a b (Array.ofFn (fun i : Fin (k * k) => junk i.1)) w
      cases hf : f k a b (Array.ofFn (fun i : Fin (k * k) => junk i.1)) w <;>
        cases hg : g k a b (Array.ofFn (fun i : Fin (k * k) => junk i.1)) w <;>
        rw [hf, hg] at this <;> simp only [Except.map, reduceCtorEq, Except.ok.injEq] at this
      · rfl
      · exact this
  have h2 : ∀ (f g : Nat → Array K → Array K → Array K → Array K → Array K → Array Int → Except Fault (Bdsdc K)),
      (∀ n d e u v w i, (f n d e u v w i).map (fun r => (r.d, r.vt)) = (g n d e u v w i).map (fun r => (r.d, r.vt))) →
      svd junk junkInt f = svd junk junkInt g := by
    intro f g h
    funext k a b
    unfold svd svdBidiagonal
    cases hw : newArray junk (3 * (k : Int) * k + 4 * k) with
    | error _ => rfl
    | ok w =>
      rw [Except.ok_bind', Except.ok_bind']
      cases hi : newArray junkInt (8 * (k : Int)) with
      | error _ => rfl
      | ok iw =>
        rw [Except.ok_bind', Except.ok_bind']
        have := h k a b (Array.ofFn (fun i : Fin (k * k) => junk i.1)) (Array.ofFn (fun i : Fin (k * k) => junk i.1)) w iw
        cases hf : f k a b (Array.ofFn (fun i : Fin (k * k) => junk i.1))
            (Array.ofFn (fun i : Fin (k * k) => junk i.1)) w iw <;>
          cases hg : g k a b (Array.ofFn (fun i : Fin (k * k) => junk i.1))
            (Array.ofFn (fun i : Fin (k * k) => junk i.1)) w iw <;>
          rw [hf, hg] at this <;> simp only [Except.map, reduceCtorEq, Except.ok.injEq] at this
        · rfl
        · exact this
  constructor
  · congr 1
    unfold direct
    rw [h1 (directStev stev) (directStev (fun n d e z w => { stev n d e z w with info := 0 })) (fun _ _ _ _ _ => rfl),
      h2 (directBdsdc bdsdc) (directBdsdc (fun n d e u v w i => { bdsdc n d e u v w i with info := 0 }))
        (fun _ _ _ _ _ _ _ => rfl)]
  · congr 1
    unfold long
    rw [h1 (longStev toDouble junk stev) (longStev toDouble junk (fun n d e z w => { stev n d e z w with info := 0 })) ?_,
      h2 (longBdsdc toDouble junk bdsdc)
        (longBdsdc toDouble junk (fun n d e u v w i => { bdsdc n d e u v w i with info := 0 })) ?_]
    · intro n d e u v w i
      unfold longBdsdc
      simp only [map_bind']
      rfl
    · intro n d e z w
      unfold longStev
      simp only [map_bind']
      rfl

/-- **C68 (partial).** If LAPACK succeeds, the sample is exact: for every LAPACK that keeps its contract, every symmetric
operator, Rademacher vector and options, a sample with one parameter calls LAPACK with the coefficients `c` of the
Lanczos run, and if that call returns `info = 0` the result is `zᵀ p(A) z` for every polynomial of degree at most
`2m - 1`, `m` the Lanczos size.  Missing: after a failure the sample should not return a number (refuted:
`decomposition_info_ignored`, `decomposition_failure_wrong`). -/
theorem decomposition_success_partial {ext : External ℝ} {opt : Options ℝ} {op : Operator ℝ n} {f : ℝ → ℝ}
    {z : Fin n → ℝ} {A : Matrix (Fin n) (Fin n) ℝ} {stev : StevRoutine ℝ} {bdsdc : BdsdcRoutine ℝ} {t v0 : ℝ}
    {junkAlpha junkBeta : Array ℝ} (junk : Nat → ℝ) (junkInt : Nat → Int) (hstev : StevContract stev)
    (hsqrt : ext.sqrt = Real.sqrt) (hgram : opt.gram = false) (hA : A.IsSymm) (hdot : ∀ x, op.dot t x = .ok (A *ᵥ x))
    (htol : 0 < opt.tol) (hm : 1 ≤ opt.degree) (hn : 0 < n) (hz : Rademacher z)
    (hja : junkAlpha.size = opt.degree) (hjb : junkBeta.size = opt.degree) :
    ∃ c value, lanczos Real.sqrt ext.eps (op.dot t) z opt.degree opt.tol opt.orthogonalize junkAlpha junkBeta = .ok c ∧
      1 ≤ c.size ∧
      slqSample (direct ext junk junkInt stev bdsdc) opt op f #[t] 1 z junkAlpha junkBeta #[false] #[v0] =
        .ok (#[false], #[value]) ∧
      ((stev c.size c.alpha c.beta (Array.ofFn (fun i : Fin (c.size * c.size) => junk i.1))
          (Array.ofFn (fun i : Fin (2 * c.size - 2) => junk i.1))).info = 0 →
        ∀ p : ℝ[X], p.natDegree < 2 * c.size → (∀ x, f (ext.pow x opt.exponent) = p.eval x) →
          value = z ⬝ᵥ (aeval A p *ᵥ z)) := by
  have hz0 := rademacher_ne_zero hz hn
  obtain ⟨c, hc, hr⟩ := lanczos_result hdot hA hz0 ext.eps opt.tol htol opt.degree opt.orthogonalize hja hjb
  have hpos := hr.pos (by omega)
  have hle := hr.le
  have ha := hr.asize
  have hb := hr.bsize
  have he : (direct ext junk junkInt stev bdsdc).eigh c.size c.alpha c.beta = _ :=
    direct_eigh junk stev hpos c.alpha c.beta
  obtain ⟨s1, s2, s3⟩ := hstev c.size c.alpha c.beta (Array.ofFn (fun i : Fin (c.size * c.size) => junk i.1))
    (Array.ofFn (fun i : Fin (2 * c.size - 2) => junk i.1)) hpos (by omega) (by omega) (by simp) (by simp)
  have hl := lanczosNodes_eq (ext := direct ext junk junkInt stev bdsdc) (opt := opt) (dot := op.dot t) (z := z)
    (alpha := junkAlpha) (beta := junkBeta) (c := c) (by show lanczos ext.sqrt _ _ _ _ _ _ _ _ = _; rw [hsqrt]; exact hc)
    (by rw [he]; dsimp only; omega) (by rw [he]; dsimp only; rw [s2]; simp)
  rw [he] at hl
  refine ⟨c, _, hc, hpos, slqSample_one (op := op) (by unfold inquiryNodes; rw [hgram]; exact hl), ?_⟩
  intro hinfo p hp hf
  have hd : Diagonalises (lanczosT A z c.size) (List.ofFn (fun i : Fin c.size =>
      ((stev c.size c.alpha c.beta (Array.ofFn (fun i : Fin (c.size * c.size) => junk i.1))
        (Array.ofFn (fun i : Fin (2 * c.size - 2) => junk i.1))).d.getD i.1 0,
       (stev c.size c.alpha c.beta (Array.ofFn (fun i : Fin (c.size * c.size) => junk i.1))
        (Array.ofFn (fun i : Fin (2 * c.size - 2) => junk i.1))).z.getD (i.1 * c.size) 0))) := by
    refine ⟨hpos, _, _, hr.tridiagonal_eq ▸ s3 hinfo, ?_⟩
    simp only [Nat.zero_add]
  have hk := lanczos_krylov hr hA hz0 (threshold_pos hz0 htol) (by omega)
  exact (krylov_exact hk hA (tridiagonal_hessenberg _ _) hd hz ext.pow f opt.exponent).1 p hp hf

/-- A LAPACK whose iteration makes no progress: for more than one row it returns `info = 1`, the diagonal and the unit
matrix. -/
def stuck : StevRoutine ℝ := fun n d e z _ =>
  ⟨d, e, Array.ofFn (fun q : Fin z.size => if q.1 % n = q.1 / n then 1 else 0), if n = 1 then 0 else 1⟩

theorem stuck_z {k : Nat} (hk : 1 ≤ k) {d e z w : Array ℝ} (hz : k * k ≤ z.size) (i j : Fin k) :
    (stuck k d e z w).z.getD (i.1 + j.1 * k) 0 = if i = j then 1 else 0 := by
  have h1 : (j.1 + 1) * k ≤ k * k := Nat.mul_le_mul_right k j.2
  rw [Nat.add_mul, Nat.one_mul] at h1
  have h2 := i.2
  unfold stuck
  rw [Array.getD_eq_getD_getElem?, Array.getElem?_ofFn, dif_pos (by omega), Option.getD_some,
    Nat.add_mul_mod_self_right, Nat.mod_eq_of_lt i.2, Nat.add_mul_div_right _ _ (by omega), Nat.div_eq_of_lt i.2,
    Nat.zero_add]
  simp only [Fin.ext_iff]

/-- `stuck` keeps the documented contract of `?stev`. -/
theorem stuck_contract : StevContract stuck := by
  intro k d e z w hk hd he hz hw
  refine ⟨rfl, by simp [stuck], ?_⟩
  intro h
  obtain rfl : k = 1 := by
    by_contra hne
    simp [stuck, hne] at h
  have hQ : (fun i j : Fin 1 => (stuck 1 d e z w).z.getD (i.1 + j.1 * 1) 0) = (1 : Matrix (Fin 1) (Fin 1) ℝ) := by
    funext i j
    rw [stuck_z le_rfl hz, Matrix.one_apply]
  rw [hQ]
  refine ⟨by simp, by simp, ?_⟩
  ext i j
  obtain rfl : i = j := Subsingleton.elim _ _
  simp [tridiagonal, stuck]

/-- The value of a sample after the failure: the function at the Rayleigh quotient of the vector. -/
theorem stuck_value {ext : External ℝ} {opt : Options ℝ} {op : Operator ℝ n} {f : ℝ → ℝ}
    {z : Fin n → ℝ} {A : Matrix (Fin n) (Fin n) ℝ} {bdsdc : BdsdcRoutine ℝ} {t v0 : ℝ}
    {junkAlpha junkBeta : Array ℝ} (junk : Nat → ℝ) (junkInt : Nat → Int)
    (hsqrt : ext.sqrt = Real.sqrt) (hgram : opt.gram = false) (hA : A.IsSymm) (hdot : ∀ x, op.dot t x = .ok (A *ᵥ x))
    (htol : 0 < opt.tol) (hm : 1 ≤ opt.degree) (hn : 0 < n) (hz : Rademacher z)
    (hja : junkAlpha.size = opt.degree) (hjb : junkBeta.size = opt.degree) :
    ∃ c, lanczos Real.sqrt ext.eps (op.dot t) z opt.degree opt.tol opt.orthogonalize junkAlpha junkBeta = .ok c ∧
      LanczosResult A z opt.degree (opt.tol * Real.sqrt n) c ∧
      slqSample (direct ext junk junkInt stuck bdsdc) opt op f #[t] 1 z junkAlpha junkBeta #[false] #[v0] =
        .ok (#[false], #[n * f (ext.pow ((z ⬝ᵥ (A *ᵥ z)) / n) opt.exponent)]) := by
  have hz0 := rademacher_ne_zero hz hn
  obtain ⟨c, hc, hr⟩ := lanczos_result hdot hA hz0 ext.eps opt.tol htol opt.degree opt.orthogonalize hja hjb
  have hpos := hr.pos (by omega)
  have hle := hr.le
  have ha := hr.asize
  have he : (direct ext junk junkInt stuck bdsdc).eigh c.size c.alpha c.beta = _ :=
    direct_eigh junk stuck hpos c.alpha c.beta
  have hl := lanczosNodes_eq (ext := direct ext junk junkInt stuck bdsdc) (opt := opt) (dot := op.dot t) (z := z)
    (alpha := junkAlpha) (beta := junkBeta) (c := c) (by show lanczos ext.sqrt _ _ _ _ _ _ _ _ = _; rw [hsqrt]; exact hc)
    (by rw [he]; dsimp only [stuck]; omega) (by rw [he]; simp [stuck])
  rw [he] at hl
  refine ⟨c, hc, hr, ?_⟩
  rw [slqSample_one (op := op) (by unfold inquiryNodes; rw [hgram]; exact hl), quadratureSum_ofFn]
  have hsum : ∀ i : Fin c.size, (stuck c.size c.alpha c.beta (Array.ofFn (fun i : Fin (c.size * c.size) => junk i.1))
      (Array.ofFn (fun i : Fin (2 * c.size - 2) => junk i.1))).z.getD (i.1 * c.size) 0 =
        if (⟨0, hpos⟩ : Fin c.size) = i then 1 else 0 := by
    intro i
    have := stuck_z (k := c.size) (d := c.alpha) (e := c.beta)
      (z := Array.ofFn (fun i : Fin (c.size * c.size) => junk i.1))
      (w := Array.ofFn (fun i : Fin (2 * c.size - 2) => junk i.1)) hpos (by simp) ⟨0, hpos⟩ i
    simpa using this
  simp only [hsum]
  rw [Finset.sum_eq_single (⟨0, hpos⟩ : Fin c.size) (by
      intro i _ hi
      rw [if_neg (fun h => hi h.symm)]
      ring) (by simp)]
  have haa : (stuck c.size c.alpha c.beta (Array.ofFn (fun i : Fin (c.size * c.size) => junk i.1))
      (Array.ofFn (fun i : Fin (2 * c.size - 2) => junk i.1))).d.getD 0 0 = (z ⬝ᵥ (A *ᵥ z)) / n := by
    show c.alpha.getD 0 0 = _
    rw [Array.getD_eq_getD_getElem?, hr.alpha 0 hpos, Option.getD_some]
    have hnn : norm Real.sqrt z * norm Real.sqrt z = n := by rw [norm_mul_self, rademacher_dot hz]
    have hne := norm_ne_zero hz0
    have hn0 : (n : ℝ) ≠ 0 := by positivity
    show ((norm Real.sqrt z)⁻¹ • z) ⬝ᵥ (A *ᵥ ((norm Real.sqrt z)⁻¹ • z)) = _
    rw [mulVec_smul, smul_dotProduct, dotProduct_smul, smul_eq_mul, smul_eq_mul, eq_div_iff hn0, ← hnn]
    field_simp
  rw [haa]
  simp [direct]

/-- **C68, refuted.** There is a LAPACK that keeps its contract and with which the trace of the square of
`diag(1, 3)` is estimated as 8, for every Rademacher vector, although LAPACK has returned `info = 1`; the quadratic form
is 10 for every such vector, and so is the trace. -/
theorem decomposition_failure_wrong : ∃ stev : StevRoutine ℝ, StevContract stev ∧
    ∀ (ext : External ℝ) (orth : Int) (junk : Nat → ℝ) (junkInt : Nat → Int) (bdsdc : BdsdcRoutine ℝ) (z : Fin 2 → ℝ)
      (op : Operator ℝ 2) (t : ℝ), ext.sqrt = Real.sqrt → (∀ x, ext.pow x 1 = x) → Rademacher z →
      (∀ x, op.dot t x = .ok (!![1, 0; 0, 3] *ᵥ x)) →
      slqSample (direct ext junk junkInt stev bdsdc) ⟨false, 1, orth, 2, 1/100⟩ op (fun x => x ^ 2) #[t] 1 z #[0, 0]
        #[0, 0] #[false] #[0] = .ok (#[false], #[8]) ∧
      z ⬝ᵥ ((!![1, 0; 0, 3] * !![1, 0; 0, 3]) *ᵥ z) = 10 ∧
      ∃ c, lanczos Real.sqrt ext.eps (op.dot t) z 2 (1/100) orth #[0, 0] #[0, 0] = .ok c ∧
        (stev c.size c.alpha c.beta (Array.ofFn (fun i : Fin (c.size * c.size) => junk i.1))
          (Array.ofFn (fun i : Fin (2 * c.size - 2) => junk i.1))).info = 1 := by
  refine ⟨stuck, stuck_contract, ?_⟩
  intro ext orth junk junkInt bdsdc z op t hsqrt hpow hz hdot
  have hq : ∀ i, z i * z i = 1 := by
    intro i
    rcases hz i with h | h <;> rw [h] <;> norm_num
  obtain ⟨c, hc, hr, hs⟩ := stuck_value (ext := ext) (opt := ⟨false, 1, orth, 2, 1/100⟩) (op := op)
    (f := fun x => x ^ 2) (z := z) (A := !![1, 0; 0, 3]) (bdsdc := bdsdc) (t := t) (v0 := 0) (junkAlpha := #[0, 0])
    (junkBeta := #[0, 0]) junk junkInt hsqrt rfl (by ext i j; fin_cases i <;> fin_cases j <;> rfl) hdot
    (by norm_num) (by norm_num) (by norm_num) hz rfl rfl
  have hq0 := hq 0
  have hq1 := hq 1
  refine ⟨?_, ?_, c, hc, ?_⟩
  · rw [hs]
    have : z ⬝ᵥ (!![1, 0; 0, 3] *ᵥ z) = 4 := by
      simp only [dotProduct, Fin.sum_univ_two, Matrix.mulVec, Matrix.of_apply, Matrix.cons_val', Matrix.cons_val_zero,
        Matrix.cons_val_one, Matrix.cons_val_fin_one]
      linarith
    rw [this, hpow]
    norm_num
  · simp only [dotProduct, Fin.sum_univ_two, Matrix.mulVec, Matrix.mul_apply, Matrix.of_apply, Matrix.cons_val',
      Matrix.cons_val_zero, Matrix.cons_val_one, Matrix.cons_val_fin_one]
    linarith
  · have hsz : c.size = 2 := by
      have h1 := hr.pos (by norm_num)
      have h2 := hr.le
      by_contra hne
      have h3 : c.size = 1 := by
        have : c.size ≤ 2 := h2
        omega
      have h4 := hr.early (by rw [h3]; norm_num)
      rw [h3] at h4
      have hnn : norm Real.sqrt z * norm Real.sqrt z = 2 := by rw [norm_mul_self, rademacher_dot hz]; norm_num
      have hz0 := rademacher_ne_zero hz (by norm_num)
      have hne' := norm_ne_zero hz0
      have hvv : vv !![1, 0; 0, 3] z 0 = (norm Real.sqrt z)⁻¹ • z := rfl
      have hinv : (norm Real.sqrt z)⁻¹ * (norm Real.sqrt z)⁻¹ = 1 / 2 := by
        rw [← mul_inv, hnn]; norm_num
      have haa : aa !![1, 0; 0, 3] z 0 = 2 := by
        unfold aa
        rw [hvv, mulVec_smul, smul_dotProduct, dotProduct_smul, smul_eq_mul, smul_eq_mul, ← mul_assoc, hinv]
        simp only [dotProduct, Fin.sum_univ_two, Matrix.mulVec, Matrix.of_apply, Matrix.cons_val', Matrix.cons_val_zero,
          Matrix.cons_val_one, Matrix.cons_val_fin_one]
        linarith
      have hbb : bb !![1, 0; 0, 3] z 1 * bb !![1, 0; 0, 3] z 1 = 1 := by
        unfold bb
        rw [norm_mul_self, rr_one, haa, hvv, mulVec_smul, smul_smul, mul_comm (2 : ℝ), ← smul_smul, ← smul_sub,
          smul_dotProduct, dotProduct_smul, smul_eq_mul, smul_eq_mul, ← mul_assoc, hinv]
        simp only [dotProduct, Fin.sum_univ_two, Matrix.mulVec, Matrix.of_apply, Matrix.cons_val', Matrix.cons_val_zero,
          Matrix.cons_val_one, Matrix.cons_val_fin_one, Pi.sub_apply, Pi.smul_apply, smul_eq_mul]
        linarith
      have hb1 : (0 : ℝ) ≤ bb !![1, 0; 0, 3] z 1 := Real.sqrt_nonneg _
      have h5 : (1/100 : ℝ) * Real.sqrt ((2 : ℕ) : ℝ) ≤ 1 := by
        have : Real.sqrt ((2 : ℕ) : ℝ) ≤ 2 := by
          rw [Real.sqrt_le_left (by norm_num)]; norm_num
        exact (mul_le_mul_of_nonneg_left this (by norm_num)).trans (by norm_num)
      have h6 : bb !![1, 0; 0, 3] z 1 < 1 := lt_of_lt_of_le h4 h5
      have h7 := mul_nonneg hb1 (sub_nonneg.2 h6.le)
      rw [mul_sub, hbb, mul_one] at h7
      linarith
    show (if c.size = 1 then (0 : Int) else 1) = 1
    rw [hsz]
    rfl

/-! ## C69: `long double` -/

/-- **C69, memory.** For every LAPACK for `double` that keeps the sizes of its arrays, the detour of `long double`
through `double` stays within all arrays: LAPACK is given arrays of the documented sizes with the rounded
coefficients, the first `n` and `n * n` elements of the results are LAPACK's, all others are kept. -/
theorem long_decomposition_safe {K : Type _} (toDouble : K → K) (junk : Nat → K) (dstev : StevRoutine K) {n : Nat}
    (hn : 1 ≤ n) {d e z work : Array K} (hd : n ≤ d.size) (he : n ≤ e.size + 1) (hz : n * n ≤ z.size)
    (hsz : ∀ d' e' z' w', d'.size = n → e'.size + 1 = n → z'.size = n * n → w'.size = 2 * n - 2 →
      (dstev n d' e' z' w').d.size = n ∧ (dstev n d' e' z' w').z.size = n * n) :
    ∃ d' e' z' w' s, d'.size = n ∧ e'.size + 1 = n ∧ z'.size = n * n ∧ w'.size = 2 * n - 2 ∧
      (∀ i < n, d'[i]? = (d[i]?).map toDouble) ∧ (∀ i, i + 1 < n → e'[i]? = (e[i]?).map toDouble) ∧
      longStev toDouble junk dstev n d e z work = .ok s ∧ s.info = (dstev n d' e' z' w').info ∧
      s.d.size = d.size ∧ s.z.size = z.size ∧
      (∀ i, s.d[i]? = if i < n then (dstev n d' e' z' w').d[i]? else d[i]?) ∧
      (∀ i, s.z[i]? = if i < n * n then (dstev n d' e' z' w').z[i]? else z[i]?) := by
  obtain ⟨d', e', z', w', r, rfl, a1, a2, a3, a4, a5, a6, _, _, s, b1, b2, b3, b4, _, b6, b7, b8, b9⟩ :=
    longStev_ok (e := e) (work := work) toDouble junk dstev hn hd (by omega) hz
      (fun d' e' z' w' h1 h2 h3 h4 => hsz d' e' z' w' h1 (by omega) h3 h4)
  refine ⟨d', e', z', w', s, a1, (by rw [a2]; omega), a3, a4, a5, fun i hi => a6 i (by omega), b1, b4, b2, b3, ?_, ?_⟩
  · intro i
    split
    · exact b6 i ‹_›
    · exact b7 i (by omega)
  · intro i
    split
    · exact b8 i ‹_›
    · exact b9 i (by omega)

/-- **C69, memory, for gram matrices.** The same for the singular values: with a LAPACK that keeps the sizes of its arrays,
`svd_bidiagonal` for `long double` stays within all arrays; LAPACK is given arrays of the documented sizes (work arrays of
`3 n² + 4 n` numbers and `8 n` integers) with the rounded coefficients; singular values, left and right vectors are
LAPACK's, each in its own array. -/
theorem long_svd_safe {K : Type _} (toDouble : K → K) (junk : Nat → K) (junkInt : Nat → Int) (dbdsdc : BdsdcRoutine K)
    {n : Nat} (hn : 1 ≤ n) {d e u vt : Array K} (hd : n ≤ d.size) (he : n ≤ e.size + 1) (hu : n * n ≤ u.size)
    (hvt : n * n ≤ vt.size)
    (hsz : ∀ d' e' u' v' w' i', d'.size = n → e'.size + 1 = n → u'.size = n * n → v'.size = n * n →
      w'.size = 3 * n * n + 4 * n → i'.size = 8 * n → (dbdsdc n d' e' u' v' w' i').d.size = n ∧
      (dbdsdc n d' e' u' v' w' i').u.size = n * n ∧ (dbdsdc n d' e' u' v' w' i').vt.size = n * n) :
    ∃ d' e' u' v' w' i' s, d'.size = n ∧ e'.size + 1 = n ∧ u'.size = n * n ∧ v'.size = n * n ∧
      w'.size = 3 * n * n + 4 * n ∧ i'.size = 8 * n ∧
      (∀ i < n, d'[i]? = (d[i]?).map toDouble) ∧ (∀ i, i + 1 < n → e'[i]? = (e[i]?).map toDouble) ∧
      svdBidiagonal junk junkInt (longBdsdc toDouble junk dbdsdc) d e u vt n = .ok s ∧
      s.info = (dbdsdc n d' e' u' v' w' i').info ∧
      s.d.size = d.size ∧ s.u.size = u.size ∧ s.vt.size = vt.size ∧
      (∀ i, s.d[i]? = if i < n then (dbdsdc n d' e' u' v' w' i').d[i]? else d[i]?) ∧
      (∀ i, s.u[i]? = if i < n * n then (dbdsdc n d' e' u' v' w' i').u[i]? else u[i]?) ∧
      (∀ i, s.vt[i]? = if i < n * n then (dbdsdc n d' e' u' v' w' i').vt[i]? else vt[i]?) := by
  set I : Array Int := Array.ofFn (fun i : Fin (8 * n) => junkInt i.1) with hI
  have hIs : I.size = 8 * n := by simp [hI]
  obtain ⟨d', e', u', v', w', r, rfl, a1, a2, a3, a4, a5, a6, a7, s, b1, b2, b3, b4, b5, _, b6, b7, b8, b9, b10, b11⟩ :=
    longBdsdc_ok (e := e) (work := Array.ofFn (fun i : Fin (3 * n * n + 4 * n) => junk i.1)) (iwork := I) toDouble junk dbdsdc
      hn hd (by omega) hu hvt
      (fun d' e' u' v' w' h1 h2 h3 h4 h5 => hsz d' e' u' v' w' I h1 (by omega) h3 h4 h5 hIs)
  refine ⟨d', e', u', v', w', I, s, a1, (by rw [a2]; omega), a3, a4, a5, hIs, a6, fun i hi => a7 i (by omega), ?_, b5, b2,
    b3, b4, ?_, ?_, ?_⟩
  · unfold svdBidiagonal
    have h8 : newArray junkInt (8 * (n : Int)) = .ok I := newArray_ok junkInt (8 * n)
    rw [newArray_svdWork, Except.ok_bind', h8, Except.ok_bind', b1, Except.ok_bind', assertion_comma]
    rfl
  · intro i
    split
    · exact b6 i ‹_›
    · exact b7 i (by omega)
  · intro i
    split
    · exact b8 i ‹_›
    · exact b9 i (by omega)
  · intro i
    split
    · exact b10 i ‹_›
    · exact b11 i (by omega)

/-- the hypotheses are met by a routine that leaves its arrays -/
example : ∃ s, svdBidiagonal (fun _ => (7 : ℚ)) (fun _ => 5) (longBdsdc id (fun _ => 7) (fun _ d e u v _ _ => ⟨d, e, u, v, 0⟩))
    #[2, 3] #[1] #[0, 0, 0, 0] #[0, 0, 0, 0] 2 = .ok s ∧ s.d.size = 2 := by
  obtain ⟨d', e', u', v', w', i', s, -, -, -, -, -, -, -, -, h, -, h', -⟩ := long_svd_safe id (fun _ => (7 : ℚ)) (fun _ => 5)
    (fun _ d e u v _ _ => ⟨d, e, u, v, 0⟩) (n := 2) (d := #[2, 3]) (e := #[1]) (u := #[0, 0, 0, 0]) (vt := #[0, 0, 0, 0])
    (by decide) (by decide) (by decide) (by decide) (by decide) (fun d' e' u' v' w' i' h1 _ h3 h4 _ _ => ⟨h1, h3, h4⟩)
  exact ⟨s, h, h'⟩

/-- **C69, refuted.** All nodes and weights of a `long double` sample are `double`s: for every LAPACK for `double`,
rounding to `double`, symmetric operator, Rademacher vector and options. -/
theorem long_double_nodes_are_doubles {ext : External ℝ} {opt : Options ℝ} {op : Operator ℝ n}
    {z : Fin n → ℝ} {A : Matrix (Fin n) (Fin n) ℝ} {dstev : StevRoutine ℝ} {dbdsdc : BdsdcRoutine ℝ} {t : ℝ}
    {toDouble : ℝ → ℝ} {junkAlpha junkBeta : Array ℝ} {junk : Nat → ℝ} (junkInt : Nat → Int)
    (hround : Nearest 53 toDouble) (hcontract : StevContract dstev) (hdouble : DoubleRoutine dstev)
    (hjunk : ∀ i, Representable 53 (junk i))
    (hsqrt : ext.sqrt = Real.sqrt) (hgram : opt.gram = false) (hA : A.IsSymm) (hdot : ∀ x, op.dot t x = .ok (A *ᵥ x))
    (htol : 0 < opt.tol) (hm : 1 ≤ opt.degree) (hn : 0 < n) (hz : Rademacher z)
    (hja : junkAlpha.size = opt.degree) (hjb : junkBeta.size = opt.degree) :
    ∃ nodes a b, inquiryNodes (long ext toDouble junk junkInt dstev dbdsdc) opt op z t junkAlpha junkBeta =
        .ok (nodes, a, b) ∧ nodes ≠ [] ∧ ∀ p ∈ nodes, Representable 53 p.1 ∧ Representable 53 p.2 := by
  have hz0 := rademacher_ne_zero hz hn
  obtain ⟨c, hc, hr⟩ := lanczos_result hdot hA hz0 ext.eps opt.tol htol opt.degree opt.orthogonalize hja hjb
  have hpos := hr.pos (by omega)
  have hle := hr.le
  have ha := hr.asize
  have hb := hr.bsize
  obtain ⟨d', e', z', w', r, hreq, a1, a2, a3, a4, a5, a6, a7, a8, s, b1, b2, b3, _, _, b6, _, b8, _⟩ :=
    longStev_ok (work := Array.ofFn (fun i : Fin (2 * c.size - 2) => junk i.1)) toDouble junk dstev hpos
      (d := c.alpha) (e := c.beta) (z := Array.ofFn (fun i : Fin (c.size * c.size) => junk i.1)) (by omega) (by omega)
      (by simp) (fun d' e' z' w' h1 h2 h3 h4 => by
        obtain ⟨q1, q2, _⟩ := hcontract c.size d' e' z' w' hpos (by omega) (by omega) (by omega) (by omega)
        exact ⟨q1.trans h1, q2.trans h3⟩)
  have he : (long ext toDouble junk junkInt dstev dbdsdc).eigh c.size c.alpha c.beta = _ :=
    long_eigh toDouble junk dstev hpos b1
  have hl := lanczosNodes_eq (ext := long ext toDouble junk junkInt dstev dbdsdc) (opt := opt) (dot := op.dot t) (z := z)
    (alpha := junkAlpha) (beta := junkBeta) (c := c) (by show lanczos ext.sqrt _ _ _ _ _ _ _ _ = _; rw [hsqrt]; exact hc)
    (by rw [he]; dsimp only; omega) (by rw [he]; dsimp only; rw [b3]; simp)
  rw [he] at hl
  obtain ⟨q1, q2, _⟩ := hcontract c.size d' e' z' w' hpos (by omega) (by omega) (by omega) (by omega)
  have hcast : ∀ {x : Array ℝ} {y : Array ℝ} {m : Nat}, y.size = m → (∀ i < m, y[i]? = (x[i]?).map toDouble) →
      ∀ v ∈ y, Representable 53 v := by
    intro x y m hm h v hv
    obtain ⟨i, hi, rfl⟩ := Array.mem_iff_getElem.1 hv
    have h1 := h i (by omega)
    rw [Array.getElem?_eq_getElem hi] at h1
    cases hx : x[i]? with
    | none => rw [hx] at h1; simp at h1
    | some w =>
      rw [hx, Option.map_some, Option.some_inj] at h1
      rw [h1]
      exact (hround w).1
  obtain ⟨r1, r2⟩ := hdouble c.size d' e' z' w' (hcast a1 a5) (hcast a2 a6)
    (fun x hx => by obtain ⟨i, rfl⟩ := a7 x hx; exact hjunk i) (fun x hx => by obtain ⟨i, rfl⟩ := a8 x hx; exact hjunk i)
  rw [← hreq] at q1 q2 r1 r2
  refine ⟨_, _, _, by unfold inquiryNodes; rw [hgram]; exact hl, ?_, ?_⟩
  · intro h
    have := congrArg List.length h
    simp at this
    omega
  · intro p hp
    obtain ⟨i, rfl⟩ := (List.mem_ofFn' _ _).1 hp
    have hi := i.2
    have hi2 : i.1 * c.size < c.size * c.size := Nat.mul_lt_mul_of_pos_right hi hpos
    constructor
    · show Representable 53 (s.d.getD i.1 0)
      rw [Array.getD_eq_getD_getElem?, b6 i.1 hi, Array.getElem?_eq_getElem (by omega)]
      exact r1 _ (Array.getElem_mem _)
    · show Representable 53 (s.z.getD (i.1 * c.size) 0)
      rw [Array.getD_eq_getD_getElem?, b8 _ hi2, Array.getElem?_eq_getElem (by omega)]
      exact r2 _ (Array.getElem_mem _)

/-- **C69, refuted.** For `long double` the trace of `(1 + d) I` is estimated as the trace of `I`, for every size, every
Rademacher vector and every `d` of at most `2^-55`, even if all other arithmetic is exact. -/
theorem long_double_perturbation_lost {ext : External ℝ} {op : Operator ℝ n} {z : Fin n → ℝ} {dstev : StevRoutine ℝ}
    {dbdsdc : BdsdcRoutine ℝ} {t v0 d tol : ℝ} {orth : Int} {degree : Nat} {toDouble : ℝ → ℝ}
    {junkAlpha junkBeta : Array ℝ} {junk : Nat → ℝ} (junkInt : Nat → Int)
    (hround : Nearest 53 toDouble) (hcontract : StevContract dstev) (hquick : QuickReturn dstev)
    (hsqrt : ext.sqrt = Real.sqrt) (hpow : ∀ x, ext.pow x 1 = x)
    (hd : |d| ≤ (2 : ℝ) ^ (-55 : ℤ)) (hdot : ∀ x, op.dot t x = .ok (((1 + d) • (1 : Matrix (Fin n) (Fin n) ℝ)) *ᵥ x))
    (htol : 0 < tol) (hm : 1 ≤ degree) (hn : 0 < n) (hz : Rademacher z)
    (hja : junkAlpha.size = degree) (hjb : junkBeta.size = degree) :
    slqSample (long ext toDouble junk junkInt dstev dbdsdc) ⟨false, 1, orth, degree, tol⟩ op id #[t] 1 z junkAlpha
      junkBeta #[false] #[v0] = .ok (#[false], #[(n : ℝ)]) := by
  have hz0 := rademacher_ne_zero hz hn
  have hA : ((1 + d) • (1 : Matrix (Fin n) (Fin n) ℝ)).IsSymm := by
    rw [Matrix.IsSymm, transpose_smul, transpose_one]
  obtain ⟨c, hc, hr⟩ := lanczos_result hdot hA hz0 ext.eps tol htol degree orth hja hjb
  have hpos := hr.pos (by omega)
  have hle := hr.le
  have ha := hr.asize
  have hb := hr.bsize
  have hmul : ∀ x : Fin n → ℝ, ((1 + d) • (1 : Matrix (Fin n) (Fin n) ℝ)) *ᵥ x = (1 + d) • x := by
    intro x
    rw [smul_mulVec, one_mulVec]
  have hbb : bb ((1 + d) • (1 : Matrix (Fin n) (Fin n) ℝ)) z 0 ≠ 0 := norm_ne_zero hz0
  have haa : aa ((1 + d) • (1 : Matrix (Fin n) (Fin n) ℝ)) z 0 = 1 + d := by
    unfold aa
    rw [hmul, dotProduct_smul, vv_unit hbb, smul_eq_mul, mul_one]
  have hsz : c.size = 1 := by
    by_contra hne
    have h1 := hr.big 0 (by omega)
    have h2 : bb ((1 + d) • (1 : Matrix (Fin n) (Fin n) ℝ)) z (0 + 1) = 0 := by
      unfold bb
      rw [norm_eq_zero, rr_one, haa, hmul, sub_self]
    rw [h2] at h1
    exact absurd (threshold_pos hz0 htol) (not_lt.2 h1)
  obtain ⟨d', e', z', w', r, hreq, a1, a2, a3, a4, a5, a6, a7, a8, s, b1, b2, b3, _, _, b6, _, b8, _⟩ :=
    longStev_ok (work := Array.ofFn (fun i : Fin (2 * c.size - 2) => junk i.1)) toDouble junk dstev hpos
      (d := c.alpha) (e := c.beta) (z := Array.ofFn (fun i : Fin (c.size * c.size) => junk i.1)) (by omega) (by omega)
      (by simp) (fun d' e' z' w' h1 h2 h3 h4 => by
        obtain ⟨q1, q2, _⟩ := hcontract c.size d' e' z' w' hpos (by omega) (by omega) (by omega) (by omega)
        exact ⟨q1.trans h1, q2.trans h3⟩)
  have he : (long ext toDouble junk junkInt dstev dbdsdc).eigh c.size c.alpha c.beta = _ :=
    long_eigh toDouble junk dstev hpos b1
  have hl := lanczosNodes_eq (ext := long ext toDouble junk junkInt dstev dbdsdc) (opt := ⟨false, 1, orth, degree, tol⟩)
    (dot := op.dot t) (z := z)
    (alpha := junkAlpha) (beta := junkBeta) (c := c) (by show lanczos ext.sqrt _ _ _ _ _ _ _ _ = _; rw [hsqrt]; exact hc)
    (by rw [he]; dsimp only; omega) (by rw [he]; dsimp only; rw [b3]; simp)
  rw [he] at hl
  rw [slqSample_one (op := op) (by unfold inquiryNodes; exact hl), quadratureSum_ofFn]
  have hv : ∀ i : Fin c.size, s.d.getD i.1 0 = 1 ∧ s.z.getD (i.1 * c.size) 0 = 1 := by
    intro i
    have hi0 : i.1 = 0 := by have := i.2; omega
    rw [hi0, Nat.zero_mul, Array.getD_eq_getD_getElem?, Array.getD_eq_getD_getElem?, b6 0 (by omega),
      b8 0 (by rw [hsz]; norm_num), hreq]
    rw [hsz] at a1 a3 a5 ⊢
    obtain ⟨k1, _, k3, _⟩ := hquick d' e' z' w' (by omega) (by omega)
    rw [k1, k3, a5 0 (by norm_num), hr.alpha 0 hpos, haa]
    refine ⟨?_, rfl⟩
    show toDouble (1 + d) = 1
    apply nearest_near_one (p := 53) (by norm_num) hround
    rw [add_sub_cancel_left]
    exact hd
  simp only [(hv _).1, (hv _).2]
  show Except.ok (#[false], #[(n : ℝ) * ∑ _ : Fin c.size, 1 * 1 * id (ext.pow 1 1)]) = _
  rw [hpow]
  simp [hsz]

/-! ## Non-vacuity -/

theorem zero_one_representable (p : ℕ) (hp : 1 ≤ p) : Representable p 0 ∧ Representable p 1 :=
  ⟨Rounded.representable_zero p, by simpa using Rounded.representable_pow hp 0⟩

theorem stuck_double : DoubleRoutine stuck := by
  intro k d e z w hd he hz hw
  refine ⟨hd, ?_⟩
  intro x hx
  obtain ⟨i, rfl⟩ := Array.mem_ofFn.1 hx
  split
  · exact (zero_one_representable 53 (by norm_num)).2
  · exact (zero_one_representable 53 (by norm_num)).1

theorem stuck_quick : QuickReturn stuck := by
  intro d e z w hd hz
  refine ⟨rfl, by simp [stuck], ?_, rfl⟩
  show (Array.ofFn (fun q : Fin z.size => if q.1 % 1 = q.1 / 1 then (1 : ℝ) else 0))[0]? = _
  rw [Array.getElem?_ofFn, dif_pos (by omega)]
  simp

/-- Non-vacuity of C68 and C69: a 3 by 3 matrix `(1 + 2^-60) I`, whose entries are `long double`s, a LAPACK that meets
all contracts, and rounding to the nearest `double`.  Its trace `3 + 3 * 2^-60` is estimated as 3. -/
example (ext : External ℝ) (hsqrt : ext.sqrt = Real.sqrt) (hpow : ∀ x, ext.pow x 1 = x) (bdsdc : BdsdcRoutine ℝ) :
    Representable 64 (1 + (2 : ℝ) ^ (-60 : ℤ)) ∧
    slqSample (long ext (Rounded.roundTo 53) (fun _ => 0) (fun _ => 0) stuck bdsdc) ⟨false, 1, 0, 2, 1/100⟩
      ⟨false, fun _ x => .ok (((1 + (2 : ℝ) ^ (-60 : ℤ)) • (1 : Matrix (Fin 3) (Fin 3) ℝ)) *ᵥ x), fun _ x => .ok x,
        fun _ _ _ => 0⟩ id #[0] 1 ![1, -1, 1] #[0, 0] #[0, 0] #[false] #[7] = .ok (#[false], #[3]) ∧
    ((1 + (2 : ℝ) ^ (-60 : ℤ)) • (1 : Matrix (Fin 3) (Fin 3) ℝ)).trace = 3 + 3 * (2 : ℝ) ^ (-60 : ℤ) := by
  refine ⟨⟨2 ^ 60 + 1, -60, by norm_num, by norm_num⟩, ?_, ?_⟩
  · have := long_double_perturbation_lost (n := 3) (ext := ext) (dstev := stuck) (dbdsdc := bdsdc)
      (op := ⟨false, fun _ x => .ok (((1 + (2 : ℝ) ^ (-60 : ℤ)) • (1 : Matrix (Fin 3) (Fin 3) ℝ)) *ᵥ x), fun _ x => .ok x,
        fun _ _ _ => 0⟩) (d := (2 : ℝ) ^ (-60 : ℤ)) (t := 0) (v0 := 7) (tol := 1/100) (orth := 0) (degree := 2)
      (z := ![1, -1, 1]) (junkAlpha := #[0, 0]) (junkBeta := #[0, 0]) (junk := fun _ => 0) (fun _ => 0)
      (Rounded.roundTo_nearest (p := 53) (by norm_num)) stuck_contract stuck_quick hsqrt hpow
      (by rw [abs_of_pos (by positivity)]; exact zpow_le_zpow_right₀ (by norm_num) (by norm_num)) (fun _ => rfl)
      (by norm_num) (by norm_num) (by norm_num) (by intro i; fin_cases i <;> simp) rfl rfl
    exact_mod_cast this
  · rw [Matrix.trace_smul, Matrix.trace_one]
    norm_num

/-- Non-vacuity of C68: the same matrix with `double` and a successful call is exact. -/
example (ext : External ℝ) (hsqrt : ext.sqrt = Real.sqrt) (hpow : ∀ x, ext.pow x 1 = x) (bdsdc : BdsdcRoutine ℝ) :
    ∃ value, slqSample (direct ext (fun _ => 0) (fun _ => 0) stuck bdsdc) ⟨false, 1, 0, 1, 1/100⟩
      ⟨false, fun _ x => .ok (!![2, 1; 1, 3] *ᵥ x), fun _ x => .ok x, fun _ _ _ => 0⟩ id #[0] 1 ![1, -1] #[0] #[0]
      #[false] #[7] = .ok (#[false], #[value]) ∧ value = 3 := by
  obtain ⟨c, value, hc, hpos, hs, hv⟩ := decomposition_success_partial (n := 2) (ext := ext)
    (opt := ⟨false, 1, 0, 1, 1/100⟩) (stev := stuck) (bdsdc := bdsdc) (A := !![2, 1; 1, 3]) (f := id) (z := ![1, -1])
    (op := ⟨false, fun _ x => .ok (!![2, 1; 1, 3] *ᵥ x), fun _ x => .ok x, fun _ _ _ => 0⟩) (t := 0) (v0 := 7)
    (junkAlpha := #[0]) (junkBeta := #[0]) (fun _ => 0) (fun _ => 0) stuck_contract hsqrt rfl
    (by ext i j; fin_cases i <;> fin_cases j <;> rfl) (fun _ => rfl) (by norm_num) (by norm_num) (by norm_num)
    (by intro i; fin_cases i <;> simp) rfl rfl
  refine ⟨value, hs, ?_⟩
  have h1 : c.size = 1 := by
    obtain ⟨c', hc', hr⟩ := lanczos_result (A := !![2, 1; 1, 3]) (dot := fun x => .ok (!![2, 1; 1, 3] *ᵥ x))
      (z := ![1, -1]) (fun _ => rfl) (by ext i j; fin_cases i <;> fin_cases j <;> rfl)
      (rademacher_ne_zero (by intro i; fin_cases i <;> simp) (by norm_num)) ext.eps (1/100)
      (by norm_num) 1 0 (alpha := #[0]) (beta := #[0]) (by simp) (by simp)
    have : c = c' := by
      have := hc.symm.trans hc'
      simpa using this
    have h2 := hr.le
    rw [← this] at h2
    omega
  rw [hv (by rw [h1]; rfl) X (by rw [natDegree_X]; omega) (by intro x; simp [hpow]), aeval_X]
  norm_num [dotProduct, Matrix.mulVec, Fin.sum_univ_two]

end Imate.Props
