import Verif.Props.Diagonalization
import Verif.Props.Slq

/-! # C68: when LAPACK succeeds, with `gram` and with several parameters -/

namespace Imate.Props

open Matrix Imate.Lanczos Imate.Spec Imate.Diagonalization Polynomial

variable {n : Nat}

theorem direct_svd {K : Type _} (junk : Nat → K) (junkInt : Nat → Int) (bdsdc : BdsdcRoutine K) (k : Nat)
    (alpha beta : Array K) :
    svd junk junkInt (directBdsdc bdsdc) k alpha beta =
      ((bdsdc k alpha beta (Array.ofFn (fun i : Fin (k * k) => junk i.1)) (Array.ofFn (fun i : Fin (k * k) => junk i.1))
          (Array.ofFn (fun i : Fin (3 * k * k + 4 * k) => junk i.1)) (Array.ofFn (fun i : Fin (8 * k) => junkInt i.1))).d,
        (bdsdc k alpha beta (Array.ofFn (fun i : Fin (k * k) => junk i.1)) (Array.ofFn (fun i : Fin (k * k) => junk i.1))
          (Array.ofFn (fun i : Fin (3 * k * k + 4 * k) => junk i.1)) (Array.ofFn (fun i : Fin (8 * k) => junkInt i.1))).vt) := by
  unfold svd svdBidiagonal directBdsdc
  have h8 : newArray junkInt (8 * (k : Int)) = .ok (Array.ofFn (fun i : Fin (8 * k) => junkInt i.1)) :=
    newArray_ok junkInt (8 * k)
  rw [newArray_svdWork, Except.ok_bind', h8]
  rfl

/-- **C68 (partial, `gram`).** If LAPACK succeeds, the sample is exact: for every LAPACK that keeps its contract, every
invertible matrix, Rademacher vector and options, a sample with one parameter calls LAPACK with the coefficients `c` of
the Golub-Kahn run, and if that call returns `info = 0` the result is `zᵀ p(AᵀA) z` for every polynomial of degree at
most `2m - 1`, `m` the size. -/
theorem decomposition_success_gram_partial {ext : External ℝ} {opt : Options ℝ} {op : Operator ℝ n} {f : ℝ → ℝ}
    {z : Fin n → ℝ} {A : Matrix (Fin n) (Fin n) ℝ} {stev : StevRoutine ℝ} {bdsdc : BdsdcRoutine ℝ} {t v0 : ℝ}
    {junkAlpha junkBeta : Array ℝ} (junk : Nat → ℝ) (junkInt : Nat → Int) (hbdsdc : BdsdcContract bdsdc)
    (hsqrt : ext.sqrt = Real.sqrt) (hgram : opt.gram = true) (hA : Function.Injective A.mulVec)
    (hdot : ∀ x, op.dot t x = .ok (A *ᵥ x)) (htdot : ∀ x, op.transposeDot t x = .ok (Aᵀ *ᵥ x))
    (htol : 0 < opt.tol) (hm : 1 ≤ opt.degree) (hn : 0 < n) (hz : Rademacher z)
    (hja : junkAlpha.size = opt.degree) (hjb : junkBeta.size = opt.degree) :
    ∃ c value, golubKahn Real.sqrt ext.eps (op.dot t) (op.transposeDot t) z opt.degree opt.tol opt.orthogonalize junkAlpha
        junkBeta = .ok c ∧
      1 ≤ c.size ∧
      slqSample (direct ext junk junkInt stev bdsdc) opt op f #[t] 1 z junkAlpha junkBeta #[false] #[v0] =
        .ok (#[false], #[value]) ∧
      ((bdsdc c.size c.alpha c.beta (Array.ofFn (fun i : Fin (c.size * c.size) => junk i.1))
          (Array.ofFn (fun i : Fin (c.size * c.size) => junk i.1))
          (Array.ofFn (fun i : Fin (3 * c.size * c.size + 4 * c.size) => junk i.1))
          (Array.ofFn (fun i : Fin (8 * c.size) => junkInt i.1))).info = 0 →
        ∀ p : ℝ[X], p.natDegree < 2 * c.size → (∀ x, f (ext.pow x opt.exponent) = p.eval x) →
          value = z ⬝ᵥ (aeval (Aᵀ * A) p *ᵥ z)) := by
  have hz0 := rademacher_ne_zero hz hn
  obtain ⟨c, hc, hr, hlast⟩ := golubKahn_core hdot htdot hA hz0 ext.eps opt.tol htol opt.degree hm opt.orthogonalize hja hjb
  have hpos := hr.pos
  have hle := hr.le
  have h1 := hr.asize
  have h2 := hr.bsize
  have he : (direct ext junk junkInt stev bdsdc).svd c.size c.alpha c.beta = _ := direct_svd junk junkInt bdsdc c.size c.alpha c.beta
  obtain ⟨s1, s2, s3⟩ := hbdsdc c.size c.alpha c.beta (Array.ofFn (fun i : Fin (c.size * c.size) => junk i.1))
    (Array.ofFn (fun i : Fin (c.size * c.size) => junk i.1))
    (Array.ofFn (fun i : Fin (3 * c.size * c.size + 4 * c.size) => junk i.1))
    (Array.ofFn (fun i : Fin (8 * c.size) => junkInt i.1)) hpos (by omega) (by omega) (by simp) (by simp) (by simp) (by simp)
  set r := bdsdc c.size c.alpha c.beta (Array.ofFn (fun i : Fin (c.size * c.size) => junk i.1))
    (Array.ofFn (fun i : Fin (c.size * c.size) => junk i.1))
    (Array.ofFn (fun i : Fin (3 * c.size * c.size + 4 * c.size) => junk i.1))
    (Array.ofFn (fun i : Fin (8 * c.size) => junkInt i.1))
  have hread := readNodes_array (k := c.size) (a := r.d) (v := r.vt) (by omega) (fun i => i) (by
      intro i hi
      rw [s2]
      simpa using lt_of_lt_of_le hi (Nat.le_mul_of_pos_left _ hpos)) (fun x => x * x)
  have hl : golubKahnNodes (direct ext junk junkInt stev bdsdc) opt (op.dot t) (op.transposeDot t) z junkAlpha junkBeta =
      .ok (List.ofFn (fun i : Fin c.size => (r.d.getD i.1 0 * r.d.getD i.1 0, r.vt.getD i.1 0)), r.d, c.beta) := by
    unfold golubKahnNodes
    have h3 : golubKahn (direct ext junk junkInt stev bdsdc).sqrt (direct ext junk junkInt stev bdsdc).eps (op.dot t)
        (op.transposeDot t) z opt.degree opt.tol opt.orthogonalize junkAlpha junkBeta = .ok c := by
      show golubKahn ext.sqrt _ _ _ _ _ _ _ _ _ = _
      rw [hsqrt]
      exact hc
    rw [h3, Except.ok_bind', he]
    have hfun : (fun i => do .ok ((← rd r.d i) * (← rd r.d i)) : Nat → Except Fault ℝ) =
        (fun i => do .ok ((fun x => x * x) (← rd r.d i))) := by
      funext i
      cases rd r.d i <;> rfl
    show (readNodes c.size (fun i => do .ok ((← rd r.d i) * (← rd r.d i)) : Nat → Except Fault ℝ) _ >>= _) = _
    rw [hfun, hread, Except.ok_bind']
  refine ⟨c, _, hc, hpos, slqSample_one (op := op) (by unfold inquiryNodes; rw [hgram]; exact hl), ?_⟩
  intro hinfo p hp hf
  have hs := s3 hinfo
  rw [hr.bidiagonal_eq] at hs
  have hd : Diagonalises (gramT A z c.size) (List.ofFn (fun i : Fin c.size =>
      (r.d.getD i.1 0 * r.d.getD i.1 0, r.vt.getD i.1 0))) := by
    refine ⟨hpos, _, _, spectral_of_singular hs, ?_⟩
    simp only [Nat.zero_mul, Nat.add_zero]
  have hsym : (Aᵀ * A).IsSymm := by
    rw [Matrix.IsSymm, transpose_mul, transpose_transpose]
  exact (krylov_exact (gram_krylov hr) hsym (bidiagonal_gram_hessenberg _ _) hd hz ext.pow f opt.exponent).1 p hp hf

/-- **C68 (several parameters).**  If no call of LAPACK fails, what the library makes of its results meets the
specifications under which the samples with any number of parameters are exact and converge (C13, C17, C77). -/
theorem lapack_success_exact (ext : External ℝ) {stev : StevRoutine ℝ} {bdsdc : BdsdcRoutine ℝ} (junk : Nat → ℝ)
    (junkInt : Nat → Int) (hstev : StevContract stev) (hbdsdc : BdsdcContract bdsdc)
    (hs : ∀ k d e z w, (stev k d e z w).info = 0)
    (hb : ∀ k d e u v w i, (∀ j < k, 0 < d.getD j 0) → (bdsdc k d e u v w i).info = 0) :
    EighSpec (direct ext junk junkInt stev bdsdc).eigh ∧ SvdSpec (direct ext junk junkInt stev bdsdc).svd := by
  constructor
  · intro k alpha beta hk ha hbe
    have he : (direct ext junk junkInt stev bdsdc).eigh k alpha beta = _ := direct_eigh junk stev hk alpha beta
    obtain ⟨s1, s2, s3⟩ := hstev k alpha beta (Array.ofFn (fun i : Fin (k * k) => junk i.1))
      (Array.ofFn (fun i : Fin (2 * k - 2) => junk i.1)) hk ha (by omega) (by simp) (by simp)
    rw [he]
    exact ⟨s1, by rw [s2]; simp, s3 (hs _ _ _ _ _)⟩
  · intro k alpha beta hk ha hbe hp
    have he : (direct ext junk junkInt stev bdsdc).svd k alpha beta = _ := direct_svd junk junkInt bdsdc k alpha beta
    obtain ⟨s1, s2, s3⟩ := hbdsdc k alpha beta (Array.ofFn (fun i : Fin (k * k) => junk i.1))
      (Array.ofFn (fun i : Fin (k * k) => junk i.1)) (Array.ofFn (fun i : Fin (3 * k * k + 4 * k) => junk i.1))
      (Array.ofFn (fun i : Fin (8 * k) => junkInt i.1)) hk ha (by omega) (by simp) (by simp) (by simp) (by simp)
    rw [he]
    exact ⟨s1, by rw [s2]; simp, _, s3 (hb _ _ _ _ _ _ _ hp)⟩

/-! ### Non-vacuity -/

/-- The array `a` with the first elements replaced by those of `b`. -/
def overwrite (a b : Array ℝ) : Array ℝ := Array.ofFn (fun i : Fin a.size => if i.1 < b.size then b.getD i.1 0 else a.getD i.1 0)

theorem overwrite_getD {a b : Array ℝ} (h : b.size ≤ a.size) {i : Nat} (hi : i < b.size) :
    (overwrite a b).getD i 0 = b.getD i 0 := by
  unfold overwrite
  rw [Array.getD_eq_getD_getElem?, Array.getElem?_ofFn, dif_pos (by omega)]
  simp [hi]

theorem index_lt {k : Nat} (i j : Fin k) : i.1 + j.1 * k < k * k := by
  have h1 : (j.1 + 1) * k ≤ k * k := Nat.mul_le_mul_right k j.2
  rw [Nat.add_mul, Nat.one_mul] at h1
  have := i.2
  omega

/-- A `?stev` that always succeeds. -/
noncomputable def goodStev : StevRoutine ℝ := fun n d e z _ =>
  ⟨(exists_eigh.choose n d (e.push 0)).1, e, overwrite z (exists_eigh.choose n d (e.push 0)).2, 0⟩

theorem push_getD {e : Array ℝ} {i : Nat} : (e.push 0).getD i 0 = e.getD i 0 := by
  rw [Array.getD_eq_getD_getElem?, Array.getD_eq_getD_getElem?, Array.getElem?_push]
  split
  · subst_vars; simp
  · rfl

theorem goodStev_contract : StevContract goodStev := by
  intro k d e z w hk hd he hz hw
  obtain ⟨h1, h2, h3⟩ := exists_eigh.choose_spec k d (e.push 0) hk hd (by simpa using he)
  refine ⟨h1, by simp [goodStev, overwrite], fun _ => ?_⟩
  simp only [push_getD] at h3
  have hQ : (fun i j : Fin k => (goodStev k d e z w).z.getD (i.1 + j.1 * k) 0) =
      fun i j : Fin k => (exists_eigh.choose k d (e.push 0)).2.getD (i.1 + j.1 * k) 0 := by
    funext i j
    exact overwrite_getD (by omega) (by rw [h2]; exact index_lt i j)
  rw [hQ]
  exact h3

open Classical in
/-- A `?bdsdc` that succeeds for matrices with a positive diagonal. -/
noncomputable def goodBdsdc : BdsdcRoutine ℝ := fun n d e u vt _ _ =>
  if h : 1 ≤ n ∧ n ≤ d.size ∧ n ≤ (e.push 0).size ∧ ∀ i < n, 0 < d.getD i 0 then
    ⟨(exists_svd.choose n d (e.push 0)).1, e,
      overwrite u (Array.ofFn (fun q : Fin (n * n) =>
        (exists_svd.choose_spec n d (e.push 0) h.1 h.2.1 h.2.2.1 h.2.2.2).2.2.choose
          ⟨q.1 % n, Nat.mod_lt _ h.1⟩ ⟨q.1 / n, Nat.div_lt_of_lt_mul q.2⟩)),
      overwrite vt (exists_svd.choose n d (e.push 0)).2, 0⟩
  else ⟨d, e, u, vt, if ∀ i < n, 0 < d.getD i 0 then 0 else 1⟩

theorem goodBdsdc_contract : BdsdcContract goodBdsdc := by
  intro k d e u vt w iw hk hd he hu hvt hw hiw
  by_cases hp : ∀ i < k, 0 < d.getD i 0
  · have h : 1 ≤ k ∧ k ≤ d.size ∧ k ≤ (e.push 0).size ∧ ∀ i < k, 0 < d.getD i 0 := ⟨hk, hd, by simpa using he, hp⟩
    have hg : goodBdsdc k d e u vt w iw = _ := dif_pos h
    rw [hg]
    have hs := exists_svd.choose_spec k d (e.push 0) h.1 h.2.1 h.2.2.1 h.2.2.2
    have h3 := hs.2.2.choose_spec
    refine ⟨hs.1, by simp [overwrite], fun _ => ?_⟩
    have hpe : (fun i => e.getD i 0) = fun i => (e.push 0).getD i 0 := by
      funext i
      rw [push_getD]
    have hU : (fun i j : Fin k => (overwrite u (Array.ofFn (fun q : Fin (k * k) =>
        hs.2.2.choose ⟨q.1 % k, Nat.mod_lt _ hk⟩ ⟨q.1 / k, Nat.div_lt_of_lt_mul q.2⟩))).getD (i.1 + j.1 * k) 0) =
        hs.2.2.choose := by
      funext i j
      rw [overwrite_getD (by simpa using hu) (by simpa using index_lt i j), Array.getD_eq_getD_getElem?,
        Array.getElem?_ofFn, dif_pos (index_lt i j), Option.getD_some]
      refine congrArg₂ hs.2.2.choose (Fin.ext ?_) (Fin.ext ?_)
      · show (i.1 + j.1 * k) % k = i.1
        rw [Nat.add_mul_mod_self_right, Nat.mod_eq_of_lt i.2]
      · show (i.1 + j.1 * k) / k = j.1
        rw [Nat.add_mul_div_right _ _ (by omega), Nat.div_eq_of_lt i.2, Nat.zero_add]
    have hV : (fun i j : Fin k => (overwrite vt (exists_svd.choose k d (e.push 0)).2).getD (j.1 + i.1 * k) 0) =
        fun i j : Fin k => (exists_svd.choose k d (e.push 0)).2.getD (j.1 + i.1 * k) 0 := by
      funext i j
      exact overwrite_getD (by rw [hs.2.1]; exact hvt) (by rw [hs.2.1]; exact index_lt j i)
    show SingularValues _ (fun i j : Fin k => (overwrite u _).getD (i.1 + j.1 * k) 0)
      (fun i j : Fin k => (overwrite vt _).getD (j.1 + i.1 * k) 0) _
    rw [hU, hV, hpe]
    exact h3
  · have hg : goodBdsdc k d e u vt w iw = _ := dif_neg (fun h => hp h.2.2.2)
    rw [hg]
    refine ⟨rfl, rfl, fun h => ?_⟩
    simp only [if_neg hp] at h
    exact absurd h (by norm_num)

/-- The hypotheses are met. -/
example : StevContract goodStev ∧ BdsdcContract goodBdsdc ∧ (∀ k d e z w, (goodStev k d e z w).info = 0) ∧
    ∀ k d e u v w i, (∀ j < k, 0 < d.getD j 0) → (goodBdsdc k d e u v w i).info = 0 := by
  refine ⟨goodStev_contract, goodBdsdc_contract, fun _ _ _ _ _ => rfl, fun k d e u v w i hp => ?_⟩
  unfold goodBdsdc
  split
  · rfl
  · simp [hp]

/-- `tr AᵀA` of `A = diag(1, 3)`. -/
example (junk : Nat → ℝ) (junkInt : Nat → Int) :
    ∃ c value, golubKahn Real.sqrt 0 (fun x => .ok (diagonal ![1, 3] *ᵥ x)) (fun x => .ok ((diagonal ![1, 3])ᵀ *ᵥ x)) ![1, -1]
        3 (1/100) 0 #[0, 0, 0] #[0, 0, 0] = .ok c ∧ 1 ≤ c.size ∧
      slqSample (direct ⟨Real.sqrt, 0, fun x _ => x, fun _ a b => (a, b), fun _ a b => (a, b)⟩ junk junkInt goodStev goodBdsdc)
        ⟨true, 1, 0, 3, 1/100⟩ ⟨false, fun _ x => .ok (diagonal ![1, 3] *ᵥ x), fun _ x => .ok ((diagonal ![1, 3])ᵀ *ᵥ x),
          fun _ _ _ => 0⟩ id #[0] 1 ![1, -1] #[0, 0, 0] #[0, 0, 0] #[false] #[0] = .ok (#[false], #[value]) ∧
      ((goodBdsdc c.size c.alpha c.beta (Array.ofFn (fun i : Fin (c.size * c.size) => junk i.1))
          (Array.ofFn (fun i : Fin (c.size * c.size) => junk i.1))
          (Array.ofFn (fun i : Fin (3 * c.size * c.size + 4 * c.size) => junk i.1))
          (Array.ofFn (fun i : Fin (8 * c.size) => junkInt i.1))).info = 0 → value = 10) := by
  obtain ⟨c, value, h1, h2, h3, h4⟩ := decomposition_success_gram_partial
    (ext := ⟨Real.sqrt, 0, fun x _ => x, fun _ a b => (a, b), fun _ a b => (a, b)⟩) (opt := ⟨true, 1, 0, 3, 1/100⟩)
    (op := ⟨false, fun _ x => .ok (diagonal ![1, 3] *ᵥ x), fun _ x => .ok ((diagonal ![1, 3])ᵀ *ᵥ x), fun _ _ _ => 0⟩)
    (f := id) (z := ![1, -1]) (A := diagonal ![1, 3]) (stev := goodStev) (bdsdc := goodBdsdc) (t := 0) (v0 := 0)
    (junkAlpha := #[0, 0, 0]) (junkBeta := #[0, 0, 0]) junk junkInt goodBdsdc_contract rfl rfl
    (Matrix.mulVec_injective_iff_isUnit.2 (by
      rw [Matrix.isUnit_iff_isUnit_det, Matrix.det_diagonal]
      simp [Fin.prod_univ_two]))
    (fun _ => rfl) (fun _ => rfl) (by norm_num) (by norm_num) (by norm_num)
    (by intro i; fin_cases i <;> simp) rfl rfl
  refine ⟨c, value, h1, h2, h3, fun hi => ?_⟩
  rw [h4 hi X (by rw [natDegree_X]; omega) (fun x => by simp), aeval_X, diagonal_transpose, diagonal_mul_diagonal]
  simp [dotProduct, Fin.sum_univ_two, mulVec_diagonal]
  norm_num

end Imate.Props
