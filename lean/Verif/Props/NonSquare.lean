import Verif.Lemmas.Bounds
import Verif.Props.EndToEnd
import Mathlib.Tactic.Positivity

/-!
# C30: `gram=True` with a non-square matrix

The sample takes its vector length from the number of *rows* (c_trace_estimator.cpp:427).  The
transposed product writes as many cells as the matrix has *columns*.
-/

namespace Imate.Props

open Matrix Imate.Lanczos Imate.Spec

variable {n p : Nat}

/-- **C30 (violation).**  For every stored matrix with more columns than rows, in every format and
whatever it contains, every degree and all contents of fresh memory, the default Golub-Kahn iteration
(`orthogonalize=0`) accesses memory outside its buffers. -/
theorem wide_gram_out_of_bounds (S : StoredMatrix ℝ) (hnp : n < p) (sqrt : ℝ → ℝ) (eps tol : ℝ)
    {v : Array ℝ} (hv : n ≤ v.size) {m : Nat} (hm : 1 ≤ m) (junkU junkV : Nat → ℝ)
    (alpha beta : Array ℝ) :
    Flat.golubKahn sqrt eps (S.dot n p) (S.transposeDot n p) v n m tol 0 junkU junkV alpha beta =
      .error .outOfBounds := by
  have hoob := Flat.golubKahn_oob sqrt eps (fun b c => S.dot_oob n p b c)
    (fun b c => S.transposeDot_oob n p b c) v n m tol 0 junkU junkV alpha beta
  cases h : Flat.golubKahn sqrt eps (S.dot n p) (S.transposeDot n p) v n m tol 0 junkU junkV alpha beta
    with
  | error e => rw [hoob e h]
  | ok c =>
    exfalso
    unfold Flat.golubKahn at h
    obtain ⟨V, h1, h2⟩ := VectorOps.normalizeAndCopy_long sqrt (Flat.begins_any hv)
      (Array.ofFn (fun i : Fin (n * golubKahnBufferSize m 0) => junkV i)) (by
        rw [Array.size_ofFn]; exact Nat.le_mul_of_pos_right n Nat.two_pos)
    simp only [h1, Except.ok_bind'] at h
    obtain ⟨s, h3, _⟩ := Flat.bind_ok h
    obtain ⟨k, rfl⟩ : ∃ k, m = k + 1 := ⟨m - 1, by omega⟩
    obtain ⟨s1, h4, _⟩ := Flat.bind_ok (show (_ >>= _) = Except.ok s from h3)
    simp only [Bool.false_eq_true, if_false] at h4
    unfold Flat.golubKahnBody at h4
    obtain ⟨U1, _, h4⟩ := Flat.bind_ok h4
    obtain ⟨U2, _, h4⟩ := Flat.bind_ok h4
    obtain ⟨U3, _, h4⟩ := Flat.bind_ok h4
    obtain ⟨U4, _, h4⟩ := Flat.bind_ok h4
    obtain ⟨a, _, h4⟩ := Flat.bind_ok h4
    obtain ⟨V1, h5, _⟩ := Flat.bind_ok h4
    obtain ⟨c1, h6, _⟩ := Flat.bind_ok h5
    have hle := StoredMatrix.transposeDot_writes h6
    have hsz := h2.size
    rw [Array.size_ofFn] at hsz
    simp only [Flat.pointer_size, hsz, golubKahnBufferSize, if_true] at hle
    omega

/-- **C30 (violation, through the sample).**  The sample of such a matrix fails for every state of the
generators. -/
theorem wide_gram_sample_out_of_bounds {ext : External ℝ} {opt : Options ℝ} (S : StoredMatrix ℝ)
    (hnp : n < p) (hgram : opt.gram = true) (horth : opt.orthogonalize = 0) (hm : 1 ≤ opt.degree)
    (f : ℝ → ℝ) (parameters : Array ℝ)
    {g : Array Random.Xoshiro} {t : Nat} {x : Random.Xoshiro} (hx : g[t]? = some x)
    (v : Array ℝ) (hv : n ≤ v.size) (j1 j2 : Nat → Nat → ℝ) (junkAlpha junkBeta : Array ℝ) (e0 : ℝ) :
    Flat.slqSample ext opt (.matrix S n p) f parameters 1
        (fun g => Random.generatorNext g t) g v j1 j2 junkAlpha junkBeta #[false] #[e0] =
      .error .outOfBounds := by
  obtain ⟨a, g', h1, h2, _⟩ := random_vector_rademacher (K := ℝ) g t x hx v n hv
  have hnodes : Flat.inquiryNodes ext opt (.matrix S n p) a none (j1 0) (j2 0) junkAlpha junkBeta =
      .error .outOfBounds := by
    unfold Flat.inquiryNodes
    rw [if_pos hgram, horth]
    have := wide_gram_out_of_bounds S hnp ext.sqrt ext.eps opt.tol (v := a) (by omega) hm
      (j1 0) (j2 0) junkAlpha junkBeta
    rw [show Flat.golubKahn ext.sqrt ext.eps ((Flat.LinearOperator.matrix S n p).dot none)
      ((Flat.LinearOperator.matrix S n p).transposeDot none) a
      (Flat.LinearOperator.matrix S n p).numRows opt.degree opt.tol 0 (j1 0) (j2 0) junkAlpha junkBeta
      = .error .outOfBounds from this]
    rfl
  unfold Flat.slqSample
  rw [show (Flat.LinearOperator.matrix S n p).numRows = n from rfl, h1, Except.ok_bind']
  show (forRange 0 1 _ _ >>= _) = _
  have hbody : forRange 0 1 (Flat.inquiryBody ext opt (.matrix S n p) parameters a j1 j2 #[false] 1 1)
      ⟨Array.replicate 1 none, junkAlpha, junkBeta⟩ = .error .outOfBounds := by
    show (Flat.inquiryBody ext opt (.matrix S n p) parameters a j1 j2 #[false] 1 1 0
      ⟨Array.replicate 1 none, junkAlpha, junkBeta⟩ >>= _) = _
    unfold Flat.inquiryBody
    simp only [rd_ok (show (#[false] : Array Bool)[0]? = some false from rfl), Except.ok_bind',
      Bool.false_and, Bool.false_eq_true, if_false]
    rw [show (Flat.LinearOperator.matrix S n p).parameter parameters 0 = .ok none from rfl,
      Except.ok_bind', hnodes]
    rfl
  rw [show requiredInquiries (Flat.LinearOperator.matrix S n p).facade 1 = 1 from rfl, hbody]
  rfl

/-- Non-vacuity: the 1×2 matrix `(1 2)`. -/
example : Flat.slqSample someExternal ⟨true, 1, 0, 3, 1/100⟩
    (.matrix (.dense #[1, 2] true) 1 2) id #[] 1
    (fun g => Random.generatorNext g 0) #[⟨1, 2, 3, 4⟩] #[0] (fun _ _ => 0) (fun _ _ => 0)
    #[0, 0, 0] #[0, 0, 0] #[false] #[0] = .error .outOfBounds :=
  wide_gram_sample_out_of_bounds (x := ⟨1, 2, 3, 4⟩) _ (by norm_num) rfl rfl (by norm_num) _ _ rfl _
    (by simp) _ _ _ _ _

/-- **C30 (square or tall; values are not claimed).**  With at most as many columns as rows the
iteration stays in bounds for every orthogonalisation depth. -/
theorem tall_gram_in_bounds_partial {S : StoredMatrix ℝ} {A : Matrix (Fin n) (Fin p) ℝ}
    (hS : Represents S A) (hpn : p ≤ n) (sqrt : ℝ → ℝ) (eps tol : ℝ) (orthogonalize : Int)
    {v : Array ℝ} (hv : n ≤ v.size) {m : Nat} (hm : 1 ≤ m) (junkU junkV : Nat → ℝ)
    {alpha beta : Array ℝ} (ha : alpha.size = m) (hb : beta.size = m) :
    ∃ c, Flat.golubKahn sqrt eps (S.dot n p) (S.transposeDot n p) v n m tol orthogonalize junkU junkV
      alpha beta = .ok c := by
  refine Flat.golubKahn_any sqrt eps ?_ ?_ tol orthogonalize hm hv junkU junkV ha hb
  · intro b c h1 h2
    obtain ⟨c', h3, h4⟩ := StoredMatrix.dot_long hS (Flat.begins_any (a := b) (n := p) (by omega)) c h2
    exact ⟨c', h3, h4.size⟩
  · intro b c h1 h2
    obtain ⟨c', h3, h4⟩ := StoredMatrix.transposeDot_long hS (Flat.begins_any h1) c (by omega)
    exact ⟨c', h3, h4.size⟩

/-- **C30 (violation, fewer columns than rows).**  The iteration reads cells that nobody wrote: for
every matrix with fewer columns than rows there are two contents of the fresh memory for which the
first off-diagonal coefficient differs. -/
theorem tall_gram_reads_uninitialised {S : StoredMatrix ℝ} {A : Matrix (Fin n) (Fin p) ℝ}
    (hS : Represents S A) (hpn : p < n) (eps tol : ℝ) (v : Fin n → ℝ) (a0 b0 : ℝ) :
    ∃ junkV junkV' : Nat → ℝ, ∃ a b b', ∀ junkU : Nat → ℝ,
      Flat.golubKahn Real.sqrt eps (S.dot n p) (S.transposeDot n p) (Array.ofFn v) n 1 tol 0 junkU
        junkV #[a0] #[b0] = .ok ⟨1, #[a], #[b]⟩ ∧
      Flat.golubKahn Real.sqrt eps (S.dot n p) (S.transposeDot n p) (Array.ofFn v) n 1 tol 0 junkU
        junkV' #[a0] #[b0] = .ok ⟨1, #[a], #[b']⟩ ∧ b ≠ b' := by
  -- first column of `V`, first column of `U`
  let v0 : Fin n → ℝ := fun i => v i / Real.sqrt (v ⬝ᵥ v)
  let v0p : Fin p → ℝ := fun i => v0 ⟨i, by omega⟩
  let u := A *ᵥ v0p
  let a := Real.sqrt (u ⬝ᵥ u)
  let u0 : Fin n → ℝ := fun i => u i / a
  let w : (Nat → ℝ) → Fin n → ℝ := fun junk i =>
    (if h : i.1 < p then (Aᵀ *ᵥ u0) ⟨i, h⟩ else junk (n + i)) - a * v0 i
  have hbs : golubKahnBufferSize 1 0 = 2 := rfl
  have hrun : ∀ junkU junkV : Nat → ℝ,
      Flat.golubKahn Real.sqrt eps (S.dot n p) (S.transposeDot n p) (Array.ofFn v) n 1 tol 0 junkU
        junkV #[a0] #[b0] = .ok ⟨1, #[a], #[Real.sqrt (w junkV ⬝ᵥ w junkV)]⟩ := by
    intro junkU junkV
    unfold Flat.golubKahn
    obtain ⟨V, h1, h2⟩ := VectorOps.normalizeAndCopy_long Real.sqrt (Begins.ofFn v)
      (Array.ofFn (fun i : Fin (n * golubKahnBufferSize 1 0) => junkV i)) (by
        rw [Array.size_ofFn, hbs]; omega)
    have hVs : V.size = n * 2 := by rw [h2.size, Array.size_ofFn, hbs]
    simp only [h1, Except.ok_bind']
    -- the product
    have hp0 : ∀ a : Array ℝ, Flat.pointer a (0 % 2 * n) = a := by
      intro a; simp [Flat.pointer]
    obtain ⟨U1, h3, h4⟩ := StoredMatrix.dot_long hS (b := V) (v := v0p)
      (fun i => by have := h2.begins ⟨i, by omega⟩; exact this)
      (Array.ofFn (fun i : Fin (n * golubKahnBufferSize 1 0) => junkU i))
      (by rw [Array.size_ofFn, hbs]; omega)
    obtain ⟨U2, h5, h6⟩ := VectorOps.normalizeInPlace_long Real.sqrt h4.begins
    have hpv : ∀ k, (Flat.pointer V ((0 + 1) % 2 * n))[k]? = V[n + k]? := by
      intro k; rw [Flat.pointer_get]; simp
    obtain ⟨c1, h7, h8⟩ := StoredMatrix.transposeDot_long hS (b := U2) (v := u0) h6.begins
      (Flat.pointer V ((0 + 1) % 2 * n)) (by rw [Flat.pointer_size, hVs]; simp; omega)
    have hc1s : c1.size = n := by
      rw [h8.size, Flat.pointer_size, hVs]; simp; omega
    have hex : (V.extract 0 ((0 + 1) % 2 * n)).size = n := by
      rw [Array.size_extract, hVs]; simp; omega
    have hVc : ∀ i : Fin n, (V.extract 0 ((0 + 1) % 2 * n) ++ c1)[i.1]? = some (v0 i) := by
      intro i
      rw [Array.getElem?_append, if_pos (by rw [hex]; exact i.2), Array.getElem?_extract,
        if_pos (by have := i.2; simp; omega), Nat.zero_add]
      exact h2.begins i
    have hptr : Flat.pointer (V.extract 0 ((0 + 1) % 2 * n) ++ c1) ((0 + 1) % 2 * n) = c1 := by
      apply Array.ext_getElem?
      intro k
      rw [Flat.pointer_get, Array.getElem?_append, hex, if_neg (by simp)]
      congr 1; simp
    have hbegins : Begins c1 (fun i : Fin n =>
        if h : i.1 < p then (Aᵀ *ᵥ u0) ⟨i, h⟩ else junkV (n + i)) := by
      intro i
      dsimp only
      split
      · rename_i h; exact h8.begins ⟨i, h⟩
      · rename_i h
        rw [h8.rest _ (by omega), hpv, h2.rest _ (by omega), Array.getElem?_ofFn,
          dif_pos (by have := i.2; rw [hbs]; omega)]
    obtain ⟨c2, h9, h10⟩ := VectorOps.subtractScaledVector_long
      (a := V.extract 0 ((0 + 1) % 2 * n) ++ c1) (u := v0) hVc a hbegins
    obtain ⟨c3, h11, h12⟩ := VectorOps.normalizeInPlace_long Real.sqrt h10.begins
    have hex2 : (V.extract 0 ((0 + 1) % 2 * n) ++ c1).extract 0 ((0 + 1) % 2 * n) =
        V.extract 0 ((0 + 1) % 2 * n) := by
      rw [Array.extract_append, hex]; simp
    have hptr2 : Flat.pointer (V.extract 0 ((0 + 1) % 2 * n) ++ c2) ((0 + 1) % 2 * n) = c2 := by
      apply Array.ext_getElem?
      intro k
      rw [Flat.pointer_get, Array.getElem?_append, hex, if_neg (by simp)]
      congr 1; simp
    have hpU : ∀ c : Array ℝ, (Array.ofFn (fun i : Fin (n * golubKahnBufferSize 1 0) =>
        junkU i)).extract 0 (0 % 2 * n) ++ c = c := by intro c; simp
    have hpU1 : ∀ c : Array ℝ, U1.extract 0 (0 % 2 * n) ++ c = c := by intro c; simp
    show ((if (false : Bool) = true then Except.ok _ else Flat.golubKahnBody Real.sqrt eps (S.dot n p)
      (S.transposeDot n p) n tol 0 2 0 _) >>= fun s => _) >>= _ = _
    simp only [Bool.false_eq_true, if_false]
    unfold Flat.golubKahnBody Flat.through Flat.gkSubtractPrevious Flat.gkReorthogonalizeU
      Flat.gkReorthogonalizeV Flat.normalizeAt
    simp only [hp0, h3, Except.ok_bind', hpU, Nat.lt_irrefl, if_false, ne_eq, not_true, false_and,
      gt_iff_lt, h5, hpU1, wr_ok (show 0 < (#[a0] : Array ℝ).size from Nat.one_pos), h7,
      hptr, hex2]
    rw [show VectorOps.subtractScaledVector _ n _ c1 = _ from h9]
    simp only [Except.ok_bind', hptr2]
    rw [h11]
    simp only [Except.ok_bind', wr_ok (show 0 < (#[b0] : Array ℝ).size from Nat.one_pos)]
    rfl
  let j0 : Nat → ℝ := fun k => if h : k - n < n then a * v0 ⟨k - n, h⟩ else 0
  let j1 : Nat → ℝ := fun k => j0 k + 1
  refine ⟨j0, j1, a, _, _, fun junkU => ⟨hrun junkU j0, hrun junkU j1, ?_⟩⟩
  have hw0 : ∀ i : Fin n, w j0 i * w j0 i ≤ w j1 i * w j1 i ∧
      (p ≤ i.1 → w j0 i * w j0 i < w j1 i * w j1 i) := by
    intro i
    have hj0 : j0 (n + i) = a * v0 i := by
      show (if h : n + i.1 - n < n then a * v0 ⟨n + i.1 - n, h⟩ else 0) = _
      rw [dif_pos (by have := i.2; omega)]
      congr 2; ext; simp
    show ((if h : i.1 < p then _ else _) - _) * _ ≤ _ ∧ _
    by_cases h : i.1 < p
    · refine ⟨le_of_eq ?_, fun h' => by omega⟩
      show (_ - _) * (_ - _) = (_ - _) * (_ - _)
      simp only [dif_pos h]
    · have e0 : w j0 i = 0 := by
        show (if h : i.1 < p then _ else _) - _ = _
        rw [dif_neg h, hj0, sub_self]
      have e1 : w j1 i = 1 := by
        show (if h : i.1 < p then _ else (j0 (n + i) + 1)) - _ = _
        rw [dif_neg h, hj0]; ring
      show w j0 i * w j0 i ≤ w j1 i * w j1 i ∧ _
      rw [e0, e1]
      norm_num
  have hlt : w j0 ⬝ᵥ w j0 < w j1 ⬝ᵥ w j1 :=
    Finset.sum_lt_sum (fun i _ => (hw0 i).1)
      ⟨⟨p, hpn⟩, Finset.mem_univ _, (hw0 ⟨p, hpn⟩).2 (le_refl _)⟩
  have hnn : 0 ≤ w j0 ⬝ᵥ w j0 := Finset.sum_nonneg (fun i _ => mul_self_nonneg _)
  exact ne_of_lt (Real.sqrt_lt_sqrt hnn hlt)

/-- Non-vacuity: a stored 2×1 matrix. -/
example : Represents (.dense #[1, 5] true) (!![1; 5] : Matrix (Fin 2) (Fin 1) ℝ) ∧ 1 < 2 :=
  ⟨⟨rfl, by intro i j; fin_cases i <;> fin_cases j <;> rfl⟩, by norm_num⟩

end Imate.Props
