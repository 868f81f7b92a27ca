import Verif.Lemmas.FlatSlq
import Verif.Props.Slq
import Verif.Props.Operators
import Verif.Props.Random
import Verif.Props.Lanczos
import Mathlib.LinearAlgebra.Matrix.Determinant.Basic

/-!
# One sample, end to end

C13, C17, C54 for the complete chain of the library: stored matrices (dense in either order, CSR, CSC),
the matrix and affine operators, the random generator, the iterations on flat buffers with uninitialised
contents, the external diagonalisation, and the quadrature.  `Flat.slqSample` calls the kernels of
`Model/Kernels.lean` on pointers into the buffers, every access checked against the allocation.
-/

namespace Imate.Props

open Matrix Imate.Lanczos Imate.Spec Polynomial

variable {n : Nat} {ext : External ℝ} {opt : Options ℝ}
  {parameters junkAlpha junkBeta estimate : Array ℝ} {converged : Array Bool} {num : Nat}
  {f : ℝ → ℝ}

/-- The sign vector read off a generator in state `x`: bit `k mod 64` of draw `k / 64`. -/
def drawnSigns (x : Random.Xoshiro) (n : Nat) : Fin n → ℝ :=
  fun k => if (draw x (k.1 / 64)).getLsbD (k.1 % 64) then 1 else -1

theorem drawnSigns_rademacher (x : Random.Xoshiro) (n : Nat) : Rademacher (drawnSigns x n) := by
  intro k
  unfold drawnSigns
  split
  · exact Or.inl rfl
  · exact Or.inr rfl

/-- The generator of thread `t` started in state `x` leaves these states behind after a sample. -/
def Advanced (g g' : Array Random.Xoshiro) (t n : Nat) (x : Random.Xoshiro) : Prop :=
  ∀ u, g'[u]? = if u = t then some (stateAfter x (n / 64 + 1)) else g[u]?

/-- `value` is the exact quadratic form of `f(x^exponent)` for the symmetric matrix `M` and the vector
`z`, as far as a Gauss quadrature of size `size` can be exact: for polynomials of degree at most
`2 size - 1`, and for all functions if `complete` (the iteration stopped at an invariant subspace). -/
def ExactSample (ext : External ℝ) (opt : Options ℝ) (f : ℝ → ℝ) (M : Matrix (Fin n) (Fin n) ℝ)
    (z : Fin n → ℝ) (size : Nat) (complete : Prop) (value : ℝ) : Prop :=
  (∀ p : ℝ[X], p.natDegree < 2 * size → (∀ x, f (ext.pow x opt.exponent) = p.eval x) →
    value = z ⬝ᵥ (aeval M p *ᵥ z)) ∧
  (complete → ∀ Q lam, Spectral M Q lam →
    value = z ⬝ᵥ (matrixFunction (fun x => f (ext.pow x opt.exponent)) Q lam *ᵥ z))

private theorem generated {t : Nat} {x : Random.Xoshiro} {g : Array Random.Xoshiro}
    (hx : g[t]? = some x) (v : Array ℝ) (hv : n ≤ v.size) :
    ∃ a g', Random.generateArray (fun g => Random.generatorNext g t) g v n = .ok (a, g') ∧
      Begins a (drawnSigns x n) ∧ Advanced g g' t n x := by
  obtain ⟨a, g', h1, _, h3, _, h5⟩ := random_vector_rademacher (K := ℝ) g t x hx v n hv
  exact ⟨a, g', h1, fun k => h3 k k.2, h5⟩

/-- **C13, C54 (a plain matrix).**  For every symmetric matrix in any storage format, every state of the
generators, any contents of uninitialised memory and any options, a sample succeeds without leaving its
buffers, and reports the exact quadratic form with the sign vector that the generator of its thread
produces. -/
theorem stored_matrix_sample {S : StoredMatrix ℝ} {A : Matrix (Fin n) (Fin n) ℝ}
    (hS : Represents S A) (hA : A.IsSymm) (hsqrt : ext.sqrt = Real.sqrt) (heig : EighSpec ext.eigh)
    (hgram : opt.gram = false) (htol : 0 < opt.tol) (hm : 1 ≤ opt.degree) (hn : 0 < n)
    (hja : junkAlpha.size = opt.degree) (hjb : junkBeta.size = opt.degree)
    {g : Array Random.Xoshiro} {t : Nat} {x : Random.Xoshiro} (hx : g[t]? = some x)
    (v : Array ℝ) (hv : n ≤ v.size) (j1 j2 : Nat → Nat → ℝ) (e0 : ℝ) :
    ∃ e a g' c, Flat.slqSample ext opt (.matrix S n n) f parameters 1
        (fun g => Random.generatorNext g t) g v j1 j2 junkAlpha junkBeta #[false] #[e0] =
          .ok (#[false], #[e], a, g') ∧ Advanced g g' t n x ∧
      Flat.lanczos Real.sqrt ext.eps (S.dot n n) (Array.ofFn (drawnSigns x n)) n opt.degree opt.tol
        opt.orthogonalize (j1 0) (j2 0) junkAlpha junkBeta = .ok c ∧ 1 ≤ c.size ∧
      ExactSample ext opt f A (drawnSigns x n) c.size (c.beta.getD (c.size - 1) 0 = 0) e := by
  obtain ⟨a, g', h1, h2, h3⟩ := generated hx v hv
  let op : Operator ℝ n := ⟨false, fun _ x => .ok (A *ᵥ x), fun _ x => .ok (Aᵀ *ᵥ x), fun _ _ _ => 0⟩
  obtain ⟨e, he, hs, hval⟩ := slq_sample_exact (op := op) (f := f) (num := 1)
    (M := fun _ => A) (parameters := #[0]) (converged := #[false]) (estimate := #[e0]) hsqrt heig hgram
    (Or.inl rfl) (fun _ => hA) (fun _ _ => rfl) htol hm hn (drawnSigns_rademacher x n) rfl rfl rfl
    hja hjb
  obtain ⟨c, value, hc, hpos, hv, p1, p2⟩ := (hval 0 (by norm_num) 0 rfl).2 rfl
  have hee : e = #[value] := by
    apply Array.ext
    · simpa using hs
    · intro i hi1 hi2
      obtain rfl : i = 0 := by omega
      rw [Array.getElem?_eq_getElem hi1] at hv
      simpa using hv
  subst hee
  have hcomp := fun q => Flat.matrix_computes hS q
  refine ⟨value, a, g', c, ?_, h3, ?_, hpos, p1, p2⟩
  · exact Flat.slqSample_refines ext opt (fop := .matrix S n n) (op := op) rfl rfl rfl
      (fun j t _ => ⟨none, rfl, (hcomp none).1, (hcomp none).2⟩) (fun h => by cases h) f 1 h1 h2 j1 j2
      junkAlpha junkBeta #[false] #[e0] he
  · exact Flat.lanczos_refines Real.sqrt ext.eps (hcomp none).1 (Begins.ofFn _) _ _ _ _ _ _ _ hc

/-- **C13, C54 (`A + t B`).**  The same for a pencil with a non-zero `B`, at every parameter that has
not converged; converged parameters keep their estimate. -/
theorem stored_pencil_sample {S T : StoredMatrix ℝ} {A B : Matrix (Fin n) (Fin n) ℝ}
    (hS : Represents S A) (hT : Represents T B) (hB : B ≠ 0) (hA : A.IsSymm) (hBs : B.IsSymm)
    {O : AffineOp ℝ} (hO : AffineOp.construct S (some T) n n = .ok O)
    (hsqrt : ext.sqrt = Real.sqrt) (heig : EighSpec ext.eigh)
    (hgram : opt.gram = false) (htol : 0 < opt.tol) (hm : 1 ≤ opt.degree) (hn : 0 < n)
    (hpar : parameters.size = num) (hconv : converged.size = num) (hest : estimate.size = num)
    (hja : junkAlpha.size = opt.degree) (hjb : junkBeta.size = opt.degree)
    {g : Array Random.Xoshiro} {thread : Nat} {x : Random.Xoshiro} (hx : g[thread]? = some x)
    (v : Array ℝ) (hv : n ≤ v.size) (j1 j2 : Nat → Nat → ℝ) :
    ∃ e a g', Flat.slqSample ext opt (.affine O) f parameters num
        (fun g => Random.generatorNext g thread) g v j1 j2 junkAlpha junkBeta converged estimate =
          .ok (converged, e, a, g') ∧ e.size = num ∧ Advanced g g' thread n x ∧
      ∀ j < num, ∀ t, parameters[j]? = some t →
        (converged[j]? = some true → e[j]? = estimate[j]?) ∧
        (converged[j]? = some false → ∃ c value,
          Flat.lanczos Real.sqrt ext.eps (O.dot (some t)) (Array.ofFn (drawnSigns x n)) n opt.degree
            opt.tol opt.orthogonalize (j1 j) (j2 j) junkAlpha junkBeta = .ok c ∧ 1 ≤ c.size ∧
          e[j]? = some value ∧
          ExactSample ext opt f (A + t • B) (drawnSigns x n) c.size
            (c.beta.getD (c.size - 1) 0 = 0) value) := by
  have hI : T.isIdentity n n = .ok false := by
    obtain ⟨b, h1, h2⟩ := isIdentity_true_imp_zero hT
    cases b with
    | false => exact h1
    | true => exact absurd (h2 rfl) hB
  have hk : (Flat.LinearOperator.affine O).relationKnown = false ∧ O.numRows = n := by
    simp only [AffineOp.construct, hI, Except.ok_bind', Bool.false_eq_true, if_false,
      Except.ok.injEq] at hO
    subst hO; exact ⟨rfl, rfl⟩
  have hsym : ∀ t : ℝ, (A + t • B).IsSymm := by
    intro t
    rw [Matrix.IsSymm, transpose_add, transpose_smul, hA.eq, hBs.eq]
  obtain ⟨a, g', h1, h2, h3⟩ := generated hx v hv
  let op : Operator ℝ n := ⟨false, fun t x => .ok ((A + t • B) *ᵥ x),
    fun t x => .ok ((A + t • B)ᵀ *ᵥ x), AffineOp.getEigenvalue⟩
  have hcomp := fun t => Flat.pencil_computes hS hT hI hO t
  obtain ⟨e, he, hs, hval⟩ := slq_sample_exact (op := op) (f := f)
    (M := fun t => A + t • B) hsqrt heig hgram
    (Or.inl rfl) hsym (fun _ _ => rfl) htol hm hn (drawnSigns_rademacher x n) hpar hconv hest hja hjb
  refine ⟨e, a, g', ?_, hs, h3, ?_⟩
  · exact Flat.slqSample_refines ext opt (fop := .affine O) (op := op) hk.2 hk.1 rfl
      (fun j t ht => ⟨some t, by
        show (rd parameters j >>= fun p => Except.ok (some p)) = _
        rw [rd_ok ht]; rfl, (hcomp t).1, (hcomp t).2⟩) (fun h => by cases h) f num h1 h2 j1 j2
      junkAlpha junkBeta converged estimate he
  · intro j hj t ht
    obtain ⟨q1, q2⟩ := hval j hj t ht
    refine ⟨q1, fun hc => ?_⟩
    obtain ⟨c, value, hc, hpos, hv, p1, p2⟩ := q2 hc
    exact ⟨c, value, Flat.lanczos_refines Real.sqrt ext.eps (hcomp t).1 (Begins.ofFn _) _ _ _ _ _ _ _ hc,
      hpos, hv, p1, p2⟩

/-- **C13, C17, C54 (`A + t I`).**  With the identity, one iteration at the first parameter serves all
parameters, and every reported value is the exact quadratic form at its own parameter. -/
theorem stored_shifted_sample {S : StoredMatrix ℝ} {A : Matrix (Fin n) (Fin n) ℝ}
    (hS : Represents S A) (hA : A.IsSymm)
    {O : AffineOp ℝ} (hO : AffineOp.construct S none n n = .ok O)
    (hsqrt : ext.sqrt = Real.sqrt) (heig : EighSpec ext.eigh)
    (hgram : opt.gram = false) (htol : 0 < opt.tol) (hm : 1 ≤ opt.degree) (hn : 0 < n)
    (hnum : 1 < num) (hpar : parameters.size = num) (hconv : converged.size = num)
    (hest : estimate.size = num)
    (hja : junkAlpha.size = opt.degree) (hjb : junkBeta.size = opt.degree)
    {g : Array Random.Xoshiro} {thread : Nat} {x : Random.Xoshiro} (hx : g[thread]? = some x)
    (v : Array ℝ) (hv : n ≤ v.size) (j1 j2 : Nat → Nat → ℝ) :
    ∃ e a g', Flat.slqSample ext opt (.affine O) f parameters num
        (fun g => Random.generatorNext g thread) g v j1 j2 junkAlpha junkBeta converged estimate =
          .ok (Array.replicate num false, e, a, g') ∧ e.size = num ∧ Advanced g g' thread n x ∧
      ∀ j < num, ∀ t, parameters[j]? = some t → ∃ c value,
          Flat.lanczos Real.sqrt ext.eps (O.dot (some t)) (Array.ofFn (drawnSigns x n)) n opt.degree
            opt.tol opt.orthogonalize (j1 j) (j2 j) junkAlpha junkBeta = .ok c ∧ 1 ≤ c.size ∧
          e[j]? = some value ∧
          ExactSample ext opt f (A + t • (1 : Matrix (Fin n) (Fin n) ℝ)) (drawnSigns x n) c.size
            (c.beta.getD (c.size - 1) 0 = 0) value := by
  have hk : (Flat.LinearOperator.affine O).relationKnown = true ∧ O.numRows = n := by
    cases hO; exact ⟨rfl, rfl⟩
  have hsym : ∀ t : ℝ, (A + t • (1 : Matrix (Fin n) (Fin n) ℝ)).IsSymm := by
    intro t
    rw [Matrix.IsSymm, transpose_add, transpose_smul, transpose_one, hA.eq]
  obtain ⟨a, g', h1, h2, h3⟩ := generated hx v hv
  let op : Operator ℝ n := ⟨true, fun t x => .ok ((A + t • (1 : Matrix (Fin n) (Fin n) ℝ)) *ᵥ x),
    fun t x => .ok ((A + t • (1 : Matrix (Fin n) (Fin n) ℝ))ᵀ *ᵥ x), AffineOp.getEigenvalue⟩
  have hop : AffineIdentity op A := ⟨rfl, fun _ _ => rfl, fun _ _ => rfl, fun _ _ _ => rfl⟩
  have hcomp := fun t => Flat.shifted_computes hS hO t
  have hrad := drawnSigns_rademacher x n
  obtain ⟨e, he, hs, hval⟩ := shared_run_equals_separate_partial (op := op) (f := f) hop hA hsqrt heig
    hgram hnum htol hm (rademacher_ne_zero hrad hn) hpar hconv hest hja hjb
  refine ⟨e, a, g', ?_, hs, h3, ?_⟩
  · exact Flat.slqSample_refines ext opt (fop := .affine O) (op := op) hk.2 hk.1 rfl
      (fun j t ht => ⟨some t, by
        show (rd parameters j >>= fun p => Except.ok (some p)) = _
        rw [rd_ok ht]; rfl, (hcomp t).1, (hcomp t).2⟩) (fun _ => rfl) f num h1 h2 j1 j2
      junkAlpha junkBeta converged estimate he
  · intro j hj t ht
    obtain ⟨e', he', hee, _⟩ := hval j hj t ht junkAlpha junkBeta 0 hja hjb
    obtain ⟨e'', he'', _, hval'⟩ := slq_sample_exact (op := op) (f := f) (num := 1)
      (M := fun t => A + t • (1 : Matrix (Fin n) (Fin n) ℝ)) (parameters := #[t])
      (converged := #[false]) (estimate := #[0]) hsqrt heig hgram
      (Or.inr rfl) hsym (fun _ _ => rfl) htol hm hn hrad rfl rfl rfl hja hjb
    have : e' = e'' := by
      have : (Except.ok (#[false], e') : Except Fault (Array Bool × Array ℝ)) = .ok (#[false], e'') :=
        he'.symm.trans he''
      simpa using this
    subst this
    obtain ⟨c, value, hc, hpos, hv, p1, p2⟩ := (hval' 0 (by norm_num) t rfl).2 rfl
    exact ⟨c, value, Flat.lanczos_refines Real.sqrt ext.eps (hcomp t).1 (Begins.ofFn _) _ _ _ _ _ _ _ hc,
      hpos, by rw [hee, hv], p1, p2⟩

/-- **C13, C54 (`gram=True`).**  For every invertible square matrix in any storage format the Gram
branch, with the product and the transposed product of the stored matrix, is exact for `AᵀA`. -/
theorem stored_gram_sample {S : StoredMatrix ℝ} {A : Matrix (Fin n) (Fin n) ℝ}
    (hS : Represents S A) (hA : Function.Injective A.mulVec) (hsqrt : ext.sqrt = Real.sqrt)
    (hsvd : SvdSpec ext.svd)
    (hgram : opt.gram = true) (htol : 0 < opt.tol) (hm : 1 ≤ opt.degree) (hn : 0 < n)
    (hja : junkAlpha.size = opt.degree) (hjb : junkBeta.size = opt.degree)
    {g : Array Random.Xoshiro} {t : Nat} {x : Random.Xoshiro} (hx : g[t]? = some x)
    (v : Array ℝ) (hv : n ≤ v.size) (j1 j2 : Nat → Nat → ℝ) (e0 : ℝ) :
    ∃ e a g' c alpha beta, Flat.slqSample ext opt (.matrix S n n) f parameters 1
        (fun g => Random.generatorNext g t) g v j1 j2 junkAlpha junkBeta #[false] #[e0] =
          .ok (#[false], #[e], a, g') ∧ Advanced g g' t n x ∧
      Flat.golubKahn Real.sqrt ext.eps (S.dot n n) (S.transposeDot n n)
        (Array.ofFn (drawnSigns x n)) n opt.degree opt.tol
        opt.orthogonalize (j1 0) (j2 0) alpha beta = .ok c ∧ 1 ≤ c.size ∧
      ExactSample ext opt f (Aᵀ * A) (drawnSigns x n) c.size
        ((2 ≤ opt.degree ∨ opt.orthogonalize = 0) ∧ c.beta.getD (c.size - 1) 0 = 0) e := by
  obtain ⟨a, g', h1, h2, h3⟩ := generated hx v hv
  let op : Operator ℝ n := ⟨false, fun _ x => .ok (A *ᵥ x), fun _ x => .ok (Aᵀ *ᵥ x), fun _ _ _ => 0⟩
  obtain ⟨e, he, hs, hval⟩ := slq_gram_sample_exact (op := op) (f := f) (num := 1)
    (M := fun _ => A) (parameters := #[0]) (converged := #[false]) (estimate := #[e0]) hsqrt hsvd hgram
    (Or.inl rfl) (fun _ _ => hA) (fun _ _ => rfl) (fun _ _ => rfl) htol hm hn
    (drawnSigns_rademacher x n) rfl rfl rfl hja hjb
  obtain ⟨c, alpha, beta, value, hc, hpos, hv, p1, p2⟩ := (hval 0 (by norm_num) 0 rfl).2 rfl
  have hee : e = #[value] := by
    apply Array.ext
    · simpa using hs
    · intro i hi1 hi2
      obtain rfl : i = 0 := by omega
      rw [Array.getElem?_eq_getElem hi1] at hv
      simpa using hv
  subst hee
  have hcomp := fun q => Flat.matrix_computes hS q
  refine ⟨value, a, g', c, alpha, beta, ?_, h3, ?_, hpos, p1, fun h => p2 h.1 h.2⟩
  · exact Flat.slqSample_refines ext opt (fop := .matrix S n n) (op := op) rfl rfl rfl
      (fun j t _ => ⟨none, rfl, (hcomp none).1, (hcomp none).2⟩) (fun h => by cases h) f 1 h1 h2 j1 j2
      junkAlpha junkBeta #[false] #[e0] he
  · exact Flat.golubKahn_refines Real.sqrt ext.eps (hcomp none).1 (hcomp none).2 (Begins.ofFn _)
      _ _ _ _ _ _ _ hc

/-! ### concrete cases -/

theorem exCsr : Represents (.csr #[2, 1, 1, 3] #[0, 1, 0, 1] #[0, 2, 4])
    (!![2, 1; 1, 3] : Matrix (Fin 2) (Fin 2) ℝ) := by
  refine ⟨rfl, rfl, fun i => ?_⟩
  fin_cases i
  · refine ⟨0, 2, rfl, rfl, by decide, by decide, ?_, ?_⟩
    · intro k _ h2; interval_cases k
      · exact ⟨0, by decide, rfl⟩
      · exact ⟨1, by decide, rfl⟩
    · intro j
      rw [show Finset.Ico 0 2 = {0, 1} from rfl, Finset.sum_pair (by decide)]
      fin_cases j <;> simp
  · refine ⟨2, 4, rfl, rfl, by decide, by decide, ?_, ?_⟩
    · intro k _ h2; interval_cases k
      · exact ⟨0, by decide, rfl⟩
      · exact ⟨1, by decide, rfl⟩
    · intro j
      rw [show Finset.Ico 2 4 = {2, 3} from rfl, Finset.sum_pair (by decide)]
      fin_cases j <;> simp

theorem exCsr_symm : (!![2, 1; 1, 3] : Matrix (Fin 2) (Fin 2) ℝ).IsSymm := by
  ext i j; fin_cases i <;> fin_cases j <;> rfl

/-- `tr A` of a stored 2×2 matrix: the sample is `zᵀ A z`, whatever is in uninitialised memory. -/
example (j1 j2 : Nat → Nat → ℝ) : ∃ e a g', Flat.slqSample someExternal ⟨false, 1, 2, 5, 1/100⟩
    (.matrix (.csr #[2, 1, 1, 3] #[0, 1, 0, 1] #[0, 2, 4]) 2 2) id #[] 1
    (fun g => Random.generatorNext g 0) #[⟨1, 2, 3, 4⟩] #[0, 0] j1 j2 (Array.replicate 5 0)
    (Array.replicate 5 0) #[false] #[0] = .ok (#[false], #[e], a, g') ∧
    e = drawnSigns ⟨1, 2, 3, 4⟩ 2 ⬝ᵥ (!![2, 1; 1, 3] *ᵥ drawnSigns ⟨1, 2, 3, 4⟩ 2) := by
  obtain ⟨e, a, g', c, h1, _, _, h4, h5, _⟩ := stored_matrix_sample (ext := someExternal)
    (opt := ⟨false, 1, 2, 5, 1/100⟩) (f := id) (parameters := #[])
    (junkAlpha := Array.replicate 5 0) (junkBeta := Array.replicate 5 0)
    exCsr exCsr_symm rfl exists_eigh.choose_spec rfl (by norm_num) (by norm_num) (by norm_num)
    (by simp) (by simp) (g := #[⟨1, 2, 3, 4⟩]) (t := 0) (x := ⟨1, 2, 3, 4⟩) rfl #[0, 0] (by simp)
    j1 j2 0
  refine ⟨e, a, g', h1, ?_⟩
  rw [h5 X (by rw [natDegree_X]; omega) (by intro x; simp [someExternal]), aeval_X]

/-- Two parameters of `A + t I` served by one iteration. -/
example (j1 j2 : Nat → Nat → ℝ) : ∃ O e a g',
    AffineOp.construct (.csr #[2, 1, 1, 3] #[0, 1, 0, 1] #[0, 2, 4]) none 2 2 = .ok O ∧
    Flat.slqSample someExternal ⟨false, 1, 0, 5, 1/100⟩ (.affine O) id #[1, 4] 2
    (fun g => Random.generatorNext g 0) #[⟨1, 2, 3, 4⟩] #[0, 0] j1 j2 (Array.replicate 5 0)
    (Array.replicate 5 0) #[false, false] #[0, 0] = .ok (Array.replicate 2 false, e, a, g') ∧
    e[1]? = some (drawnSigns ⟨1, 2, 3, 4⟩ 2 ⬝ᵥ ((!![2, 1; 1, 3] + (4 : ℝ) • 1) *ᵥ
      drawnSigns ⟨1, 2, 3, 4⟩ 2)) := by
  obtain ⟨e, a, g', h1, _, _, h4⟩ := stored_shifted_sample (ext := someExternal)
    (opt := ⟨false, 1, 0, 5, 1/100⟩) (f := id) (parameters := #[1, 4]) (num := 2)
    (converged := #[false, false]) (estimate := #[0, 0])
    (junkAlpha := Array.replicate 5 0) (junkBeta := Array.replicate 5 0)
    exCsr exCsr_symm rfl rfl exists_eigh.choose_spec rfl (by norm_num) (by norm_num) (by norm_num)
    (by norm_num) rfl rfl rfl (by simp) (by simp) (g := #[⟨1, 2, 3, 4⟩]) (thread := 0)
    (x := ⟨1, 2, 3, 4⟩) rfl #[0, 0] (by simp) j1 j2
  refine ⟨_, e, a, g', rfl, h1, ?_⟩
  obtain ⟨c, value, _, hpos, hv, h5, _⟩ := h4 1 (by norm_num) 4 rfl
  rw [hv, h5 X (by rw [natDegree_X]; omega) (by intro x; simp [someExternal]), aeval_X]

/-- A pencil: the same matrix as `B`, one parameter already converged. -/
example (j1 j2 : Nat → Nat → ℝ) : ∃ O e a g',
    AffineOp.construct (.csr #[2, 1, 1, 3] #[0, 1, 0, 1] #[0, 2, 4])
      (some (.csr #[2, 1, 1, 3] #[0, 1, 0, 1] #[0, 2, 4])) 2 2 = .ok O ∧
    Flat.slqSample someExternal ⟨false, 1, 0, 5, 1/100⟩ (.affine O) id #[1, 4] 2
    (fun g => Random.generatorNext g 0) #[⟨1, 2, 3, 4⟩] #[0, 0] j1 j2 (Array.replicate 5 0)
    (Array.replicate 5 0) #[true, false] #[9, 0] = .ok (#[true, false], e, a, g') ∧
    e[0]? = some 9 := by
  have hB : (!![2, 1; 1, 3] : Matrix (Fin 2) (Fin 2) ℝ) ≠ 0 := by
    intro h; have := congrFun (congrFun h 0) 0; simp at this
  obtain ⟨O, hO, _⟩ := affine_nonzero_B_correct_partial exCsr exCsr hB 0 (fun _ => 0) (fun _ => 0) #[0, 0] rfl
    #[0, 0] rfl
  obtain ⟨e, a, g', h1, _, _, h4⟩ := stored_pencil_sample (ext := someExternal)
    (opt := ⟨false, 1, 0, 5, 1/100⟩) (f := id) (parameters := #[1, 4]) (num := 2)
    (converged := #[true, false]) (estimate := #[9, 0])
    (junkAlpha := Array.replicate 5 0) (junkBeta := Array.replicate 5 0)
    exCsr exCsr hB exCsr_symm exCsr_symm hO rfl exists_eigh.choose_spec rfl (by norm_num)
    (by norm_num) (by norm_num)
    rfl rfl rfl (by simp) (by simp) (g := #[⟨1, 2, 3, 4⟩]) (thread := 0)
    (x := ⟨1, 2, 3, 4⟩) rfl #[0, 0] (by simp) j1 j2
  exact ⟨O, e, a, g', hO, h1, (h4 0 (by norm_num) 1 rfl).1 rfl⟩

/-- The Gram branch. -/
example (j1 j2 : Nat → Nat → ℝ) : ∃ e a g', Flat.slqSample someExternal ⟨true, 1, 2, 5, 1/100⟩
    (.matrix (.csr #[2, 1, 1, 3] #[0, 1, 0, 1] #[0, 2, 4]) 2 2) id #[] 1
    (fun g => Random.generatorNext g 0) #[⟨1, 2, 3, 4⟩] #[0, 0] j1 j2 (Array.replicate 5 0)
    (Array.replicate 5 0) #[false] #[0] = .ok (#[false], #[e], a, g') := by
  obtain ⟨e, a, g', _, _, _, h1, _⟩ := stored_gram_sample (ext := someExternal)
    (opt := ⟨true, 1, 2, 5, 1/100⟩) (f := id) (parameters := #[])
    (junkAlpha := Array.replicate 5 0) (junkBeta := Array.replicate 5 0)
    exCsr (invertible_injective (by norm_num [Matrix.det_fin_two])) rfl exists_svd.choose_spec rfl
    (by norm_num) (by norm_num) (by norm_num)
    (by simp) (by simp) (g := #[⟨1, 2, 3, 4⟩]) (t := 0) (x := ⟨1, 2, 3, 4⟩) rfl #[0, 0] (by simp)
    j1 j2 0
  exact ⟨e, a, g', h1⟩

end Imate.Props
