import Verif.Model.Slq
import Verif.Spec.Lapack
import Verif.Lemmas.KrylovGram
import Verif.Lemmas.GolubKahnOne

/-! One SLQ sample: what the loop over inquiries computes. -/

namespace Imate.Lanczos

open Matrix Imate.Spec

variable {n : Nat}

theorem readNodes_ok {k : Nat} {theta tau : Nat → Except Fault ℝ} (x y : Fin k → ℝ)
    (h1 : ∀ i : Fin k, theta i.1 = .ok (x i)) (h2 : ∀ i : Fin k, tau i.1 = .ok (y i)) :
    readNodes k theta tau = .ok (List.ofFn (fun i => (x i, y i))) := by
  unfold readNodes
  obtain ⟨s', e1, e2⟩ := forRange_inv
    (body := fun i (l : Nodes ℝ) => do .ok (l ++ [(← theta i, ← tau i)]))
    (fun i l => l.length = i ∧ ∀ j : Fin k, j.1 < i → l[j.1]? = some (x j, y j)) (Nat.zero_le k) []
    ⟨rfl, by simp⟩ (by
      rintro i _ hi l ⟨hl, hj⟩
      rw [h1 ⟨i, hi⟩, h2 ⟨i, hi⟩]
      refine ⟨_, rfl, by simp [hl], ?_⟩
      intro j hj'
      rcases Nat.lt_or_ge j.1 i with h | h
      · rw [List.getElem?_append_left (by omega)]; exact hj j h
      · have : j = ⟨i, hi⟩ := by ext; show j.1 = i; omega
        subst this
        rw [List.getElem?_append_right (by omega)]
        simp [hl])
  rw [e1]
  congr 1
  apply List.ext_getElem?
  intro i
  rcases Nat.lt_or_ge i k with h | h
  · rw [e2.2 ⟨i, h⟩ h]; simp [h]
  · rw [List.getElem?_eq_none (by omega), List.getElem?_eq_none (by simp; omega)]

/-- The quadrature sum over a diagonalisation. -/
theorem quadratureSum_ofFn {k : Nat} (pow : ℝ → ℝ → ℝ) (f : ℝ → ℝ) (e : ℝ) (x y : Fin k → ℝ) :
    quadratureSum pow f e (List.ofFn (fun i => (x i, y i))) = ∑ i, y i * y i * f (pow (x i) e) := by
  have h : ∀ (l : List (ℝ × ℝ)) (a : ℝ),
      l.foldl (fun s (p : ℝ × ℝ) => s + p.2 * p.2 * f (pow p.1 e)) a =
        a + (l.map (fun p => p.2 * p.2 * f (pow p.1 e))).sum := by
    intro l
    induction l with
    | nil => simp
    | cons p l ih => intro a; simp only [List.foldl_cons, List.map_cons, List.sum_cons, ih]; ring
  unfold quadratureSum
  rw [h, zero_add, List.map_ofFn, List.sum_ofFn]
  rfl

/-- A list of nodes that is a diagonalisation of `T`. -/
def Diagonalises {k : Nat} (T : Matrix (Fin k) (Fin k) ℝ) (l : Nodes ℝ) : Prop :=
  ∃ (hk : 0 < k) (Q : Matrix (Fin k) (Fin k) ℝ) (lam : Fin k → ℝ), Spectral T Q lam ∧
    l = List.ofFn (fun i => (lam i, Q ⟨0, hk⟩ i))

theorem Diagonalises.sum {k : Nat} {T Q : Matrix (Fin k) (Fin k) ℝ} {lam : Fin k → ℝ} {l : Nodes ℝ}
    (h : Diagonalises T l) (h' : Spectral T Q lam) (pow : ℝ → ℝ → ℝ) (f : ℝ → ℝ) (e : ℝ) :
    quadratureSum pow f e l =
      firstCol k ⬝ᵥ (matrixFunction (fun x => f (pow x e)) Q lam *ᵥ firstCol k) := by
  obtain ⟨hk, Q', lam', hs, rfl⟩ := h
  rw [quadratureSum_ofFn, matrixFunction_unique h' hs, quadrature_sum hk]

theorem Diagonalises.shift {k : Nat} {T : Matrix (Fin k) (Fin k) ℝ} {l : Nodes ℝ}
    (h : Diagonalises T l) (c : ℝ) :
    Diagonalises (T + c • 1) (l.map (fun p => (p.1 + c, p.2))) := by
  obtain ⟨hk, Q, lam, hs, rfl⟩ := h
  refine ⟨hk, Q, fun i => lam i + c, ⟨hs.left, hs.right, ?_⟩, ?_⟩
  · rw [← diagonal_add (d₁ := lam) (d₂ := fun _ => c)]
    rw [Matrix.mul_add, Matrix.add_mul, ← hs.eq]
    congr 1
    rw [show diagonal (fun _ : Fin k => c) = c • 1 by
      rw [← diagonal_one, ← diagonal_smul]; congr 1; funext i; simp]
    rw [Matrix.mul_smul, Matrix.mul_one, Matrix.smul_mul, hs.right]
  · rw [List.map_ofFn]; rfl

/-- Two lists of nodes of the same matrix have the same quadrature sum. -/
theorem Diagonalises.sum_eq {k : Nat} {T : Matrix (Fin k) (Fin k) ℝ} {l l' : Nodes ℝ}
    (h : Diagonalises T l) (h' : Diagonalises T l') (pow : ℝ → ℝ → ℝ) (f : ℝ → ℝ) (e : ℝ) :
    quadratureSum pow f e l = quadratureSum pow f e l' := by
  obtain ⟨hk, Q, lam, hs, _⟩ := id h
  rw [h.sum hs, h'.sum hs]

theorem ne_zero_pos {z : Fin n → ℝ} (hz : z ≠ 0) : 0 < n := by
  rcases Nat.eq_zero_or_pos n with h | h
  · subst h; exact absurd (Subsingleton.elim z 0) hz
  · exact h

theorem threshold_pos {z : Fin n → ℝ} (hz : z ≠ 0) {tol : ℝ} (htol : 0 < tol) :
    0 < tol * Real.sqrt n :=
  mul_pos htol (Real.sqrt_pos.2 (by exact_mod_cast ne_zero_pos hz))

variable {A : Matrix (Fin n) (Fin n) ℝ} {z : Fin n → ℝ}

/-- The Lanczos matrix of `A` started at `z`. -/
noncomputable def lanczosT (A : Matrix (Fin n) (Fin n) ℝ) (z : Fin n → ℝ) (k : Nat) :
    Matrix (Fin k) (Fin k) ℝ :=
  tridiagonal k (aa A z) (fun i => bb A z (i + 1))

theorem LanczosResult.tridiagonal_eq {m : Nat} {thr : ℝ} {c : Coefficients ℝ}
    (hr : LanczosResult A z m thr c) :
    tridiagonal c.size (fun i => c.alpha.getD i 0) (fun i => c.beta.getD i 0) =
      lanczosT A z c.size := by
  have hga : ∀ i < c.size, c.alpha.getD i 0 = aa A z i := by
    intro i hi; rw [Array.getD_eq_getD_getElem?, hr.alpha i hi]; rfl
  have hgb : ∀ i < c.size, c.beta.getD i 0 = bb A z (i + 1) := by
    intro i hi; rw [Array.getD_eq_getD_getElem?, hr.beta i hi]; rfl
  ext i j
  unfold lanczosT tridiagonal
  simp only [hga i.1 i.2, hgb i.1 i.2, hgb j.1 j.2]

theorem LanczosResult.ne_zero {m : Nat} {thr : ℝ} {c : Coefficients ℝ}
    (hr : LanczosResult A z m thr c) (hz : z ≠ 0) (hthr : 0 < thr) :
    ∀ i < c.size, bb A z i ≠ 0 := by
  intro i hi
  rcases Nat.eq_zero_or_pos i with rfl | hp
  · exact norm_ne_zero hz
  · have := hr.big (i - 1) (by omega)
    rw [Nat.sub_add_cancel hp] at this
    exact (lt_of_lt_of_le hthr this).ne'

/-- The size is determined by the off-diagonal entries and the threshold. -/
theorem LanczosResult.size_eq {A' : Matrix (Fin n) (Fin n) ℝ} {z' : Fin n → ℝ} {m : Nat} {thr : ℝ}
    {c c' : Coefficients ℝ} (hr : LanczosResult A z m thr c) (hr' : LanczosResult A' z' m thr c')
    (hm : 0 < m) (hbb : ∀ i, bb A z i = bb A' z' i) : c.size = c'.size := by
  have hpos := hr.pos hm
  have hpos' := hr'.pos hm
  rcases Nat.lt_trichotomy c.size c'.size with h | h | h
  · have h1 := hr.early (lt_of_lt_of_le h hr'.le)
    have h2 := hr'.big (c.size - 1) (by omega)
    rw [Nat.sub_add_cancel hpos, ← hbb] at h2
    exact absurd h1 (not_lt.2 h2)
  · exact h
  · have h1 := hr'.early (lt_of_lt_of_le h hr.le)
    have h2 := hr.big (c'.size - 1) (by omega)
    rw [Nat.sub_add_cancel hpos', hbb] at h2
    exact absurd h1 (not_lt.2 h2)

theorem readNodes_array {k : Nat} {a v : Array ℝ} (ha : k ≤ a.size) (g : Nat → Nat)
    (hv : ∀ i < k, g i < v.size) (h : ℝ → ℝ) :
    readNodes k (fun i => do .ok (h (← rd a i))) (fun i => rd v (g i)) =
      .ok (List.ofFn (fun i : Fin k => (h (a.getD i.1 0), v.getD (g i.1) 0))) := by
  apply readNodes_ok
  · intro i
    rw [rd_ok (x := a.getD i.1 0) (by
      rw [Array.getD_eq_getD_getElem?, Array.getElem?_eq_getElem (by omega)]; rfl)]
    rfl
  · intro i
    exact rd_ok (by
      rw [Array.getD_eq_getD_getElem?, Array.getElem?_eq_getElem (hv i.1 i.2)]; rfl)

/-- The nodes of one inquiry without `gram`. -/
theorem lanczosNodes_ok {ext : External ℝ} {opt : Options ℝ}
    {dot : (Fin n → ℝ) → Except Fault (Fin n → ℝ)} (hsqrt : ext.sqrt = Real.sqrt)
    (heig : EighSpec ext.eigh) (hdot : ∀ x, dot x = .ok (A *ᵥ x)) (hA : A.IsSymm) (hz : z ≠ 0)
    (htol : 0 < opt.tol) (hm : 1 ≤ opt.degree) {alpha beta : Array ℝ}
    (ha : alpha.size = opt.degree) (hb : beta.size = opt.degree) :
    ∃ l a b, lanczosNodes ext opt dot z alpha beta = .ok (l, a, b) ∧ a.size = opt.degree ∧
      b.size = opt.degree ∧
      ∃ c, lanczos ext.sqrt ext.eps dot z opt.degree opt.tol opt.orthogonalize alpha beta = .ok c ∧
        LanczosResult A z opt.degree (opt.tol * Real.sqrt n) c ∧
        Diagonalises (lanczosT A z c.size) l := by
  obtain ⟨c, hc, hr⟩ := lanczos_result hdot hA hz ext.eps opt.tol htol opt.degree opt.orthogonalize
    ha hb
  have hpos := hr.pos (by omega)
  have hle := hr.le
  have h1 := hr.asize
  have h2 := hr.bsize
  obtain ⟨s1, s2, hs⟩ := heig c.size c.alpha c.beta hpos (by omega) (by omega)
  have hread := readNodes_array (k := c.size) (a := (ext.eigh c.size c.alpha c.beta).1)
    (v := (ext.eigh c.size c.alpha c.beta).2) (by omega) (fun i => i * c.size) (by
      intro i hi
      rw [s2]
      exact Nat.mul_lt_mul_of_pos_right hi hpos) id
  refine ⟨List.ofFn (fun i : Fin c.size => ((ext.eigh c.size c.alpha c.beta).1.getD i.1 0,
      (ext.eigh c.size c.alpha c.beta).2.getD (i.1 * c.size) 0)),
    (ext.eigh c.size c.alpha c.beta).1, c.beta, ?_, by omega, h2, c, ?_, hr, ?_⟩
  rotate_left
  · rw [hsqrt]; exact hc
  · refine ⟨hpos, _, _, hr.tridiagonal_eq ▸ hs, ?_⟩
    simp only [Nat.zero_add]
  · unfold lanczosNodes
    rw [hsqrt, hc, Except.ok_bind']
    have hfun : (fun i => rd (ext.eigh c.size c.alpha c.beta).1 i) =
        (fun i => do .ok (id (← rd (ext.eigh c.size c.alpha c.beta).1 i))) := by
      funext i
      cases rd (ext.eigh c.size c.alpha c.beta).1 i <;> rfl
    show (readNodes c.size (fun i => rd (ext.eigh c.size c.alpha c.beta).1 i) _ >>= _) = _
    rw [hfun, hread, Except.ok_bind']
    rfl

/-- What a Golub-Kahn run provides to the quadrature (all degrees, including degree one). -/
structure GKCore (A : Matrix (Fin n) (Fin n) ℝ) (z : Fin n → ℝ) (m : Nat) (c : Coefficients ℝ) :
    Prop where
  asize : c.alpha.size = m
  bsize : c.beta.size = m
  alpha : ∀ i < c.size, c.alpha[i]? = some (ga A z i)
  beta : ∀ i, i + 1 < c.size → c.beta[i]? = some (gb A z (i + 1))
  le : c.size ≤ m
  pos : 0 < c.size
  bne : ∀ i < c.size, gb A z i ≠ 0
  ane : ∀ i < c.size, ga A z i ≠ 0

theorem GKCore.bidiagonal_eq {m : Nat} {c : Coefficients ℝ} (hr : GKCore A z m c) :
    bidiagonal c.size (fun i => c.alpha.getD i 0) (fun i => c.beta.getD i 0) =
      bidiagonal c.size (ga A z) (fun i => gb A z (i + 1)) := by
  have hga : ∀ i < c.size, c.alpha.getD i 0 = ga A z i := by
    intro i hi; rw [Array.getD_eq_getD_getElem?, hr.alpha i hi]; rfl
  ext i j
  unfold bidiagonal
  simp only [hga i.1 i.2]
  split
  · rfl
  · split
    · rename_i h
      rw [Array.getD_eq_getD_getElem?, hr.beta i.1 (by omega)]; rfl
    · rfl

/-- The matrix whose eigenvalues the Gram branch uses. -/
noncomputable def gramT (A : Matrix (Fin n) (Fin n) ℝ) (z : Fin n → ℝ) (k : Nat) :
    Matrix (Fin k) (Fin k) ℝ :=
  (bidiagonal k (ga A z) (fun i => gb A z (i + 1)))ᵀ * bidiagonal k (ga A z) (fun i => gb A z (i + 1))

theorem golubKahn_core {dot tdot : (Fin n → ℝ) → Except Fault (Fin n → ℝ)}
    (hdot : ∀ x, dot x = .ok (A *ᵥ x)) (htdot : ∀ x, tdot x = .ok (Aᵀ *ᵥ x))
    (hA : Function.Injective A.mulVec) (hz : z ≠ 0) (eps tol : ℝ)
    (htol : 0 < tol) (m : Nat) (hm : 1 ≤ m) (orth : Int)
    {alpha beta : Array ℝ} (ha : alpha.size = m) (hb : beta.size = m) :
    ∃ c, golubKahn Real.sqrt eps dot tdot z m tol orth alpha beta = .ok c ∧ GKCore A z m c ∧
      (2 ≤ m ∨ orth = 0 → c.beta[c.size - 1]? = some (gb A z c.size)) := by
  by_cases h : 2 ≤ m ∨ orth = 0
  · obtain ⟨c, hc, hr⟩ := golubKahn_result hdot htdot (fun j hj => ga_ne_zero hA j hj) hz eps tol htol
      m orth (by omega) ha hb
    have hbne : ∀ i < c.size, gb A z i ≠ 0 := by
      intro i hi
      rcases Nat.eq_zero_or_pos i with rfl | hp
      · exact norm_ne_zero hz
      · have := hr.big (i - 1) (by omega)
        rw [Nat.sub_add_cancel hp] at this
        exact (lt_of_lt_of_le (threshold_pos hz htol) this).ne'
    have hpos := hr.pos (by omega)
    refine ⟨c, hc, ⟨hr.asize, hr.bsize, hr.alpha, fun i hi => hr.beta i (by omega), hr.le, hpos, hbne,
      fun i hi => ga_ne_zero hA (c.size - 1) (fun i hi => hbne i (by omega)) i (by omega)⟩, fun _ => ?_⟩
    rw [hr.beta _ (by omega), Nat.sub_add_cancel hpos]
  · obtain rfl : m = 1 := by omega
    obtain ⟨a0, rfl⟩ : ∃ a0, alpha = #[a0] := by
      refine ⟨alpha[0]'(by omega), ?_⟩
      apply Array.ext
      · simp [ha]
      · intro i h1 h2
        obtain rfl : i = 0 := by omega
        rfl
    obtain ⟨b0, rfl⟩ : ∃ b0, beta = #[b0] := by
      refine ⟨beta[0]'(by omega), ?_⟩
      apply Array.ext
      · simp [hb]
      · intro i h1 h2
        obtain rfl : i = 0 := by omega
        rfl
    obtain ⟨c, hc, hs, h1, h2⟩ := golubKahn_degree_one hdot htdot hA hz eps tol orth (by omega) a0 b0
    have hb0 : ∀ i ≤ 0, gb A z i ≠ 0 := by
      intro i hi
      obtain rfl : i = 0 := by omega
      exact norm_ne_zero hz
    refine ⟨c, hc, ⟨by simp [h1], by simp [h2], ?_, by omega, by omega, by omega,
      fun i hi => hb0 i (by omega), fun i hi => ga_ne_zero hA 0 hb0 i (by omega)⟩, by omega⟩
    intro i hi
    obtain rfl : i = 0 := by omega
    rw [h1]; rfl

/-- The nodes of one inquiry with `gram`. -/
theorem golubKahnNodes_ok {ext : External ℝ} {opt : Options ℝ}
    {dot tdot : (Fin n → ℝ) → Except Fault (Fin n → ℝ)} (hsqrt : ext.sqrt = Real.sqrt)
    (hsvd : SvdSpec ext.svd) (hdot : ∀ x, dot x = .ok (A *ᵥ x)) (htdot : ∀ x, tdot x = .ok (Aᵀ *ᵥ x))
    (hA : Function.Injective A.mulVec) (hz : z ≠ 0)
    (htol : 0 < opt.tol) (hm : 1 ≤ opt.degree) {alpha beta : Array ℝ}
    (ha : alpha.size = opt.degree) (hb : beta.size = opt.degree) :
    ∃ l a b, golubKahnNodes ext opt dot tdot z alpha beta = .ok (l, a, b) ∧ a.size = opt.degree ∧
      b.size = opt.degree ∧
      ∃ c, golubKahn ext.sqrt ext.eps dot tdot z opt.degree opt.tol opt.orthogonalize alpha beta =
          .ok c ∧ GKCore A z opt.degree c ∧
        (2 ≤ opt.degree ∨ opt.orthogonalize = 0 → c.beta[c.size - 1]? = some (gb A z c.size)) ∧
        Diagonalises (gramT A z c.size) l := by
  obtain ⟨c, hc, hr, hlast⟩ := golubKahn_core hdot htdot hA hz ext.eps opt.tol htol opt.degree hm
    opt.orthogonalize ha hb
  have hpos := hr.pos
  have hle := hr.le
  have h1 := hr.asize
  have h2 := hr.bsize
  obtain ⟨s1, s2, U, hs⟩ := hsvd c.size c.alpha c.beta hpos (by omega) (by omega) (by
    intro i hi
    rw [Array.getD_eq_getD_getElem?, hr.alpha i hi]
    exact lt_of_le_of_ne (norm_nonneg _) (Ne.symm (hr.ane i hi)))
  have hread := readNodes_array (k := c.size) (a := (ext.svd c.size c.alpha c.beta).1)
    (v := (ext.svd c.size c.alpha c.beta).2) (by omega) (fun i => i) (by
      intro i hi
      rw [s2]
      exact lt_of_lt_of_le hi (Nat.le_mul_of_pos_left _ hpos)) (fun x => x * x)
  refine ⟨List.ofFn (fun i : Fin c.size => ((ext.svd c.size c.alpha c.beta).1.getD i.1 0 *
      (ext.svd c.size c.alpha c.beta).1.getD i.1 0, (ext.svd c.size c.alpha c.beta).2.getD i.1 0)),
    (ext.svd c.size c.alpha c.beta).1, c.beta, ?_, by omega, h2, c, ?_, hr, hlast, ?_⟩
  rotate_left
  · rw [hsqrt]; exact hc
  · rw [hr.bidiagonal_eq] at hs
    refine ⟨hpos, _, _, spectral_of_singular hs, ?_⟩
    simp only [Nat.zero_mul, Nat.add_zero]
  · unfold golubKahnNodes
    rw [hsqrt, hc, Except.ok_bind']
    have hfun : (fun i => do .ok ((← rd (ext.svd c.size c.alpha c.beta).1 i) *
          (← rd (ext.svd c.size c.alpha c.beta).1 i)) : Nat → Except Fault ℝ) =
        (fun i => do .ok ((fun x => x * x) (← rd (ext.svd c.size c.alpha c.beta).1 i))) := by
      funext i
      cases rd (ext.svd c.size c.alpha c.beta).1 i <;> rfl
    show (readNodes c.size (fun i => do .ok ((← rd (ext.svd c.size c.alpha c.beta).1 i) *
          (← rd (ext.svd c.size c.alpha c.beta).1 i)) : Nat → Except Fault ℝ) _ >>= _) = _
    rw [hfun, hread, Except.ok_bind']

/-! ### The loops over inquiries -/

variable {ext : External ℝ} {opt : Options ℝ} {op : Operator ℝ n} {parameters : Array ℝ}

theorem inquiryBody_skip {converged : Array Bool} {num j : Nat} {s : SampleState ℝ}
    (hc : converged[j]? = some true) :
    inquiryBody ext opt op parameters z converged num num j s = .ok s := by
  unfold inquiryBody
  rw [rd_ok hc, Except.ok_bind']
  simp

theorem inquiryBody_run {converged : Array Bool} {required num j : Nat} {s : SampleState ℝ} {b : Bool}
    (hc : converged[j]? = some b) (h : b = false ∨ required ≠ num) {t : ℝ}
    (ht : parameters[j]? = some t) {l : Nodes ℝ} {a b' : Array ℝ}
    (hl : inquiryNodes ext opt op z t s.alpha s.beta = .ok (l, a, b')) (hj : j < s.nodes.size) :
    inquiryBody ext opt op parameters z converged required num j s =
      .ok ⟨s.nodes.set j (some l) hj, a, b'⟩ := by
  unfold inquiryBody
  rw [rd_ok hc, Except.ok_bind', if_neg (by
    rcases h with rfl | h
    · simp
    · simp [h]), rd_ok ht, Except.ok_bind']
  rw [hl, Except.ok_bind']
  simp only [wr_ok hj, Except.ok_bind']

/-- Samples in which every inquiry is iterated on its own. -/
theorem slqSample_separate {f : ℝ → ℝ} {num : Nat} {junkAlpha junkBeta : Array ℝ}
    {converged : Array Bool} {estimate : Array ℝ} (hop : op.relationKnown = false ∨ num = 1)
    (hpar : parameters.size = num) (hconv : converged.size = num) (hest : estimate.size = num)
    (hja : junkAlpha.size = opt.degree) (hjb : junkBeta.size = opt.degree)
    (P : ℝ → Nodes ℝ → Prop)
    (hrun : ∀ t alpha beta, alpha.size = opt.degree → beta.size = opt.degree → t ∈ parameters →
      ∃ l a b, inquiryNodes ext opt op z t alpha beta = .ok (l, a, b) ∧ a.size = opt.degree ∧
        b.size = opt.degree ∧ P t l) :
    ∃ e, slqSample ext opt op f parameters num z junkAlpha junkBeta converged estimate =
        .ok (converged, e) ∧ e.size = num ∧
      ∀ j < num, (converged[j]? = some true → e[j]? = estimate[j]?) ∧
        (converged[j]? = some false → ∃ t l, parameters[j]? = some t ∧ P t l ∧
          e[j]? = some (n * quadratureSum ext.pow f opt.exponent l)) := by
  have hreq : requiredInquiries op num = num := by
    unfold requiredInquiries
    rcases hop with h | h
    · rw [h]; rfl
    · subst h; simp
  have hcond : (op.relationKnown && decide (num > 1)) = false := by
    rcases hop with h | h
    · rw [h]; rfl
    · subst h; simp
  obtain ⟨s, hs, hinv⟩ := forRange_inv
    (body := inquiryBody ext opt op parameters z converged num num)
    (fun i s => s.nodes.size = num ∧ s.alpha.size = opt.degree ∧ s.beta.size = opt.degree ∧
      ∀ j < i, converged[j]? = some false → ∃ t l, parameters[j]? = some t ∧ P t l ∧
        s.nodes[j]? = some (some l)) (Nat.zero_le num)
    ⟨Array.replicate num none, junkAlpha, junkBeta⟩ ⟨by simp, hja, hjb, by simp⟩ (by
      rintro i _ hi s ⟨h1, h2, h3, h4⟩
      obtain ⟨cb, hcb⟩ : ∃ b, converged[i]? = some b := ⟨_, Array.getElem?_eq_getElem (by omega)⟩
      cases cb with
      | true =>
        refine ⟨s, inquiryBody_skip hcb, h1, h2, h3, ?_⟩
        intro j hj hjc
        rcases Nat.lt_or_ge j i with h | h
        · exact h4 j h hjc
        · obtain rfl : j = i := by omega
          rw [hcb] at hjc; simp at hjc
      | false =>
        have ht : parameters[i]? = some (parameters[i]'(by omega)) :=
          Array.getElem?_eq_getElem (by omega)
        obtain ⟨l, a, b, hl, ha, hb, hP⟩ := hrun (parameters[i]'(by omega)) s.alpha s.beta h2 h3
          (Array.getElem_mem _)
        refine ⟨_, inquiryBody_run hcb (Or.inl rfl) ht hl (by omega), by simp [h1], ha, hb, ?_⟩
        intro j hj hjc
        rcases Nat.lt_or_ge j i with h | h
        · obtain ⟨t, l', e1, e2, e3⟩ := h4 j h hjc
          refine ⟨t, l', e1, e2, ?_⟩
          show (s.nodes.set i (some l) (by omega))[j]? = _
          rw [Array.getElem?_set_ne _ (by omega)]; exact e3
        · obtain rfl : j = i := by omega
          exact ⟨_, l, ht, hP, by simp⟩)
  obtain ⟨h1, h2, h3, h4⟩ := hinv
  obtain ⟨e, he, hinv⟩ := forRange_inv (body := estimateBody ext opt f n converged s.nodes)
    (fun i e => e.size = num ∧ (∀ j, i ≤ j → e[j]? = estimate[j]?) ∧ ∀ j < i,
      (converged[j]? = some true → e[j]? = estimate[j]?) ∧
      (converged[j]? = some false → ∃ t l, parameters[j]? = some t ∧ P t l ∧
          e[j]? = some (n * quadratureSum ext.pow f opt.exponent l))) (Nat.zero_le num) estimate
    ⟨hest, fun _ _ => rfl, by simp⟩ (by
      rintro i _ hi e ⟨g1, g2, g3⟩
      obtain ⟨cb, hcb⟩ : ∃ b, converged[i]? = some b := ⟨_, Array.getElem?_eq_getElem (by omega)⟩
      unfold estimateBody
      rw [rd_ok hcb, Except.ok_bind']
      cases cb with
      | true =>
        refine ⟨e, rfl, g1, fun j hj => g2 j (by omega), ?_⟩
        intro j hj
        rcases Nat.lt_or_ge j i with h | h
        · exact g3 j h
        · obtain rfl : j = i := by omega
          exact ⟨fun _ => g2 j le_rfl, fun hc => by rw [hcb] at hc; simp at hc⟩
      | false =>
        obtain ⟨t, l, e1, e2, e3⟩ := h4 i hi hcb
        rw [if_neg (by simp), rd_ok e3, Except.ok_bind']
        refine ⟨_, wr_ok (by omega) _, by simp [g1], ?_, ?_⟩
        · intro j hj
          rw [Array.getElem?_set_ne _ (by omega)]; exact g2 j (by omega)
        · intro j hj
          rcases Nat.lt_or_ge j i with h | h
          · rw [Array.getElem?_set_ne _ (by omega)]; exact g3 j h
          · obtain rfl : j = i := by omega
            refine ⟨fun hc => by rw [hcb] at hc; simp at hc, fun _ => ⟨t, l, e1, e2, by simp⟩⟩)
  refine ⟨e, ?_, hinv.1, hinv.2.2⟩
  unfold slqSample
  simp only [hreq]
  rw [hs, Except.ok_bind']
  unfold allNodes resetConverged
  rw [hcond]
  simp only [Bool.false_eq_true, if_false, Except.ok_bind']
  have he' : estimateLoop ext opt f n num converged s.nodes estimate = .ok e := he
  rw [he']
  rfl

/-- Samples in which one iteration serves all inquiries. -/
theorem slqSample_shared {f : ℝ → ℝ} {num : Nat} {junkAlpha junkBeta : Array ℝ}
    {converged : Array Bool} {estimate : Array ℝ} (hop : op.relationKnown = true) (hnum : 1 < num)
    (hpar : parameters.size = num) (hconv : converged.size = num) (hest : estimate.size = num)
    {t0 : ℝ} (ht0 : parameters[0]? = some t0) (P : Nodes ℝ → Prop)
    (hrun : ∃ l a b, inquiryNodes ext opt op z t0 junkAlpha junkBeta = .ok (l, a, b) ∧ P l) :
    ∃ l e, P l ∧ slqSample ext opt op f parameters num z junkAlpha junkBeta converged estimate =
        .ok (Array.replicate num false, e) ∧ e.size = num ∧
      e[0]? = some (n * quadratureSum ext.pow f opt.exponent l) ∧
      ∀ j, 0 < j → j < num → ∃ t, parameters[j]? = some t ∧
        e[j]? = some (n * quadratureSum ext.pow f opt.exponent
          (l.map (fun p => (op.getEigenvalue t0 p.1 t, p.2)))) := by
  obtain ⟨l, a, b, hl, hP⟩ := hrun
  have hreq : requiredInquiries op num = 1 := by
    unfold requiredInquiries; rw [hop]; rfl
  have hcond : (op.relationKnown && decide (num > 1)) = true := by
    rw [hop]; simpa using hnum
  obtain ⟨cb, hcb⟩ : ∃ b, converged[0]? = some b := ⟨_, Array.getElem?_eq_getElem (by omega)⟩
  have hpt : ∀ j (h : j < num), parameters[j]? = some (parameters[j]'(by omega)) :=
    fun j h => Array.getElem?_eq_getElem (by omega)
  set s0 : SampleState ℝ := ⟨Array.replicate num none, junkAlpha, junkBeta⟩ with hs0
  have hlt : 0 < s0.nodes.size := by simp [s0]; omega
  have hbody := inquiryBody_run (required := 1) (num := num) (s := s0) hcb (Or.inr (by omega)) ht0 hl hlt
  have hloop : forRange 0 1 (inquiryBody ext opt op parameters z converged 1 num) s0 =
      .ok ⟨s0.nodes.set 0 (some l) hlt, a, b⟩ := by
    unfold forRange
    show loopN 1 _ 1 0 s0 = _
    simp only [loopN]
    rw [hbody]
    rfl
  set nodes0 := s0.nodes.set 0 (some l) hlt with hn0
  obtain ⟨nodes, hnodes, hinv⟩ := forRange_inv (body := shiftBody op parameters)
    (fun i ns => ns.size = num ∧ ns[0]? = some (some l) ∧ ∀ j, 0 < j → j < i →
      ∃ t, parameters[j]? = some t ∧
        ns[j]? = some (some (l.map (fun p => (op.getEigenvalue t0 p.1 t, p.2)))))
    (show 1 ≤ num by omega) nodes0 ⟨by simp [nodes0, s0], by simp [nodes0], by omega⟩ (by
      rintro i hi1 hi ns ⟨g1, g2, g3⟩
      unfold shiftBody
      rw [rd_ok g2, Except.ok_bind']
      simp only
      rw [rd_ok ht0, Except.ok_bind', rd_ok (hpt i hi), Except.ok_bind']
      refine ⟨_, wr_ok (by omega) _, by simp [g1], ?_, ?_⟩
      · rw [Array.getElem?_set_ne _ (by omega)]; exact g2
      · intro j hj0 hj
        rcases Nat.lt_or_ge j i with h | h
        · rw [Array.getElem?_set_ne _ (by omega)]; exact g3 j hj0 h
        · obtain rfl : j = i := by omega
          exact ⟨_, hpt j hi, by simp⟩)
  obtain ⟨g1, g2, g3⟩ := hinv
  have hnone : ∀ j < num, ∃ l', nodes[j]? = some (some l') := by
    intro j hj
    rcases Nat.eq_zero_or_pos j with rfl | h
    · exact ⟨l, g2⟩
    · obtain ⟨t, _, h'⟩ := g3 j h hj; exact ⟨_, h'⟩
  obtain ⟨e, he, hinv⟩ := forRange_inv (body := estimateBody ext opt f n (Array.replicate num false) nodes)
    (fun i e => e.size = num ∧ ∀ j < i, ∃ l', nodes[j]? = some (some l') ∧
          e[j]? = some (n * quadratureSum ext.pow f opt.exponent l')) (Nat.zero_le num) estimate
    ⟨hest, by simp⟩ (by
      rintro i _ hi e ⟨k1, k2⟩
      unfold estimateBody
      rw [rd_ok (x := false) (by simp [hi]), Except.ok_bind', if_neg (by simp)]
      obtain ⟨l', hl'⟩ := hnone i hi
      rw [rd_ok hl', Except.ok_bind']
      refine ⟨_, wr_ok (by omega) _, by simp [k1], ?_⟩
      intro j hj
      rcases Nat.lt_or_ge j i with h | h
      · rw [Array.getElem?_set_ne _ (by omega)]; exact k2 j h
      · obtain rfl : j = i := by omega
        exact ⟨l', hl', by simp⟩)
  refine ⟨l, e, hP, ?_, hinv.1, ?_, ?_⟩
  · unfold slqSample
    simp only [hreq]
    rw [← hs0, hloop, Except.ok_bind']
    unfold allNodes resetConverged
    rw [hcond]
    simp only [if_true]
    have hn' : shiftNodes op parameters num nodes0 = .ok nodes := hnodes
    rw [hn', Except.ok_bind']
    have he' : estimateLoop ext opt f n num (Array.replicate num false) nodes estimate = .ok e := he
    rw [he']
    rfl
  · obtain ⟨l', h1, h2⟩ := hinv.2 0 (by omega)
    rw [g2] at h1
    obtain rfl : l = l' := by simpa using h1
    exact h2
  · intro j hj0 hj
    obtain ⟨l', h1, h2⟩ := hinv.2 j hj
    obtain ⟨t, h3, h4⟩ := g3 j hj0 hj
    rw [h4] at h1
    have : l.map (fun p => (op.getEigenvalue t0 p.1 t, p.2)) = l' := by simpa using h1
    subst this
    exact ⟨t, h3, h2⟩

end Imate.Lanczos
