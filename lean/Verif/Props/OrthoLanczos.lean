import Verif.Lemmas.OrthoLanczosRun
import Verif.Spec.OrthoLanczos

/-!
# C103: full reorthogonalization keeps the Lanczos vectors orthogonal in floating-point arithmetic
-/

namespace Imate.Props

open Matrix Spec Rounded

variable {n : ℕ}

private theorem buffer_full {m : ℕ} (hm : 2 ≤ m) {orth : ℤ} (ho : orth < 0 ∨ (m : ℤ) ≤ orth) :
    Lanczos.lanczosBufferSize m orth = m := by
  unfold Lanczos.lanczosBufferSize
  rw [if_neg (by omega)]
  split
  · rfl
  · omega

private theorem decomposed_len {M : Matrix (Fin n) (Fin n) ℝ} {m : ℕ} {ε A θ η : ℝ} (hs : Small m ε A θ η) {a b : ℕ → ℝ}
    {v : ℕ → Fin n → ℝ} {F : ℝ} (hF : F ≤ 26 * (m * ε * A)) {k : ℕ} (hk : k < m) (hv : ∀ t ≤ k, |len (v t) - 1| ≤ 2 * ε)
    {x : Fin n → ℝ} (h : Decomposed M a b v (cBound m ε A η) F k x) :
    len (fun i => x i - rest M a b v k i) ≤ 14 * (m * (A * η)) := by
  obtain ⟨c, h1, h2⟩ := h
  obtain ⟨c0, c1⟩ := hs.c_le
  have hε := hs.ε_le
  have hsum : ∀ s ≤ k + 1, len (∑ t ∈ Finset.range s, c t • v t) ≤ s * (cBound m ε A η * (1001 / 1000)) := by
    intro s
    induction s with
    | zero => intro _; simp [len, dotProduct]
    | succ s ih =>
      intro hs'
      rw [Finset.sum_range_succ]
      refine (len_add_le _ _).trans ?_
      have g1 := ih (by omega)
      have g2 : len (v s) ≤ 1001 / 1000 := by linarith [(abs_le.1 (hv s (by omega))).2]
      rw [len_scale]
      have g3 := mul_le_mul (h1 s) g2 (len_nonneg _) c0
      push_cast
      linarith
  have g := hsum (k + 1) le_rfl
  have e1 : (fun i => x i - rest M a b v k i) = -(∑ t ∈ Finset.range (k + 1), c t • v t) +
      (x - (rest M a b v k - ∑ t ∈ Finset.range (k + 1), c t • v t)) := by
    funext i
    simp only [Pi.add_apply, Pi.neg_apply, Pi.sub_apply]
    ring
  rw [e1]
  refine (len_add_le _ _).trans ?_
  rw [len_neg]
  have hkm : ((k + 1 : ℕ) : ℝ) ≤ m := by exact_mod_cast hk
  have g4 : ((k + 1 : ℕ) : ℝ) * (cBound m ε A η * (1001 / 1000)) ≤ m * (27 / 2 * (A * η) * (1001 / 1000)) :=
    mul_le_mul hkm (by linarith) (by linarith) (by linarith [hs.hm])
  have g5 := hs.mεA
  have g6 : A * η ≤ m * (A * η) := le_mul_of_one_le_left (mul_nonneg hs.A_pos.le hs.η_nonneg) hs.hm
  linarith

section

variable {p e q : ℕ} {flD flE flL : ℝ → ℝ}

/-- C103: in every precision and for every rounding to nearest, the iteration with full reorthogonalization does not fail.
Its vectors have length one and its `alpha` are their Rayleigh quotients up to rounding errors.  As long as all `beta` but the
last are at least `θ`, the vectors are orthogonal up to `128 m ε A / θ` and satisfy the recurrence up to
`1792 m² ε A² / θ`, where `ε` bounds the relative errors of norms and matrix products and `A` the norm of the matrix of
absolute values.  It ends early only when `beta` is below the tolerance. -/
theorem rounded_lanczos_orthogonal (hp : 1 ≤ p) (hpe : p ≤ e) (hq : 1 ≤ q) (hD : Nearest p flD) (hE : Nearest e flE)
    (hL : Nearest q flL) {M P : Matrix (Fin n) (Fin n) ℝ} (hM : M.transpose = M) {ε : ℝ} (hε : normFactor p q n - 1 ≤ ε)
    {eDot : ℝ} (heD : 0 ≤ eDot) (heDε : eDot ≤ ε) {dot : Array ℝ → Array ℝ → Except Fault (Array ℝ)}
    (hdot : AccurateDot dot M P eDot) {A : ℝ} (hA : ∀ x : Fin n → ℝ, len (P *ᵥ fun j => |x j|) ≤ A * len x)
    {eps : ℝ} (heps0 : 0 < eps) (heps : eps ≤ 1 / 16) (hepsn : eps * Real.sqrt n ≤ 1 / 4)
    {m : ℕ} (hm : 2 ≤ m) (hmn : m ≤ n) {orth : ℤ} (ho : orth < 0 ∨ (m : ℤ) ≤ orth) {θ : ℝ} (hθ : 0 < θ) (hθA : θ ≤ A)
    (hsq : 4096 * (m ^ 2 * ε * A ^ 2) ≤ θ ^ 2) (hskip : 6000 * (m * ε * A ^ 2) ≤ θ)
    {z : Fin n → ℝ} (hz : z ≠ 0) {tol : ℝ} (htol : 0 < tol) {V0 : Array (Array ℝ)} (hV : V0.size = m)
    (hV' : ∀ row ∈ V0, row.size = n) {r0 alpha beta : Array ℝ} (hr0 : r0.size = n) (ha : alpha.size = m)
    (hb : beta.size = m) :
    ∃ size alpha' beta' v, lanczosOrtho flD flE flL dot eps orth n (Array.ofFn z) m tol V0 r0 alpha beta =
        .ok (size, alpha', beta') ∧
      0 < size ∧ size ≤ m ∧ alpha'.size = m ∧ beta'.size = m ∧
      (size < m → beta'.getD (size - 1) 0 < flE (tol * flE (Real.sqrt n))) ∧
      (∀ k, k + 1 < size → flE (tol * flE (Real.sqrt n)) ≤ beta'.getD k 0) ∧
      UnitVectors M z size (fun k => alpha'.getD k 0) (2 * ε) (5 / 2 * (ε * A)) v ∧
      ((∀ k, k + 1 < size → θ ≤ beta'.getD k 0) →
        OrthogonalLanczos M size (fun k => alpha'.getD k 0) (fun k => beta'.getD k 0) (128 * (m * ε * A) / θ)
          (1792 * (m ^ 2 * ε * A ^ 2) / θ) ε (108 * (m * ε * A)) v ∧
        ∀ k < size, |alpha'.getD k 0| ≤ 5 / 4 * A ∧ |beta'.getD k 0| ≤ 2 * A) := by
  have he : 1 ≤ e := hp.trans hpe
  have hm1 : (1 : ℝ) ≤ m := by exact_mod_cast (by omega : 1 ≤ m)
  have hε0 : 0 ≤ ε := heD.trans heDε
  obtain ⟨η, hη⟩ : ∃ η, η = 128 * (m * ε * A) / θ := ⟨_, rfl⟩
  have hs : Small m ε A θ η := ⟨hm1, hε0, hθ, hθA, by rw [hη]; field_simp, by linarith, by linarith⟩
  have hε4 := hs.ε_le
  have hg : normFactor p q n < 2 := by linarith
  obtain ⟨b0, h1, h2⟩ := norm_len hp hq hD hL hg z
  replace h2 := h2.trans (mul_le_mul_of_nonneg_right hε (len_nonneg z))
  have hb0 : b0 ≠ 0 := by
    intro h0
    rw [h0, zero_sub, abs_neg, abs_of_nonneg (len_nonneg z)] at h2
    have := len_pos hz
    nlinarith
  have hpos : ∀ x, 0 < x → 0 < flE x := by
    intro x hx
    have h3 := nearest_rel he hE x
    rw [abs_of_pos hx] at h3
    have h4 := (abs_le.1 h3).1
    have h5 : (2 : ℝ) ^ (-(e : ℤ)) ≤ 1 / 2 := by
      rw [zpow_neg, zpow_natCast, one_div]
      apply inv_anti₀ (by norm_num)
      exact le_self_pow₀ (by norm_num) (by omega)
    nlinarith
  have hthr : 0 < flE (tol * flE (Real.sqrt n)) :=
    hpos _ (mul_pos htol (hpos _ (Real.sqrt_pos.2 (by exact_mod_cast (by omega : 0 < n)))))
  unfold lanczosOrtho
  rw [buffer_full hm ho, copyVector_ofFn z r0 hr0]
  simp only [Except.ok_bind']
  rw [h1]
  simp only [Except.ok_bind']
  have hbase : OInv M z m ε A θ η b0 (flE (tol * flE (Real.sqrt n))) 0 ⟨V0, Array.ofFn z, alpha, beta, 0, false⟩
      (fun _ => z) z (fun _ => 0) (fun _ => 0) := by
    refine ⟨⟨hV, fun k hk => ⟨V0[k]'(by omega), Array.getElem?_eq_getElem (show k < V0.size by omega), hV' _ (Array.getElem_mem _)⟩⟩,
      by simp, rfl, ⟨ha, by simp⟩, ⟨hb, by simp⟩, rfl, by simpa using h2, fun _ => rfl, by simp, by simp, by simp, by simp,
      by simp, by simp, fun _ => ⟨by simp, by simp, by simp, by simp, by simp, by simp, by simp⟩⟩
  obtain ⟨s, h3, h4⟩ := forRange_inv (body := fun j s =>
      if s.stop then .ok s else orthoBody flD flE flL dot eps orth m n tol b0 j s)
    (fun j s => (s.stop = false → s.size = j) ∧ s.size ≤ j ∧ (0 < j → 0 < s.size) ∧ (j = 0 → s.stop = false) ∧ ∃ v r a b,
      OInv M z m ε A θ η b0 (flE (tol * flE (Real.sqrt n))) s.size s v r a b) (Nat.zero_le m)
    (⟨V0, Array.ofFn z, alpha, beta, 0, false⟩ : LanczosState)
    ⟨fun _ => rfl, le_rfl, by simp, fun _ => rfl, _, _, _, _, hbase⟩ (by
      rintro j _ hj s ⟨g1, g2, g3, g5, v, r, a, b, g4⟩
      by_cases hst : s.stop = true
      · refine ⟨s, by simp [hst], by simp [hst], by omega, fun _ => ?_, by omega, v, r, a, b, g4⟩
        rcases Nat.eq_zero_or_pos s.size with h0 | h0
        · exfalso
          rcases Nat.eq_zero_or_pos j with hj0 | hj0
          · exact absurd hst (by rw [g5 hj0]; simp)
          · have := g3 hj0; omega
        · exact h0
      · have hs' : s.stop = false := by simpa using hst
        have e1 := g1 hs'
        rw [e1] at g4
        have hne : (if j = 0 then b0 else b (j - 1)) ≠ 0 := by
          by_cases h0 : j = 0
          · rw [if_pos h0]; exact hb0
          · rw [if_neg h0]
            have := g4.go hs' (by omega)
            exact ne_of_gt (lt_of_lt_of_le hthr this)
        obtain ⟨s', v', r', a', b', k1, k2⟩ := ortho_body hp hpe hq hD hE hL hM hs hm hmn hε heD heDε hdot hA heps0 heps hepsn
          (show orth ≠ 0 by omega) hj g4 hne (g4.go hs')
        refine ⟨s', by simp [hs', k1], ?_⟩
        have e2 := k2.hsize
        refine ⟨fun _ => e2, by omega, fun _ => by omega, by omega, v', r', a', b', ?_⟩
        rw [e2]
        exact k2)
  obtain ⟨g1, g2, g3, -, v, r, a, b, g4⟩ := h4
  rw [h3]
  have hsz := g3 (by omega)
  have hga : ∀ k < s.size, s.alpha.getD k 0 = a k := fun k hk => by
    rw [Array.getD_eq_getD_getElem?, g4.ha.2 k hk]; rfl
  have hgb : ∀ k < s.size, s.beta.getD k 0 = b k := fun k hk => by
    rw [Array.getD_eq_getD_getElem?, g4.hb.2 k hk]; rfl
  refine ⟨s.size, s.alpha, s.beta, v, rfl, hsz, g2, g4.ha.1, g4.hb.1, fun hlt => ?_, fun k hk => ?_,
    ⟨g4.start hsz, g4.unit, fun k hk => ?_⟩, fun hgood => ?_⟩
  · have : s.stop = true := by
      by_contra hc
      have := g1 (by simpa using hc)
      omega
    rw [hgb _ (by omega)]
    exact g4.stopped this
  · rw [hgb _ (by omega)]
    exact g4.cont k hk
  · rw [hga k hk]; exact g4.diagonal k hk
  · have c1 : ∀ k < s.size, rest M (fun k => s.alpha.getD k 0) (fun k => s.beta.getD k 0) v k = rest M a b v k :=
      fun k hk => rest_congr (hga k hk) (fun i hi => hgb i (by omega)) fun _ _ => rfl
    have hf := g4.facts fun k hk => by rw [← hgb k (by omega)]; exact hgood k hk
    have e1 : 14 * (m * (A * η)) = 1792 * (m ^ 2 * ε * A ^ 2) / θ := by rw [hη]; field_simp; ring
    refine ⟨⟨fun i hi k hk hne => (hf.orth i hi k hk hne).trans (le_of_eq hη), fun k hk => ?_, r, ?_, ?_, hf.res⟩,
      fun k hk => by rw [hga k hk, hgb k hk]; exact ⟨hf.alpha k hk, hf.beta k hk⟩⟩
    · rw [hgb k (by omega), c1 k (by omega), ← e1]
      exact decomposed_len hs le_rfl (by omega) (fun t ht => g4.unit t (by omega)) (hf.recd k hk)
    · rw [c1 _ (by omega), ← e1]
      exact decomposed_len hs (by have := hs.mεA_nonneg; linarith) (by omega) (fun t ht => g4.unit t (by omega)) (hf.last hsz)
    · rw [hgb _ (by omega)]
      have := g4.norm
      rwa [if_neg (by omega)] at this

/-- The norm of the matrix of absolute values is at most the Frobenius norm. -/
theorem frobenius_bound {M : Matrix (Fin n) (Fin n) ℝ} {A : ℝ} (hA0 : 0 ≤ A) (hA : ∑ i, ∑ j, M i j ^ 2 ≤ A ^ 2) (x : Fin n → ℝ) :
    len ((fun i j => |M i j| : Matrix (Fin n) (Fin n) ℝ) *ᵥ fun j => |x j|) ≤ A * len x := by
  refine len_le_of_sq (mul_nonneg hA0 (len_nonneg x)) ?_
  have hx : len x ^ 2 = ∑ j, x j ^ 2 := by
    unfold len
    rw [Real.sq_sqrt (by unfold dotProduct; exact Finset.sum_nonneg fun i _ => mul_self_nonneg _)]
    exact Finset.sum_congr rfl fun i _ => (pow_two _).symm
  have h1 : ∀ i, (((fun i j => |M i j| : Matrix (Fin n) (Fin n) ℝ) *ᵥ fun j => |x j|) i) ^ 2 ≤ (∑ j, M i j ^ 2) * len x ^ 2 := by
    intro i
    have := Finset.sum_mul_sq_le_sq_mul_sq Finset.univ (fun j => |M i j|) (fun j => |x j|)
    simp only [sq_abs] at this
    rw [hx]
    exact this
  have h2 : ((fun i j => |M i j| : Matrix (Fin n) (Fin n) ℝ) *ᵥ fun j => |x j|) ⬝ᵥ
      ((fun i j => |M i j| : Matrix (Fin n) (Fin n) ℝ) *ᵥ fun j => |x j|) ≤ ∑ i, (∑ j, M i j ^ 2) * len x ^ 2 := by
    unfold dotProduct
    exact Finset.sum_le_sum fun i _ => by rw [← pow_two]; exact h1 i
  rw [← Finset.sum_mul] at h2
  have h3 := mul_le_mul_of_nonneg_right hA (sq_nonneg (len x))
  calc _ ≤ _ := h2
    _ ≤ _ := h3
    _ = _ := by ring

/-- C103 for dense matrices, `A` at least the Frobenius norm, and a tolerance that keeps all `beta` but the last at least `θ`:
the vectors are orthogonal in every case. -/
theorem rounded_lanczos_orthogonal_dense (hp : 1 ≤ p) (hpe : p ≤ e) (hq : 1 ≤ q) (hD : Nearest p flD) (hE : Nearest e flE)
    (hL : Nearest q flL) {D : Array ℝ} {M : Matrix (Fin n) (Fin n) ℝ} {rowMajor : Bool} (h : DenseRepr rowMajor D M)
    (hM : M.transpose = M) {ε : ℝ} (hε : normFactor p q n - 1 ≤ ε) {A : ℝ} (hA : ∑ i, ∑ j, M i j ^ 2 ≤ A ^ 2)
    {eps : ℝ} (heps0 : 0 < eps) (heps : eps ≤ 1 / 16) (hepsn : eps * Real.sqrt n ≤ 1 / 4)
    {m : ℕ} (hm : 2 ≤ m) (hmn : m ≤ n) {orth : ℤ} (ho : orth < 0 ∨ (m : ℤ) ≤ orth) {θ : ℝ} (hθ : 0 < θ) (hθA : θ ≤ A)
    (hsq : 4096 * (m ^ 2 * ε * A ^ 2) ≤ θ ^ 2) (hskip : 6000 * (m * ε * A ^ 2) ≤ θ)
    {z : Fin n → ℝ} (hz : z ≠ 0) {tol : ℝ} (htol : 0 < tol) (hθt : θ ≤ flE (tol * flE (Real.sqrt n)))
    {V0 : Array (Array ℝ)} (hV : V0.size = m) (hV' : ∀ row ∈ V0, row.size = n) {r0 alpha beta : Array ℝ} (hr0 : r0.size = n)
    (ha : alpha.size = m) (hb : beta.size = m) :
    ∃ size alpha' beta' v, lanczosOrtho flD flE flL (fun x c => Rounded.denseMatvec flD flL D x n n rowMajor c) eps orth n
        (Array.ofFn z) m tol V0 r0 alpha beta = .ok (size, alpha', beta') ∧ 0 < size ∧ size ≤ m ∧
      (size < m → beta'.getD (size - 1) 0 < flE (tol * flE (Real.sqrt n))) ∧
      UnitVectors M z size (fun k => alpha'.getD k 0) (2 * ε) (5 / 2 * (ε * A)) v ∧
      OrthogonalLanczos M size (fun k => alpha'.getD k 0) (fun k => beta'.getD k 0) (128 * (m * ε * A) / θ)
        (1792 * (m ^ 2 * ε * A ^ 2) / θ) ε (108 * (m * ε * A)) v := by
  have hu := (unit_pos p).le
  have hU := (unit_pos q).le
  have h6 := one_le_G hu hU 6 n
  have h7 : (1 + unitRoundoff p) ^ 6 * (1 + unitRoundoff q) ^ n ≤ normFactor p q n :=
    mul_le_mul_of_nonneg_right (pow_le_pow_right₀ (by linarith) (by norm_num)) (pow_nonneg (by linarith) n)
  obtain ⟨size, alpha', beta', v, g1, g2, g3, -, -, g4, g5, g6, g7⟩ := rounded_lanczos_orthogonal hp hpe hq hD hE hL hM hε
    (by linarith) (by linarith) (dense_accurate_dot hp hq hD hL h) (frobenius_bound (hθ.le.trans hθA) hA) heps0 heps hepsn hm hmn
    ho hθ hθA hsq hskip hz htol hV hV' hr0 ha hb
  exact ⟨size, alpha', beta', v, g1, g2, g3, g4, g6, (g7 fun k hk => hθt.trans (g5 k hk)).1⟩

end

/-- Three steps for a matrix of order three in double precision: orthogonal up to `2^(-27)`. -/
example {flD flL : ℝ → ℝ} (hD : Nearest 53 flD) (hL : Nearest 64 flL) :
    ∃ size alpha' beta' v, lanczosOrtho flD flD flL
        (fun x c => Rounded.denseMatvec flD flL #[2, 1, 0, 1, 2, 1, 0, 1, 2] x 3 3 true c) (1 / 2 ^ 52) (-1) 3
        (Array.ofFn (![1, 0, 0] : Fin 3 → ℝ)) 3 (1 / 8) #[#[0, 0, 0], #[0, 0, 0], #[0, 0, 0]] #[0, 0, 0] #[0, 0, 0] #[0, 0, 0] =
        .ok (size, alpha', beta') ∧ 0 < size ∧ size ≤ 3 ∧
      OrthogonalLanczos !![2, 1, 0; 1, 2, 1; 0, 1, 2] size (fun k => alpha'.getD k 0) (fun k => beta'.getD k 0)
        (128 * ((3 : ℕ) * (8 / 2 ^ 53) * 4) / (1 / 16)) (1792 * ((3 : ℕ) ^ 2 * (8 / 2 ^ 53) * 4 ^ 2) / (1 / 16)) (8 / 2 ^ 53)
        (108 * ((3 : ℕ) * (8 / 2 ^ 53) * 4)) v := by
  have hs1 : 1 ≤ Real.sqrt ((3 : ℕ) : ℝ) := by rw [Real.one_le_sqrt]; norm_num
  have hs2 : Real.sqrt ((3 : ℕ) : ℝ) ≤ 2 := by rw [Real.sqrt_le_left (by norm_num)]; norm_num
  have hfl : ∀ x : ℝ, 0 < x → 15 / 16 * x ≤ flD x := by
    intro x hx
    have h3 := (abs_le.1 (nearest_rel (p := 53) (by norm_num) hD x)).1
    rw [abs_of_pos hx] at h3
    have h5 : (2 : ℝ) ^ (-((53 : ℕ) : ℤ)) ≤ 1 / 16 := by norm_num
    generalize (2 : ℝ) ^ (-((53 : ℕ) : ℤ)) = c at h3 h5
    have := mul_le_mul_of_nonneg_right h5 hx.le
    linarith
  have hthr : 1 / 16 ≤ flD (1 / 8 * flD (Real.sqrt ((3 : ℕ) : ℝ))) := by
    generalize Real.sqrt ((3 : ℕ) : ℝ) = S at hs1
    have k1 := hfl S (by linarith)
    have k2 := hfl (1 / 8 * flD S) (by linarith)
    linarith
  obtain ⟨size, alpha', beta', v, g1, g2, g3, -, -, g6⟩ := rounded_lanczos_orthogonal_dense (p := 53) (e := 53) (q := 64)
    (n := 3) (by norm_num) le_rfl (by norm_num) hD hD hL (D := #[2, 1, 0, 1, 2, 1, 0, 1, 2])
    (M := !![2, 1, 0; 1, 2, 1; 0, 1, 2]) (rowMajor := true)
    ⟨rfl, fun i j => by fin_cases i <;> fin_cases j <;> rfl⟩
    (by ext i j; fin_cases i <;> fin_cases j <;> rfl) (ε := 8 / 2 ^ 53) (by unfold normFactor unitRoundoff; norm_num) (A := 4)
    (by simp [Fin.sum_univ_three]; norm_num) (eps := 1 / 2 ^ 52) (by norm_num) (by norm_num)
    ((mul_le_mul (by norm_num : (1 : ℝ) / 2 ^ 52 ≤ 1 / 8) hs2 (Real.sqrt_nonneg _) (by norm_num)).trans (by norm_num))
    (m := 3) (by norm_num) le_rfl (orth := -1) (by norm_num) (θ := 1 / 16) (by norm_num) (by norm_num) (by norm_num) (by norm_num)
    (z := ![1, 0, 0]) (fun h => by have := congrFun h 0; simp at this) (tol := 1 / 8) (by norm_num)
    hthr
    (V0 := #[#[0, 0, 0], #[0, 0, 0], #[0, 0, 0]]) rfl (by simp) (r0 := #[0, 0, 0]) (alpha := #[0, 0, 0]) (beta := #[0, 0, 0])
    rfl rfl rfl
  exact ⟨size, alpha', beta', v, g1, g2, g3, g6⟩

example : (128 * ((3 : ℕ) * (8 / 2 ^ 53) * 4) / (1 / 16) : ℝ) ≤ 1 / 2 ^ 27 := by norm_num

end Imate.Props
