import Verif.Lemmas.OrthoLanczos

/-!
# The loop of the Lanczos iteration with full reorthogonalization and rounding
-/

namespace Imate.Rounded

open Matrix Spec Props

variable {n : ℕ}

/-- What holds before iteration `j`: `v` are the vectors, `r` the current residual. -/
structure OInv (M : Matrix (Fin n) (Fin n) ℝ) (z : Fin n → ℝ) (m : ℕ) (ε A θ η b0 thr : ℝ) (j : ℕ) (s : LanczosState)
    (v : ℕ → Fin n → ℝ) (r : Fin n → ℝ) (a b : ℕ → ℝ) : Prop where
  rows : s.V.size = m ∧ ∀ k < m, ∃ row : Array ℝ, s.V[k]? = some row ∧ row.size = n
  prev : ∀ k < j, s.V[k]? = some (Array.ofFn (v k))
  hr : s.r = Array.ofFn r
  ha : s.alpha.size = m ∧ ∀ k < j, s.alpha[k]? = some (a k)
  hb : s.beta.size = m ∧ ∀ k < j, s.beta[k]? = some (b k)
  hsize : s.size = j
  norm : |(if j = 0 then b0 else b (j - 1)) - len r| ≤ ε * len r
  first : j = 0 → r = z
  start : 0 < j → ∀ i, |v 0 i - z i / len z| ≤ 2 * ε * |z i / len z|
  unit : ∀ k < j, |len (v k) - 1| ≤ 2 * ε
  diagonal : ∀ k < j, |a k - v k ⬝ᵥ (M *ᵥ v k)| ≤ 5 / 2 * (ε * A)
  go : s.stop = false → 0 < j → thr ≤ b (j - 1)
  stopped : s.stop = true → b (j - 1) < thr
  cont : ∀ k, k + 1 < j → thr ≤ b k
  facts : (∀ k, k + 1 < j → θ ≤ b k) → Facts M m ε A η j v r a b

section

variable {p e q : ℕ} {flD flE flL : ℝ → ℝ}

theorem unit_anti {p e : ℕ} (h : p ≤ e) : unitRoundoff e ≤ unitRoundoff p := by
  unfold unitRoundoff
  exact zpow_le_zpow_right₀ (by norm_num) (by omega)

theorem scale_le {ε : ℝ} (hpe : p ≤ e) (hε : normFactor p q n - 1 ≤ ε) (hε' : 4096 * ε ≤ 1) :
    scaleFactor p e - 1 ≤ 1 / 2 * ε ∧ scaleFactor p e / (2 - normFactor p q n) - 1 ≤ 2 * ε ∧
      (1 + ε) * (1 + unitRoundoff p) ^ 3 - 1 ≤ 8 / 5 * ε := by
  have h7 := seven_unit_le p q n
  have hu := unit_pos p
  have hue := unit_pos e
  have hle := unit_anti hpe
  set u := unitRoundoff p
  have hu' : u ≤ 1 / 1000 := by linarith
  have h2 : u * u ≤ 1 / 1000 * u := mul_le_mul_of_nonneg_right hu' hu.le
  have h3 : u * (u * u) ≤ 1 / 1000 * (u * u) := mul_le_mul_of_nonneg_right hu' (mul_self_nonneg u)
  have hc : (1 + u) ^ 3 ≤ 1 + 1 / 2 * ε := by
    have : (1 + u) ^ 3 = 1 + 3 * u + 3 * (u * u) + u * (u * u) := by ring
    rw [this]
    linarith
  have hH : scaleFactor p e ≤ (1 + u) ^ 3 := by
    have : (1 + u) ^ 3 = (1 + u) * (1 + u) ^ 2 := by ring
    rw [this]
    exact mul_le_mul_of_nonneg_right (by linarith) (by positivity)
  have hε0 : 0 ≤ ε := by linarith
  have hεε : ε * ε ≤ 1 / 4096 * ε := mul_le_mul_of_nonneg_right (by linarith) hε0
  refine ⟨by linarith, ?_, ?_⟩
  · rw [sub_le_iff_le_add, div_le_iff₀ (by linarith)]
    have h4 : (2 * ε + 1) * (1 - ε) ≤ (2 * ε + 1) * (2 - normFactor p q n) :=
      mul_le_mul_of_nonneg_left (by linarith) (by positivity)
    linarith
  · have h4 : (1 + ε) * (1 + u) ^ 3 ≤ (1 + ε) * (1 + 1 / 2 * ε) := mul_le_mul_of_nonneg_left hc (by positivity)
    linarith

/-- In every case the process ends with a vector. -/
theorem gramSchmidt_total (hp : 1 ≤ p) (hq : 1 ≤ q) (hD : Nearest p flD) (hL : Nearest q flL) (hg : normFactor p q n < 2)
    (eps : ℝ) {N last : ℕ} {numOrtho : ℤ} {V : Array (Array ℝ)} {w : ℕ → Fin n → ℝ} {k : ℕ}
    (hk : k = Lanczos.gsNumSteps n N numOrtho)
    (hV : ∀ t < k, V[Lanczos.gsIndex N last t]? = some (Array.ofFn (w t))) (r : Fin n → ℝ) :
    ∃ r' : Fin n → ℝ, gramSchmidt flD flE flL eps n V N last numOrtho (Array.ofFn r) = .ok (Array.ofFn r') := by
  unfold gramSchmidt
  rw [← hk]
  obtain ⟨s', h1, y, rfl⟩ := forRange_inv (body := fun step v => do
      gsStep flD flE flL eps n (← rd V (Lanczos.gsIndex N last step)) v)
    (fun _ v => ∃ y : Fin n → ℝ, v = Array.ofFn y) (Nat.zero_le k) (Array.ofFn r) ⟨r, rfl⟩ (by
      rintro s - hs v ⟨y, rfl⟩
      obtain ⟨y', g3⟩ := gsStep_total (flE := flE) hp hq hD hL hg eps (w s) y
      refine ⟨Array.ofFn y', ?_, y', rfl⟩
      rw [rd_ok (hV s hs)]
      exact g3)
  exact ⟨y, h1⟩

theorem ofFn_inj {x y : Fin n → ℝ} (h : (Except.ok (Array.ofFn x) : Except Fault (Array ℝ)) = .ok (Array.ofFn y)) : x = y := by
  have h1 := Except.ok.inj h
  funext i
  have h2 := rd_ofFn x i
  rw [h1, rd_ofFn y i] at h2
  exact (Except.ok.inj h2).symm

theorem ortho_body (hp : 1 ≤ p) (hpe : p ≤ e) (hq : 1 ≤ q) (hD : Nearest p flD) (hE : Nearest e flE) (hL : Nearest q flL)
    {M P : Matrix (Fin n) (Fin n) ℝ} (hM : M.transpose = M) {m : ℕ} {ε A θ η : ℝ} (hs : Small m ε A θ η) (hm2 : 2 ≤ m)
    (hmn : m ≤ n) (hε : normFactor p q n - 1 ≤ ε) {eDot : ℝ} (heD : 0 ≤ eDot) (heDε : eDot ≤ ε)
    {dot : Array ℝ → Array ℝ → Except Fault (Array ℝ)} (hdot : AccurateDot dot M P eDot)
    (hA : ∀ x : Fin n → ℝ, len (P *ᵥ fun j => |x j|) ≤ A * len x) {eps : ℝ} (heps0 : 0 < eps) (heps : eps ≤ 1 / 16)
    (hepsn : eps * Real.sqrt n ≤ 1 / 4) {orth : ℤ} (ho : orth ≠ 0) {z : Fin n → ℝ}
    {tol b0 : ℝ} {j : ℕ} (hj : j < m) {s : LanczosState} {v : ℕ → Fin n → ℝ} {r : Fin n → ℝ} {a b : ℕ → ℝ}
    (h : OInv M z m ε A θ η b0 (flE (tol * flE (Real.sqrt n))) j s v r a b) (hne : (if j = 0 then b0 else b (j - 1)) ≠ 0)
    (hcont : 0 < j → flE (tol * flE (Real.sqrt n)) ≤ b (j - 1)) :
    ∃ s' v' r' a' b', orthoBody flD flE flL dot eps orth m n tol b0 j s = .ok s' ∧
      OInv M z m ε A θ η b0 (flE (tol * flE (Real.sqrt n))) (j + 1) s' v' r' a' b' := by
  have hu := (unit_pos p).le
  have hue := (unit_pos e).le
  have hU := (unit_pos q).le
  have he : 1 ≤ e := hp.trans hpe
  have relD := nearest_rel hp hD
  have relE := nearest_rel he hE
  have hε4 := hs.ε_le
  have hε0 := hs.hε
  have hApos := hs.A_pos
  have hg : normFactor p q n < 2 := by linarith
  obtain ⟨hH, hUnit, hG3⟩ := scale_le hpe hε hε4
  set u := unitRoundoff p with hu_def
  have hG1 : 1 ≤ normFactor p q n := by have := seven_unit_le p q n; linarith
  have hH1 : 1 ≤ scaleFactor p e := one_le_mul_of_one_le_of_one_le (by linarith) (one_le_pow₀ (by linarith))
  set bj := (if j = 0 then b0 else b (j - 1)) with hbj
  -- the vector
  set vj : Fin n → ℝ := fun i => times flD (flD (flE (1 / bj))) (r i) with hvj
  have hscale : ∀ i, Approx (scaleFactor p e) (r i / bj) |r i / bj| (vj i) := fun i =>
    scaled_approx hu hue relD relE bj (r i)
  have hrpos : 0 < len r := by
    rcases (len_nonneg r).eq_or_lt with h0 | h0
    · have := h.norm
      rw [← h0, mul_zero, sub_zero] at this
      exact absurd (abs_nonpos_iff.1 this) hne
    · exact h0
  have hnorm' : |bj - len r| ≤ (1 + ε - 1) * len r := by rw [add_sub_cancel_left]; exact h.norm
  obtain ⟨hunit, hdir⟩ := unit_near (G := 1 + ε) (by linarith) (by linarith) hH1 hnorm' hrpos hscale
  have hUnit' : scaleFactor p e / (2 - (1 + ε)) - 1 ≤ 2 * ε := by
    rw [sub_le_iff_le_add, div_le_iff₀ (by linarith)]
    have := mul_le_mul_of_nonneg_right hε4 hε0
    nlinarith
  replace hunit := hunit.trans hUnit'
  have hbv : len (bj • vj - r) ≤ 1 / 2 * ε * len r := by
    refine len_le_of_abs_le (by positivity) fun i => ?_
    have g1 := ((hscale i).smul bj).2
    have e2 : bj * (r i / bj) = r i := by field_simp
    have e3 : |bj| * |r i / bj| = |r i| := by rw [← abs_mul, e2]
    rw [e2, e3] at g1
    exact g1.trans (mul_le_mul_of_nonneg_right hH (abs_nonneg _))
  -- the product
  have hrsize : s.r.size = n := by rw [h.hr]; simp
  obtain ⟨w, hw1, hw2⟩ := hdot.2 vj s.r hrsize
  have hw : ∀ i, Approx (1 + eDot) ((M *ᵥ vj) i) ((P *ᵥ fun l => |vj l|) i) (w i) := fun i =>
    ⟨mulVec_abs_le hdot.1 vj i, by rw [add_sub_cancel_left]; exact hw2 i⟩
  have hPn : ∀ i, 0 ≤ (P *ᵥ fun l => |vj l|) i := fun i => (abs_nonneg _).trans (mulVec_abs_le hdot.1 vj i)
  -- the inner product
  obtain ⟨al, ha1, ha2⟩ : ∃ al, innerProduct flD flL (Array.ofFn vj) (Array.ofFn w) n = .ok al ∧
      |al - vj ⬝ᵥ (M *ᵥ vj)| ≤ 5 / 2 * (ε * A) := by
    obtain ⟨al, h1, h2⟩ := inner_product_accurate hp hq hD hL vj w
    refine ⟨al, h1, ?_⟩
    have h3 : Approx ((1 + u) ^ 6 * (1 + unitRoundoff q) ^ n) (vj ⬝ᵥ w) (∑ i, |vj i| * |w i|) al := by
      refine ⟨?_, h2⟩
      refine (Finset.abs_sum_le_sum_abs (fun i => vj i * w i) Finset.univ).trans (Finset.sum_le_sum fun i _ => ?_)
      rw [abs_mul]
    have h4 : Approx (1 + eDot) (vj ⬝ᵥ (M *ᵥ vj)) (∑ i, |vj i| * (P *ᵥ fun l => |vj l|) i) (vj ⬝ᵥ w) :=
      Approx.sum Finset.univ fun i _ => (hw i).smul (vj i)
    have h5 : ∑ i, |vj i| * |w i| ≤ (1 + eDot) * ∑ i, |vj i| * (P *ᵥ fun l => |vj l|) i := by
      rw [Finset.mul_sum]
      refine Finset.sum_le_sum fun i _ => ?_
      have := mul_le_mul_of_nonneg_left (hw i).abs_le (abs_nonneg (vj i))
      linarith
    have h6 := (h3.trans (one_le_G hu hU 6 n) h4 h5).2
    refine h6.trans ?_
    have h7 : (1 + u) ^ 6 * (1 + unitRoundoff q) ^ n ≤ 1 + ε := by
      have g1 : (1 + u) ^ 6 ≤ (1 + u) ^ 7 := pow_le_pow_right₀ (by linarith) (by norm_num)
      have g2 := mul_le_mul_of_nonneg_right g1 (pow_nonneg (by linarith) n : 0 ≤ (1 + unitRoundoff q) ^ n)
      unfold normFactor at hε
      linarith
    have h8 : (1 + u) ^ 6 * (1 + unitRoundoff q) ^ n * (1 + eDot) ≤ (1 + ε) * (1 + ε) :=
      mul_le_mul h7 (by linarith) (by linarith) (by linarith)
    have h9 : ∑ i, |vj i| * (P *ᵥ fun l => |vj l|) i ≤ 1001 / 1000 * (A * (1001 / 1000)) := by
      have g1 : ∑ i, |vj i| * (P *ᵥ fun l => |vj l|) i ≤ len vj * len (P *ᵥ fun l => |vj l|) := by
        refine le_trans (Finset.sum_le_sum fun i _ => ?_) (sum_abs_mul_le vj (P *ᵥ fun l => |vj l|))
        rw [abs_of_nonneg (hPn i)]
      have hl : len vj ≤ 1001 / 1000 := by linarith [(abs_le.1 hunit).2]
      refine g1.trans (mul_le_mul hl ((hA vj).trans (mul_le_mul_of_nonneg_left hl hApos.le)) (len_nonneg _) (by norm_num))
    have h10 : 0 ≤ ∑ i, |vj i| * (P *ᵥ fun l => |vj l|) i := Finset.sum_nonneg fun i _ => mul_nonneg (abs_nonneg _) (hPn i)
    have h11 : (1 + u) ^ 6 * (1 + unitRoundoff q) ^ n * (1 + eDot) - 1 ≤ 21 / 10 * ε := by
      have := mul_le_mul_of_nonneg_right hε4 hε0
      linarith
    have h12 := mul_le_mul h11 h9 h10 (by positivity)
    have := mul_nonneg hε0 hApos.le
    linarith
  -- the subtractions
  have hw' : ∀ i, Approx ((1 + ε) * (1 + u)) ((M *ᵥ vj) i) ((P *ᵥ fun l => |vj l|) i) (w i) := fun i =>
    (hw i).weaken (by nlinarith)
  have hle1 : 1 + u ≤ (1 + ε) * (1 + u) := le_mul_of_one_le_left (by linarith) (by linarith)
  obtain ⟨r1, hr1, hr2⟩ := subtractScaled_approx hu relD hle1 vj al hw'
  have hle2 : 1 + u ≤ (1 + ε) * (1 + u) * (1 + u) := hle1.trans
    (le_mul_of_one_le_right (mul_nonneg (by linarith) (by linarith)) (by linarith))
  set v' := Function.update v j vj with hv'
  set a' := Function.update a j al with ha'
  have hvlt : ∀ k < j, v' k = v k := fun k hk => Function.update_of_ne (by omega) _ _
  have halt : ∀ k < j, a' k = a k := fun k hk => Function.update_of_ne (by omega) _ _
  have hvself : v' j = vj := Function.update_self _ _ _
  have haself : a' j = al := Function.update_self _ _ _
  have hjm : j % m = j := Nat.mod_eq_of_lt hj
  obtain ⟨row, hrow1, hrow2⟩ := h.rows.2 j hj
  have hV1 : wr s.V j (Array.ofFn vj) = .ok (s.V.set j (Array.ofFn vj) (by rw [h.rows.1]; exact hj)) := wr_ok _ _
  set V' := s.V.set j (Array.ofFn vj) (by rw [h.rows.1]; exact hj) with hV'
  have hVself : V'[j]? = some (Array.ofFn vj) := by simp [hV']
  have hVother : ∀ k, k ≠ j → V'[k]? = s.V[k]? := by
    intro k hk
    rw [hV', Array.getElem?_set]
    simp [Ne.symm hk]
  have hVall : ∀ k ≤ j, V'[k]? = some (Array.ofFn (v' k)) := by
    intro k hk
    rcases hk.lt_or_eq with h1 | rfl
    · rw [hVother k (by omega), hvlt k h1]; exact h.prev k h1
    · rw [hVself, hvself]
  obtain ⟨r2, hs1, hs2⟩ : ∃ r2 : Fin n → ℝ,
      subtractPreviousIn flD m n j V' s.beta (Array.ofFn r1) = .ok (Array.ofFn r2) ∧
      ∀ i, Approx ((1 + ε) * (1 + u) ^ 3) (rest M a' b v' j i) (restAbs P a' b v' j i) (r2 i) := by
    unfold subtractPreviousIn
    by_cases h0 : j = 0
    · refine ⟨r1, by rw [if_neg (by omega)], fun i => ?_⟩
      unfold rest restAbs
      rw [hvself, haself, if_pos h0, if_pos h0, sub_zero, add_zero]
      refine (hr2 i).weaken ?_
      rw [mul_assoc, ← pow_two]
      exact mul_le_mul_of_nonneg_left (pow_le_pow_right₀ (by linarith) (by norm_num)) (by linarith)
    · rw [if_pos (by omega), Nat.mod_eq_of_lt (by omega : j - 1 < m), rd_ok (hVall (j - 1) (by omega)),
        rd_ok (h.hb.2 (j - 1) (by omega))]
      simp only [Except.ok_bind']
      obtain ⟨r2, g1, g2⟩ := subtractScaled_approx hu relD hle2 (v' (j - 1)) (b (j - 1)) hr2
      refine ⟨r2, g1, fun i => ?_⟩
      unfold rest restAbs
      rw [hvself, haself, if_neg h0, if_neg h0]
      have := g2 i
      rwa [show (1 + ε) * (1 + u) * (1 + u) * (1 + u) = (1 + ε) * (1 + u) ^ 3 by ring] at this
  -- reorthogonalization
  have hsteps : j + 1 = Lanczos.gsNumSteps n m ((j + 1 : ℕ) : ℤ) := by
    unfold Lanczos.gsNumSteps
    rw [if_neg (by omega)]
    have e1 : (if ((j + 1 : ℕ) : ℤ) < 0 ∨ ((j + 1 : ℕ) : ℤ) > (m : ℤ) then m else ((j + 1 : ℕ) : ℤ).toNat) = j + 1 := by
      rw [if_neg (by omega)]
      exact Int.toNat_natCast _
    simp only [e1]
    rw [if_neg (by omega)]
  have hwin : ∀ t < j + 1, V'[Lanczos.gsIndex m j t]? = some (Array.ofFn (v' (j - t))) := by
    intro t ht
    unfold Lanczos.gsIndex
    rw [hjm, if_pos (by omega)]
    exact hVall (j - t) (by omega)
  obtain ⟨r3, hgs⟩ := gramSchmidt_total (flE := flE) hp hq hD hL hg eps (N := m) (last := j) (w := fun t => v' (j - t))
    hsteps hwin r2
  have hre : reorthogonalize flD flE flL eps orth m n V' j (Array.ofFn r2) = .ok (Array.ofFn r3) := by
    unfold reorthogonalize
    rw [if_pos ho]
    simp only [hj, if_true, hjm]
    exact hgs
  obtain ⟨bn, hb1, hb2⟩ := norm_len hp hq hD hL hg r3
  replace hb2 := hb2.trans (mul_le_mul_of_nonneg_right hε (len_nonneg r3))
  set b' := Function.update b j bn with hb'
  have hblt : ∀ k < j, b' k = b k := fun k hk => Function.update_of_ne (by omega) _ _
  have hbself : b' j = bn := Function.update_self _ _ _
  have hA1 : wr s.alpha j al = .ok (s.alpha.set j al (by rw [h.ha.1]; exact hj)) := wr_ok _ _
  have hB1 : wr s.beta j bn = .ok (s.beta.set j bn (by rw [h.hb.1]; exact hj)) := wr_ok _ _
  have hsc : lanczosScale flD flE b0 j s.beta = .ok (flD (flE (1 / bj))) := by
    unfold lanczosScale
    by_cases h0 : j = 0
    · have e1 : bj = b0 := by rw [hbj, if_pos h0]
      rw [if_pos h0, e1]
      rw [e1] at hne
      unfold reciprocal
      rw [if_neg hne]
    · have e1 : bj = b (j - 1) := by rw [hbj, if_neg h0]
      rw [if_neg h0, rd_ok (h.hb.2 (j - 1) (by omega)), e1]
      rw [e1] at hne
      simp only [Except.ok_bind']
      unfold reciprocal
      rw [if_neg hne]
  refine ⟨⟨V', Array.ofFn r3, s.alpha.set j al (by rw [h.ha.1]; exact hj), s.beta.set j bn (by rw [h.hb.1]; exact hj),
    s.size + 1, decide (bn < flE (tol * flE (Real.sqrt n)))⟩, v', r3, a', b', ?_, ?_⟩
  · unfold orthoBody
    have hcopy : copyScaledVector flD s.r n (flD (flE (1 / bj))) row = .ok (Array.ofFn vj) := by
      rw [h.hr]
      exact copyScaled_ofFn r _ row hrow2
    rw [hsc, hjm]
    simp only [Except.ok_bind']
    rw [rd_ok hrow1]
    simp only [Except.ok_bind']
    rw [hcopy]
    simp only [Except.ok_bind']
    rw [hV1]
    simp only [Except.ok_bind']
    rw [hw1]
    simp only [Except.ok_bind']
    rw [ha1]
    simp only [Except.ok_bind']
    rw [hA1]
    simp only [Except.ok_bind']
    rw [hr1]
    simp only [Except.ok_bind']
    rw [hs1]
    simp only [Except.ok_bind']
    rw [hre]
    simp only [Except.ok_bind']
    rw [hb1]
    simp only [Except.ok_bind']
    rw [hB1]
    simp only [Except.ok_bind']
  · have hunitAll : ∀ k < j + 1, |len (v' k) - 1| ≤ 2 * ε := by
      intro k hk
      by_cases hkj : k = j
      · rw [hkj, hvself]; exact hunit
      · rw [hvlt k (by omega)]; exact h.unit k (by omega)
    refine ⟨⟨by simp [hV', h.rows.1], ?_⟩, fun k hk => hVall k (by omega), rfl, ⟨by simp [h.ha.1], ?_⟩, ⟨by simp [h.hb.1], ?_⟩,
      by simp [h.hsize], ?_, by simp, ?_, hunitAll, ?_, ?_, ?_, ?_, ?_⟩
    · intro k hk
      by_cases hk2 : k = j
      · exact ⟨_, by rw [hk2]; exact hVself, by simp⟩
      · obtain ⟨row', g1, g2⟩ := h.rows.2 k hk
        exact ⟨row', by rw [← g1]; exact hVother k hk2, g2⟩
    · intro k hk
      rw [Array.getElem?_set]
      by_cases hkj : j = k
      · subst hkj; simp [haself]
      · rw [if_neg hkj, h.ha.2 k (by omega), halt k (by omega)]
    · intro k hk
      rw [Array.getElem?_set]
      by_cases hkj : j = k
      · subst hkj; simp [hbself]
      · rw [if_neg hkj, h.hb.2 k (by omega), hblt k (by omega)]
    · simp only [Nat.succ_ne_zero, if_false, Nat.add_sub_cancel]
      rw [hbself]
      exact hb2
    · intro _ i
      by_cases h0 : j = 0
      · have e0 := h.first h0
        have : v' 0 = vj := by rw [← hvself, h0]
        rw [this, ← e0]
        exact (hdir i).trans (mul_le_mul_of_nonneg_right hUnit' (abs_nonneg _))
      · rw [hvlt 0 (by omega)]
        exact h.start (by omega) i
    · intro k hk
      by_cases hkj : k = j
      · rw [hkj, hvself, haself]; exact ha2
      · rw [hvlt k (by omega), halt k (by omega)]; exact h.diagonal k (by omega)
    · intro hstop _
      simp only [Nat.add_sub_cancel]
      rw [hbself]
      simpa using hstop
    · intro hstop
      simp only [Nat.add_sub_cancel]
      rw [hbself]
      simpa using hstop
    · intro k hk
      rw [hblt k (by omega)]
      by_cases hkj : k + 1 = j
      · have := hcont (by omega)
        rwa [show j - 1 = k by omega] at this
      · exact h.cont k (by omega)
    · intro hgood
      have hf := h.facts fun k hk => by rw [← hblt k (by omega)]; exact hgood k (by omega)
      have hbj' : 0 < j → bj = b (j - 1) := fun h0 => by rw [hbj, if_neg (by omega)]
      obtain ⟨f1, f2, f3, f4⟩ := facts_vectors hs hdot.1 hA hf h.unit hunit
        (fun h0 => by rw [← hblt (j - 1) (by omega)]; exact hgood (j - 1) (by omega))
        (fun h0 => by rw [← hbj' h0]; exact h.norm) (fun h0 => by rw [← hbj' h0]; exact hbv) ha2
      rw [← hv'] at f1 f2 f3
      rw [← ha'] at f3 f4
      have hPv : ∀ i, 0 ≤ restAbs P a' b v' j i := fun i => (abs_nonneg _).trans (hs2 i).1
      obtain ⟨k1, k2, k3⟩ := facts_remainder hs hj hM hdot.1 hA f1 f2 f3 f4 hf.beta (by rw [hvself, haself]; exact ha2) (r2 := r2)
        fun i => (hs2 i).2.trans (mul_le_mul_of_nonneg_right hG3 (hPv i))
      have hk0 : 0 ≤ kappa m ε A η := (abs_nonneg _).trans (k3 j le_rfl)
      have hjr : ((j + 1 : ℕ) : ℝ) ≤ m := by exact_mod_cast hj
      have hη := hs.η_nonneg
      obtain ⟨r3', g1, g2⟩ := gs_window hp he hq hD hE hL hε heps0 heps hepsn (N := m) (last := j)
        (w := fun t => v' (j - t)) (r := r2) hsteps hwin hη hk0 k2
        (by have g := mul_le_mul_of_nonneg_right hjr hε0; have := hs.mε; linarith)
        (by have g := mul_le_mul_of_nonneg_right hjr hη; have := hs.mη; linarith)
        (by
          have g := mul_le_mul_of_nonneg_right hjr (mul_nonneg hε0 hApos.le)
          unfold kappa
          have := hs.mεA
          have := hs.E_le
          linarith)
        (fun t ht => (f1 (j - t) (by omega)).trans (by linarith))
        (fun t ht t' ht' hne => f2 (j - t) (by omega) (j - t') (by omega) (by omega))
        (fun t ht => k3 (j - t) (by omega))
      have e3 : r3 = r3' := ofFn_inj (hgs.symm.trans g1)
      rw [← e3] at g2
      exact facts_reorthogonalized hs hj hdot.1 hA f1 f2 f3 f4 hf.beta k1 g2 hb2

end

end Imate.Rounded
