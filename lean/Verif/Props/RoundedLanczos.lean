import Mathlib.LinearAlgebra.Matrix.Notation
import Verif.Lemmas.RoundedLanczos
import Verif.Props.RoundedPlus

/-!
# C75: the Lanczos iteration in floating-point arithmetic
-/

namespace Imate.Props

open Matrix Spec Rounded

private theorem unit_nonneg3 (p : ℕ) : 0 ≤ unitRoundoff p := by unfold unitRoundoff; positivity

/-- Factor of the errors of a norm of `n` elements. -/
noncomputable def normFactor (p q n : ℕ) : ℝ := (1 + unitRoundoff p) ^ 7 * (1 + unitRoundoff q) ^ n

/-- Factor of the errors of a multiplication with a rounded reciprocal. -/
noncomputable def scaleFactor (p e : ℕ) : ℝ := (1 + unitRoundoff e) * (1 + unitRoundoff p) ^ 2

section

variable {p e q n : ℕ} {flD flE flL : ℝ → ℝ}

theorem norm_len (hp : 1 ≤ p) (hq : 1 ≤ q) (hD : Nearest p flD) (hL : Nearest q flL) (hg : normFactor p q n < 2)
    (x : Fin n → ℝ) :
    ∃ b, Rounded.euclideanNorm flD flL (Array.ofFn x) n = .ok b ∧ |b - len x| ≤ (normFactor p q n - 1) * len x := by
  refine norm_accurate hp hq hD hL x (le_trans ?_ hg.le)
  have := unit_nonneg3 p
  have := unit_nonneg3 q
  exact mul_le_mul_of_nonneg_right (pow_le_pow_right₀ (by linarith) (by norm_num)) (by positivity)

private theorem body_inv (hp : 1 ≤ p) (he : 1 ≤ e) (hq : 1 ≤ q) (hD : Nearest p flD) (hE : Nearest e flE)
    (hL : Nearest q flL) (hg : normFactor p q n < 2) {M P : Matrix (Fin n) (Fin n) ℝ} {eDot : ℝ} (heD : 0 ≤ eDot)
    {dot : Array ℝ → Array ℝ → Except Fault (Array ℝ)} (hdot : AccurateDot dot M P eDot) {z : Fin n → ℝ} {m : ℕ}
    {tol b0 : ℝ} {j : ℕ} (hj : j < m) {s : LanczosState} {v : ℕ → Fin n → ℝ} {r : Fin n → ℝ} {a b : ℕ → ℝ}
    (h : LInv M P z m (normFactor p q n) (scaleFactor p e / (2 - normFactor p q n) - 1)
      ((1 + eDot) * ((1 + unitRoundoff p) ^ 6 * (1 + unitRoundoff q) ^ n) - 1)
      ((1 + eDot) * (1 + unitRoundoff p) ^ 3 * scaleFactor p e - 1) ((1 + eDot) * (1 + unitRoundoff p) ^ 3) b0
      (flE (tol * flE (Real.sqrt n))) j s v r a b) (hne : (if j = 0 then b0 else b (j - 1)) ≠ 0) :
    ∃ s' v' r' a' b', Rounded.lanczosBody flD flE flL dot n tol b0 j s = .ok s' ∧
      LInv M P z m (normFactor p q n) (scaleFactor p e / (2 - normFactor p q n) - 1)
      ((1 + eDot) * ((1 + unitRoundoff p) ^ 6 * (1 + unitRoundoff q) ^ n) - 1)
      ((1 + eDot) * (1 + unitRoundoff p) ^ 3 * scaleFactor p e - 1) ((1 + eDot) * (1 + unitRoundoff p) ^ 3) b0
      (flE (tol * flE (Real.sqrt n))) (j + 1) s' v' r' a' b' := by
  have hu := unit_nonneg3 p
  have hue := unit_nonneg3 e
  have hU := unit_nonneg3 q
  have relD := nearest_rel hp hD
  have relE := nearest_rel he hE
  have relL := nearest_rel hq hL
  set u := unitRoundoff p with hu_def
  have hG1 : 1 ≤ normFactor p q n := one_le_G hu hU 7 n
  have hH1 : 1 ≤ scaleFactor p e := one_le_mul_of_one_le_of_one_le (by linarith) (one_le_pow₀ (by linarith))
  set bj := (if j = 0 then b0 else b (j - 1)) with hbj
  -- the vector
  set vj : Fin n → ℝ := fun i => times flD (flD (flE (1 / bj))) (r i) with hvj
  have hscale : ∀ i, Approx (scaleFactor p e) (r i / bj) |r i / bj| (vj i) := fun i =>
    scaled_approx hu hue relD relE bj (r i)
  have hrpos : 0 < len r := by
    rcases (len_nonneg r).eq_or_lt with h0 | h0
    · have := h.norm
      rw [← h0, mul_zero, sub_zero] at this
      exact absurd (abs_nonpos_iff.1 this) hne
    · exact h0
  obtain ⟨hunit, hdir⟩ := unit_near hG1 hg hH1 h.norm hrpos hscale
  -- the product
  have hrsize : s.r.size = n := by rw [h.hr]; simp
  obtain ⟨w, hw1, hw2⟩ := hdot.2 vj s.r hrsize
  have hw : ∀ i, Approx (1 + eDot) ((M *ᵥ vj) i) ((P *ᵥ fun l => |vj l|) i) (w i) := by
    intro i
    refine ⟨?_, by rw [add_sub_cancel_left]; exact hw2 i⟩
    refine (Finset.abs_sum_le_sum_abs (fun l => M i l * vj l) Finset.univ).trans (Finset.sum_le_sum fun l _ => ?_)
    rw [abs_mul]
    exact mul_le_mul_of_nonneg_right (hdot.1 i l) (abs_nonneg _)
  -- the inner product
  obtain ⟨al, ha1, ha2⟩ : ∃ al, Rounded.innerProduct flD flL (Array.ofFn vj) (Array.ofFn w) n = .ok al ∧
      |al - vj ⬝ᵥ (M *ᵥ vj)| ≤ ((1 + eDot) * ((1 + u) ^ 6 * (1 + unitRoundoff q) ^ n) - 1) *
        ∑ i, |vj i| * (P *ᵥ fun l => |vj l|) i := by
    obtain ⟨al, h1, h2⟩ := inner_product_accurate hp hq hD hL vj w
    refine ⟨al, h1, ?_⟩
    have h3 : Approx ((1 + u) ^ 6 * (1 + unitRoundoff q) ^ n) (vj ⬝ᵥ w) (∑ i, |vj i| * |w i|) al := by
      refine ⟨?_, h2⟩
      refine (Finset.abs_sum_le_sum_abs (fun i => vj i * w i) Finset.univ).trans (Finset.sum_le_sum fun i _ => ?_)
      rw [abs_mul]
    have h4 : Approx (1 + eDot) (vj ⬝ᵥ (M *ᵥ vj)) (∑ i, |vj i| * (P *ᵥ fun l => |vj l|) i) (vj ⬝ᵥ w) :=
      Approx.sum Finset.univ fun i _ => (hw i).smul (vj i)
    have h5 : ∑ i, |vj i| * |w i| ≤ (1 + eDot) * ∑ i, |vj i| * (P *ᵥ fun l => |vj l|) i := by
      rw [Finset.mul_sum]
      refine Finset.sum_le_sum fun i _ => ?_
      have := mul_le_mul_of_nonneg_left (hw i).abs_le (abs_nonneg (vj i))
      linarith
    have h6 := (h3.trans (one_le_G hu hU 6 n) h4 h5).2
    rwa [mul_comm ((1 + u) ^ 6 * (1 + unitRoundoff q) ^ n)] at h6
  -- the subtractions
  have hw' : ∀ i, Approx ((1 + eDot) * (1 + u)) ((M *ᵥ vj) i) ((P *ᵥ fun l => |vj l|) i) (w i) := fun i =>
    (hw i).weaken (le_mul_of_one_le_right (by linarith) (by linarith))
  have hle1 : 1 + u ≤ (1 + eDot) * (1 + u) := le_mul_of_one_le_left (by linarith) (by linarith)
  obtain ⟨r1, hr1, hr2⟩ := subtractScaled_approx hu relD hle1 vj al hw'
  have hle2 : 1 + u ≤ (1 + eDot) * (1 + u) * (1 + u) := hle1.trans
    (le_mul_of_one_le_right (mul_nonneg (by linarith) (by linarith)) (by linarith))
  set v' := Function.update v j vj with hv'
  set a' := Function.update a j al with ha'
  have hvlt : ∀ k < j, v' k = v k := fun k hk => Function.update_of_ne (by omega) _ _
  have halt : ∀ k < j, a' k = a k := fun k hk => Function.update_of_ne (by omega) _ _
  have hvself : v' j = vj := Function.update_self _ _ _
  have haself : a' j = al := Function.update_self _ _ _
  obtain ⟨row, hrow1, hrow2⟩ := h.rows.2 (j % 2) (Nat.mod_lt _ (by norm_num))
  have hV1 : wr s.V (j % 2) (Array.ofFn vj) = .ok (s.V.set (j % 2) (Array.ofFn vj)
      (by rw [h.rows.1]; exact Nat.mod_lt _ (by norm_num))) := wr_ok _ _
  set V' := s.V.set (j % 2) (Array.ofFn vj) (by rw [h.rows.1]; exact Nat.mod_lt _ (by norm_num)) with hV'
  have hVself : V'[j % 2]? = some (Array.ofFn vj) := by simp [hV']
  have hVother : ∀ k, k ≠ j % 2 → V'[k]? = s.V[k]? := by
    intro k hk
    rw [hV', Array.getElem?_set]
    simp [Ne.symm hk]
  obtain ⟨r2, hs1, hs2⟩ : ∃ r2 : Fin n → ℝ,
      Rounded.subtractPrevious flD n j V' s.beta (Array.ofFn r1) = .ok (Array.ofFn r2) ∧
      ∀ i, Approx ((1 + eDot) * (1 + u) ^ 3) (rest M a' b v' j i) (restAbs P a' b v' j i) (r2 i) := by
    unfold Rounded.subtractPrevious
    by_cases h0 : j = 0
    · refine ⟨r1, by rw [if_neg (by omega)], fun i => ?_⟩
      unfold rest restAbs
      rw [hvself, haself, if_pos h0, if_pos h0, sub_zero, add_zero]
      refine (hr2 i).weaken ?_
      rw [mul_assoc, ← pow_two]
      exact mul_le_mul_of_nonneg_left (pow_le_pow_right₀ (by linarith) (by norm_num)) (by linarith)
    · rw [if_pos (by omega)]
      have hprev : V'[(j - 1) % 2]? = some (Array.ofFn (v (j - 1))) := by
        rw [hVother _ (by omega)]
        exact h.prev (by omega)
      rw [rd_ok hprev, rd_ok (h.hb.2 (j - 1) (by omega))]
      simp only [Except.ok_bind']
      obtain ⟨r2, g1, g2⟩ := subtractScaled_approx hu relD hle2 (v (j - 1)) (b (j - 1)) hr2
      refine ⟨r2, g1, fun i => ?_⟩
      unfold rest restAbs
      rw [hvself, haself, if_neg h0, if_neg h0, hvlt (j - 1) (by omega)]
      have := g2 i
      rwa [show (1 + eDot) * (1 + u) * (1 + u) * (1 + u) = (1 + eDot) * (1 + u) ^ 3 by ring] at this
  obtain ⟨bn, hb1, hb2⟩ := norm_len hp hq hD hL hg r2
  set b' := Function.update b j bn with hb'
  have hblt : ∀ k < j, b' k = b k := fun k hk => Function.update_of_ne (by omega) _ _
  have hbself : b' j = bn := Function.update_self _ _ _
  have hA1 : wr s.alpha j al = .ok (s.alpha.set j al (by rw [h.ha.1]; exact hj)) := wr_ok _ _
  have hB1 : wr s.beta j bn = .ok (s.beta.set j bn (by rw [h.hb.1]; exact hj)) := wr_ok _ _
  have hsc : lanczosScale flD flE b0 j s.beta = .ok (flD (flE (1 / bj))) := by
    unfold lanczosScale
    by_cases h0 : j = 0
    · have e1 : bj = b0 := by rw [hbj, if_pos h0]
      rw [if_pos h0, e1]
      rw [e1] at hne
      unfold reciprocal
      rw [if_neg hne]
    · have e1 : bj = b (j - 1) := by rw [hbj, if_neg h0]
      rw [if_neg h0, rd_ok (h.hb.2 (j - 1) (by omega)), e1]
      rw [e1] at hne
      simp only [Except.ok_bind']
      unfold reciprocal
      rw [if_neg hne]
  refine ⟨⟨V', Array.ofFn r2, s.alpha.set j al (by rw [h.ha.1]; exact hj), s.beta.set j bn (by rw [h.hb.1]; exact hj),
    s.size + 1, decide (bn < flE (tol * flE (Real.sqrt n)))⟩, v', r2, a', b', ?_, ?_⟩
  · unfold Rounded.lanczosBody
    have hcopy : copyScaledVector flD s.r n (flD (flE (1 / bj))) row = .ok (Array.ofFn vj) := by
      rw [h.hr]
      exact copyScaled_ofFn r _ row hrow2
    rw [hsc]
    simp only [Except.ok_bind']
    rw [rd_ok hrow1]
    simp only [Except.ok_bind']
    rw [hcopy]
    simp only [Except.ok_bind']
    rw [hV1]
    simp only [Except.ok_bind']
    rw [hw1]
    simp only [Except.ok_bind']
    rw [ha1]
    simp only [Except.ok_bind']
    rw [hA1]
    simp only [Except.ok_bind']
    rw [hr1]
    simp only [Except.ok_bind']
    rw [hs1]
    simp only [Except.ok_bind']
    rw [hb1]
    simp only [Except.ok_bind']
    rw [hB1]
    simp only [Except.ok_bind']
  · have hrest : rest M a' b' v' j = rest M a' b v' j := rest_congr rfl hblt fun _ _ => rfl
    have hrestA : restAbs P a' b' v' j = restAbs P a' b v' j := restAbs_congr rfl hblt fun _ _ => rfl
    have hrestk : ∀ k < j, rest M a' b' v' k = rest M a b v k := fun k hk =>
      rest_congr (halt k hk) (fun i hi => hblt i (by omega)) fun i hi => hvlt i (by omega)
    have hrestAk : ∀ k < j, restAbs P a' b' v' k = restAbs P a b v k := fun k hk =>
      restAbs_congr (halt k hk) (fun i hi => hblt i (by omega)) fun i hi => hvlt i (by omega)
    refine ⟨⟨by simp [hV', h.rows.1], ?_⟩, ?_, rfl, ⟨by simp [h.ha.1], ?_⟩, ⟨by simp [h.hb.1], ?_⟩, by simp [h.hsize], ?_,
      by simp, ?_, ?_, ?_, ?_, ?_, ?_, ?_⟩
    · intro k hk
      by_cases hk2 : k = j % 2
      · exact ⟨_, by rw [hk2]; exact hVself, by simp⟩
      · obtain ⟨row', g1, g2⟩ := h.rows.2 k hk
        exact ⟨row', by rw [← g1]; exact hVother k hk2, g2⟩
    · intro _
      simp only [Nat.add_sub_cancel]
      rw [hvself]
      exact hVself
    · intro k hk
      rw [Array.getElem?_set]
      by_cases hkj : j = k
      · subst hkj; simp [haself]
      · rw [if_neg hkj, h.ha.2 k (by omega), halt k (by omega)]
    · intro k hk
      rw [Array.getElem?_set]
      by_cases hkj : j = k
      · subst hkj; simp [hbself]
      · rw [if_neg hkj, h.hb.2 k (by omega), hblt k (by omega)]
    · simp only [Nat.succ_ne_zero, if_false, Nat.add_sub_cancel]
      rw [hbself]
      exact hb2
    · intro _ i
      simp only [Nat.add_sub_cancel]
      rw [hrest, hrestA]
      exact hs2 i
    · intro _ i
      by_cases h0 : j = 0
      · have e0 := h.first h0
        have : v' 0 = vj := by rw [← hvself, h0]
        rw [this, ← e0]
        exact hdir i
      · rw [hvlt 0 (by omega)]
        exact h.start (by omega) i
    · intro k hk
      by_cases hkj : k = j
      · rw [hkj, hvself]; exact hunit
      · rw [hvlt k (by omega)]; exact h.unit k (by omega)
    · intro k hk
      by_cases hkj : k = j
      · rw [hkj, hvself, haself]; exact ha2
      · rw [hvlt k (by omega), halt k (by omega)]; exact h.diagonal k (by omega)
    · intro k hk i
      by_cases hkj : k + 1 = j
      · have hj0 : j ≠ 0 := by omega
        have e1 : bj = b k := by rw [hbj, if_neg hj0, ← hkj]; rfl
        have hne' : b k ≠ 0 := by rw [← e1]; exact hne
        rw [hkj, hvself, hblt k (by omega), hrestk k (by omega), hrestAk k (by omega)]
        have g1 := (hscale i).smul (b k)
        rw [e1] at g1
        have e2 : b k * (r i / b k) = r i := by field_simp
        have e3 : |b k| * |r i / b k| = |r i| := by rw [← abs_mul, e2]
        rw [e2, e3] at g1
        have g2 := h.near (by omega) i
        rw [show j - 1 = k by omega] at g2
        have g3 := (g1.trans hH1 g2 g2.abs_le).2
        rwa [mul_comm (scaleFactor p e)] at g3
      · rw [hvlt (k + 1) (by omega), hblt k (by omega), hrestk k (by omega), hrestAk k (by omega)]
        exact h.recurrence k (by omega) i
    · intro hstop _
      simp only [Nat.add_sub_cancel]
      rw [hbself]
      simpa using hstop
    · intro hstop
      simp only [Nat.add_sub_cancel]
      rw [hbself]
      simpa using hstop

/-- C75: in every precision and for every rounding to nearest, the iteration without reorthogonalization does not fail, and
its coefficients come from vectors that satisfy the recurrence of Lanczos up to rounding errors, however much orthogonality is
lost.  It ends early only when `beta` is below the tolerance. -/
theorem rounded_lanczos (hp : 1 ≤ p) (he : 1 ≤ e) (hq : 1 ≤ q) (hD : Nearest p flD) (hE : Nearest e flE)
    (hL : Nearest q flL) (hg : normFactor p q n < 2) {M P : Matrix (Fin n) (Fin n) ℝ} {eDot : ℝ} (heD : 0 ≤ eDot)
    {dot : Array ℝ → Array ℝ → Except Fault (Array ℝ)} (hdot : AccurateDot dot M P eDot) {z : Fin n → ℝ} (hz : z ≠ 0)
    {m : ℕ} (hm : 0 < m) {tol : ℝ} (htol : 0 < tol) {V0 : Array (Array ℝ)} (hV : V0.size = 2)
    (hV' : ∀ row ∈ V0, row.size = n) {r0 alpha beta : Array ℝ} (hr0 : r0.size = n) (ha : alpha.size = m)
    (hb : beta.size = m) :
    ∃ size alpha' beta' v, Rounded.lanczos flD flE flL dot n (Array.ofFn z) m tol V0 r0 alpha beta =
        .ok (size, alpha', beta') ∧
      0 < size ∧ size ≤ m ∧ alpha'.size = m ∧ beta'.size = m ∧
      (size < m → beta'.getD (size - 1) 0 < flE (tol * flE (Real.sqrt n))) ∧
      NearlyLanczos M P z size (fun k => alpha'.getD k 0) (fun k => beta'.getD k 0)
        (scaleFactor p e / (2 - normFactor p q n) - 1)
        ((1 + eDot) * ((1 + unitRoundoff p) ^ 6 * (1 + unitRoundoff q) ^ n) - 1)
        ((1 + eDot) * (1 + unitRoundoff p) ^ 3 * scaleFactor p e - 1) (normFactor p q n - 1) v := by
  have hu := unit_nonneg3 p
  have hue := unit_nonneg3 e
  have hU := unit_nonneg3 q
  have hH1 : 1 ≤ scaleFactor p e := one_le_mul_of_one_le_of_one_le (by linarith) (one_le_pow₀ (by linarith))
  obtain ⟨b0, h1, h2⟩ := norm_len hp hq hD hL hg z
  have hb0 : b0 ≠ 0 := by
    intro h0
    rw [h0, zero_sub, abs_neg, abs_of_nonneg (len_nonneg z)] at h2
    have := len_pos hz
    nlinarith
  have hn : 0 < n := by
    rcases Nat.eq_zero_or_pos n with h0 | h0
    · subst h0
      exact absurd (funext fun i => i.elim0) hz
    · exact h0
  have hpos : ∀ x, 0 < x → 0 < flE x := by
    intro x hx
    have h3 := nearest_rel he hE x
    rw [abs_of_pos hx] at h3
    have h4 := (abs_le.1 h3).1
    have h5 : (2 : ℝ) ^ (-(e : ℤ)) ≤ 1 / 2 := by
      rw [zpow_neg, zpow_natCast, one_div]
      apply inv_anti₀ (by norm_num)
      exact le_self_pow₀ (by norm_num) (by omega)
    nlinarith
  have hthr : 0 < flE (tol * flE (Real.sqrt n)) :=
    hpos _ (mul_pos htol (hpos _ (Real.sqrt_pos.2 (by exact_mod_cast hn))))
  unfold Rounded.lanczos
  rw [copyVector_ofFn z r0 hr0]
  simp only [Except.ok_bind']
  rw [h1]
  simp only [Except.ok_bind']
  have hbase : LInv M P z m (normFactor p q n) (scaleFactor p e / (2 - normFactor p q n) - 1)
      ((1 + eDot) * ((1 + unitRoundoff p) ^ 6 * (1 + unitRoundoff q) ^ n) - 1)
      ((1 + eDot) * (1 + unitRoundoff p) ^ 3 * scaleFactor p e - 1) ((1 + eDot) * (1 + unitRoundoff p) ^ 3) b0
      (flE (tol * flE (Real.sqrt n))) 0 ⟨V0, Array.ofFn z, alpha, beta, 0, false⟩ (fun _ => z) z (fun _ => 0)
      (fun _ => 0) := by
    refine ⟨⟨hV, fun k hk => ⟨V0[k]'(by omega), Array.getElem?_eq_getElem (show k < V0.size by omega), hV' _ (Array.getElem_mem _)⟩⟩,
      by simp, rfl, ⟨ha, by simp⟩, ⟨hb, by simp⟩, rfl, by simpa using h2, fun _ => rfl, by simp, by simp, by simp, by simp,
      by simp, by simp, by simp⟩
  obtain ⟨s, h3, h4⟩ := forRange_inv (body := fun j s =>
      if s.stop then .ok s else Rounded.lanczosBody flD flE flL dot n tol b0 j s)
    (fun j s => (s.stop = false → s.size = j) ∧ s.size ≤ j ∧ (0 < j → 0 < s.size) ∧ (j = 0 → s.stop = false) ∧ ∃ v r a b,
      LInv M P z m (normFactor p q n) (scaleFactor p e / (2 - normFactor p q n) - 1)
      ((1 + eDot) * ((1 + unitRoundoff p) ^ 6 * (1 + unitRoundoff q) ^ n) - 1)
      ((1 + eDot) * (1 + unitRoundoff p) ^ 3 * scaleFactor p e - 1) ((1 + eDot) * (1 + unitRoundoff p) ^ 3) b0
      (flE (tol * flE (Real.sqrt n))) s.size s v r a b) (Nat.zero_le m)
    (⟨V0, Array.ofFn z, alpha, beta, 0, false⟩ : LanczosState)
    ⟨fun _ => rfl, le_rfl, by simp, fun _ => rfl, _, _, _, _, hbase⟩ (by
      rintro j _ hj s ⟨g1, g2, g3, g5, v, r, a, b, g4⟩
      by_cases hs : s.stop = true
      · refine ⟨s, by simp [hs], by simp [hs], by omega, fun _ => ?_, by omega, v, r, a, b, g4⟩
        rcases Nat.eq_zero_or_pos s.size with h0 | h0
        · exfalso
          rcases Nat.eq_zero_or_pos j with hj0 | hj0
          · exact absurd hs (by rw [g5 hj0]; simp)
          · have := g3 hj0; omega
        · exact h0
      · have hs' : s.stop = false := by simpa using hs
        have e1 := g1 hs'
        rw [e1] at g4
        have hne : (if j = 0 then b0 else b (j - 1)) ≠ 0 := by
          by_cases h0 : j = 0
          · rw [if_pos h0]; exact hb0
          · rw [if_neg h0]
            have := g4.go hs' (by omega)
            exact ne_of_gt (lt_of_lt_of_le hthr this)
        obtain ⟨s', v', r', a', b', k1, k2⟩ := body_inv hp he hq hD hE hL hg heD hdot hj g4 hne
        refine ⟨s', by simp [hs', k1], ?_⟩
        have e2 := k2.hsize
        refine ⟨fun _ => e2, by omega, fun _ => by omega, by omega, v', r', a', b', ?_⟩
        rw [e2]
        exact k2)
  obtain ⟨g1, g2, g3, -, v, r, a, b, g4⟩ := h4
  rw [h3]
  have hsz := g3 hm
  have hga : ∀ k < s.size, s.alpha.getD k 0 = a k := fun k hk => by
    rw [Array.getD_eq_getD_getElem?, g4.ha.2 k hk]; rfl
  have hgb : ∀ k < s.size, s.beta.getD k 0 = b k := fun k hk => by
    rw [Array.getD_eq_getD_getElem?, g4.hb.2 k hk]; rfl
  refine ⟨s.size, s.alpha, s.beta, v, rfl, hsz, g2, g4.ha.1, g4.hb.1, fun hlt => ?_, ?_⟩
  · have : s.stop = true := by
      by_contra hc
      have := g1 (by simpa using hc)
      omega
    rw [hgb _ (by omega)]
    exact g4.stopped this
  · have c1 : ∀ k < s.size, rest M (fun k => s.alpha.getD k 0) (fun k => s.beta.getD k 0) v k = rest M a b v k :=
      fun k hk => rest_congr (hga k hk) (fun i hi => hgb i (by omega)) fun _ _ => rfl
    have c2 : ∀ k < s.size, restAbs P (fun k => s.alpha.getD k 0) (fun k => s.beta.getD k 0) v k = restAbs P a b v k :=
      fun k hk => restAbs_congr (hga k hk) (fun i hi => hgb i (by omega)) fun _ _ => rfl
    refine ⟨g4.start hsz, g4.unit, fun k hk => ?_, fun k hk i => ?_, r, fun i => ?_, ?_⟩
    · rw [hga k hk]; exact g4.diagonal k hk
    · rw [hgb k (by omega), c1 k (by omega), c2 k (by omega)]
      exact g4.recurrence k hk i
    · rw [c1 _ (by omega), c2 _ (by omega)]
      refine ((g4.near hsz i).weaken ?_).2
      exact le_mul_of_one_le_right (mul_nonneg (by linarith) (by positivity)) hH1
    · rw [hgb _ (by omega)]
      have := g4.norm
      rwa [if_neg (by omega)] at this

/-! ## Operators -/

/-- Dense matrices in either layout. -/
theorem dense_accurate_dot (hp : 1 ≤ p) (hq : 1 ≤ q) (hD : Nearest p flD) (hL : Nearest q flL) {A : Array ℝ}
    {M : Matrix (Fin n) (Fin n) ℝ} {rowMajor : Bool} (h : DenseRepr rowMajor A M) :
    AccurateDot (fun x c => Rounded.denseMatvec flD flL A x n n rowMajor c) M (fun i j => |M i j|)
      ((1 + unitRoundoff p) ^ 6 * (1 + unitRoundoff q) ^ n - 1) :=
  ⟨fun _ _ => le_rfl, fun x c hc => dense_matvec_accurate hp hq hD hL h x c hc⟩

/-- CSR matrices with at most `w` entries in a row. -/
theorem csr_accurate_dot (hp : 1 ≤ p) (hq : 1 ≤ q) (hD : Nearest p flD) (hL : Nearest q flL) {data : Array ℝ}
    {indices ptr : Array ℕ} {M P : Matrix (Fin n) (Fin n) ℝ} (h : CSRRepr data indices ptr M)
    (hP : CSRRepr (data.map abs) indices ptr P) {w : ℕ} (hw : ∀ i < n, ptr.getD (i + 1) 0 - ptr.getD i 0 ≤ w) :
    AccurateDot (fun x c => Rounded.csrMatvec flD flL data indices ptr x n c) M P
      ((1 + unitRoundoff p) ^ 2 * (1 + unitRoundoff q) ^ w - 1) := by
  have hu := unit_nonneg3 p
  have hU := unit_nonneg3 q
  refine ⟨fun i j => csr_abs_le h hP i j, fun x c hc => ?_⟩
  obtain ⟨r, h1, h2⟩ := csr_matvec_accurate hp hq hD hL h hP x c hc
  refine ⟨r, h1, fun i => (h2 i).trans ?_⟩
  refine mul_le_mul_of_nonneg_right ?_ ((abs_nonneg _).trans (csr_approx h hP x i))
  have := pow_le_pow_right₀ (by linarith : 1 ≤ 1 + unitRoundoff q) (hw i.1 i.2)
  have := mul_le_mul_of_nonneg_left this (by positivity : 0 ≤ (1 + unitRoundoff p) ^ 2)
  linarith

/-- CSC matrices with at most `w` stored entries in a row: their kernel adds in the precision of the data. -/
theorem csc_accurate_dot (hp : 1 ≤ p) (hD : Nearest p flD) {data : Array ℝ}
    {indices ptr : Array ℕ} {M P : Matrix (Fin n) (Fin n) ℝ} (h : CSCRepr data indices ptr M)
    (hP : CSCRepr (data.map abs) indices ptr P) {w : ℕ}
    (hw : ∀ i < n, ((Finset.range indices.size).filter fun k => indices[k]? = some i).card ≤ w) :
    AccurateDot (fun x c => Rounded.cscMatvec flD data indices ptr x n n c) M P ((1 + unitRoundoff p) ^ (w + 1) - 1) := by
  have hu := unit_nonneg3 p
  have hle : ∀ i j, |M i j| ≤ P i j := fun i j => csr_abs_le (M := Mᵀ) (P := Pᵀ) h hP j i
  refine ⟨hle, fun x c hc => ?_⟩
  obtain ⟨r, h1, h2⟩ := csc_matvec_accurate_partial hp hD h hP x c hc
  refine ⟨r, h1, fun i => (h2 i).trans ?_⟩
  refine mul_le_mul_of_nonneg_right ?_ (Finset.sum_nonneg fun j _ => mul_nonneg ((abs_nonneg _).trans (hle i j)) (abs_nonneg _))
  have := pow_le_pow_right₀ (by linarith : 1 ≤ 1 + unitRoundoff p) (Nat.succ_le_succ (hw i.1 i.2))
  simp only [Nat.succ_eq_add_one] at this
  linarith

/-- The dense operator `A + t B`. -/
theorem affine_accurate_dot (hp : 1 ≤ p) (hq : 1 ≤ q) (hD : Nearest p flD) (hL : Nearest q flL) {A B : Array ℝ}
    {M N : Matrix (Fin n) (Fin n) ℝ} {rowMajorA rowMajorB : Bool} (hA : DenseRepr rowMajorA A M)
    (hB : DenseRepr rowMajorB B N) (t : ℝ) :
    AccurateDot (fun x c => Rounded.denseAffineDot flD flL A rowMajorA (some (B, rowMajorB)) t n n x c) (M + t • N)
      (fun i j => |M i j| + |t| * |N i j|) ((1 + unitRoundoff p) ^ 8 * (1 + unitRoundoff q) ^ n - 1) := by
  refine ⟨fun i j => ?_, fun x c hc => dense_affine_accurate hp hq hD hL hA hB t x c hc⟩
  show |M i j + t * N i j| ≤ |M i j| + |t| * |N i j|
  rw [← abs_mul]
  exact abs_add_le _ _

/-- The CSR operator `A + t B` with at most `w` entries in a row of either. -/
theorem csr_affine_accurate_dot (hp : 1 ≤ p) (hq : 1 ≤ q) (hD : Nearest p flD) (hL : Nearest q flL)
    {dataA dataB : Array ℝ} {indicesA ptrA indicesB ptrB : Array ℕ} {M P N Q : Matrix (Fin n) (Fin n) ℝ}
    (hA : CSRRepr dataA indicesA ptrA M) (hPA : CSRRepr (dataA.map abs) indicesA ptrA P)
    (hB : CSRRepr dataB indicesB ptrB N) (hPB : CSRRepr (dataB.map abs) indicesB ptrB Q) (t : ℝ) {w : ℕ}
    (hw : ∀ i < n, max (ptrA.getD (i + 1) 0 - ptrA.getD i 0) (ptrB.getD (i + 1) 0 - ptrB.getD i 0) ≤ w) :
    AccurateDot (fun x c => Rounded.csrAffineDot flD flL (dataA, indicesA, ptrA) (some (dataB, indicesB, ptrB)) t n n x c)
      (M + t • N) (fun i j => P i j + |t| * Q i j) ((1 + unitRoundoff p) ^ 4 * (1 + unitRoundoff q) ^ w - 1) := by
  have hu := unit_nonneg3 p
  have hU := unit_nonneg3 q
  have hle : ∀ i j, |M i j + t * N i j| ≤ P i j + |t| * Q i j := fun i j => by
    refine (abs_add_le _ _).trans (add_le_add (csr_abs_le hA hPA i j) ?_)
    rw [abs_mul]
    exact mul_le_mul_of_nonneg_left (csr_abs_le hB hPB i j) (abs_nonneg _)
  refine ⟨hle, fun x c hc => ?_⟩
  obtain ⟨r, h1, h2⟩ := csr_affine_accurate hp hq hD hL hA hPA hB hPB t x c hc
  refine ⟨r, h1, fun i => (h2 i).trans ?_⟩
  refine mul_le_mul_of_nonneg_right ?_ (Finset.sum_nonneg fun j _ => mul_nonneg ((abs_nonneg _).trans (hle i j)) (abs_nonneg _))
  have := pow_le_pow_right₀ (by linarith : 1 ≤ 1 + unitRoundoff q) (hw i.1 i.2)
  have := mul_le_mul_of_nonneg_left this (by positivity : 0 ≤ (1 + unitRoundoff p) ^ 4)
  linarith

end

/-! ## Numbers -/

theorem small_power {n : ℕ} (hn : n ≤ 2 ^ 31) : (1 + unitRoundoff 64) ^ n ≤ 1 + 1 / 4294967296 := by
  have u2 : unitRoundoff 64 = 1 / 18446744073709551616 := by unfold unitRoundoff; norm_num
  have hnr : (n : ℝ) ≤ 2147483648 := by exact_mod_cast hn
  have h := pow_small (unit_nonneg3 64) n (by rw [u2]; linarith)
  refine h.trans ?_
  rw [u2]
  linarith

/-- C75 in single precision: `float` data, divisions in `double`, x87 `long double`, dense matrices with up to `2^31` rows:
all errors are at most `13 * 2^(-24)`, whatever the size of the matrix and the number of steps. -/
theorem rounded_lanczos_single {n : ℕ} (hn : n ≤ 2 ^ 31) {flD flE flL : ℝ → ℝ} (hD : Nearest 24 flD)
    (hE : Nearest 53 flE) (hL : Nearest 64 flL) {A : Array ℝ} {M : Matrix (Fin n) (Fin n) ℝ} {rowMajor : Bool}
    (h : DenseRepr rowMajor A M) {z : Fin n → ℝ} (hz : z ≠ 0) {m : ℕ} (hm : 0 < m) {tol : ℝ} (htol : 0 < tol)
    {V0 : Array (Array ℝ)} (hV : V0.size = 2) (hV' : ∀ row ∈ V0, row.size = n) {r0 alpha beta : Array ℝ}
    (hr0 : r0.size = n) (ha : alpha.size = m) (hb : beta.size = m) :
    ∃ size alpha' beta' v, Rounded.lanczos flD flE flL (fun x c => Rounded.denseMatvec flD flL A x n n rowMajor c) n
        (Array.ofFn z) m tol V0 r0 alpha beta = .ok (size, alpha', beta') ∧ 0 < size ∧ size ≤ m ∧
      NearlyLanczos M (fun i j => |M i j|) z size (fun k => alpha'.getD k 0) (fun k => beta'.getD k 0)
        (13 / 2 ^ 24) (13 / 2 ^ 24) (13 / 2 ^ 24) (13 / 2 ^ 24) v := by
  have u1 : unitRoundoff 24 = 1 / 16777216 := by unfold unitRoundoff; norm_num
  have u3 : unitRoundoff 53 = 1 / 9007199254740992 := by unfold unitRoundoff; norm_num
  have hX := small_power hn
  have hX1 : 1 ≤ (1 + unitRoundoff 64) ^ n := one_le_pow₀ (by linarith [unit_nonneg3 64])
  have hG : normFactor 24 64 n ≤ 1 + 8 / 16777216 := by
    unfold normFactor
    rw [u1]
    generalize (1 + unitRoundoff 64) ^ n = X at hX hX1
    have h1 : (1 + 1 / 16777216 : ℝ) ^ 7 * X ≤ (1 + 1 / 16777216 : ℝ) ^ 7 * (1 + 1 / 4294967296) :=
      mul_le_mul_of_nonneg_left hX (by positivity)
    refine h1.trans ?_
    norm_num
  have hG1 : 1 ≤ normFactor 24 64 n := one_le_G (unit_nonneg3 24) (unit_nonneg3 64) 7 n
  have hdot := dense_accurate_dot (by norm_num) (by norm_num) hD hL h
  have heD : 0 ≤ (1 + unitRoundoff 24) ^ 6 * (1 + unitRoundoff 64) ^ n - 1 := by
    linarith [one_le_G (unit_nonneg3 24) (unit_nonneg3 64) 6 n]
  obtain ⟨size, alpha', beta', v, g1, g2, g3, -, -, -, g4⟩ := rounded_lanczos (by norm_num) (by norm_num) (by norm_num) hD hE hL
    (by linarith) heD hdot hz hm htol hV hV' hr0 ha hb
  have hH : scaleFactor 24 53 = (1 + 1 / 9007199254740992) * (1 + 1 / 16777216) ^ 2 := by
    unfold scaleFactor; rw [u1, u3]
  have e1 : scaleFactor 24 53 / (2 - normFactor 24 64 n) - 1 ≤ 13 / 2 ^ 24 := by
    rw [sub_le_iff_le_add, div_le_iff₀ (by linarith), hH]
    nlinarith
  have e2 : (1 + ((1 + unitRoundoff 24) ^ 6 * (1 + unitRoundoff 64) ^ n - 1)) *
      ((1 + unitRoundoff 24) ^ 6 * (1 + unitRoundoff 64) ^ n) - 1 ≤ 13 / 2 ^ 24 := by
    rw [u1]
    generalize (1 + unitRoundoff 64) ^ n = X at hX hX1
    have h1 : (1 + 1 / 16777216 : ℝ) ^ 6 * X ≤ (1 + 1 / 16777216 : ℝ) ^ 6 * (1 + 1 / 4294967296) :=
      mul_le_mul_of_nonneg_left hX (by positivity)
    have h0 : 0 ≤ (1 + 1 / 16777216 : ℝ) ^ 6 * X := by positivity
    have h2 := mul_self_le_mul_self h0 h1
    have h3 : (1 + 1 / 16777216 : ℝ) ^ 6 * (1 + 1 / 4294967296) * ((1 + 1 / 16777216 : ℝ) ^ 6 * (1 + 1 / 4294967296)) - 1 ≤
      13 / 2 ^ 24 := by norm_num
    linarith
  have e3 : (1 + ((1 + unitRoundoff 24) ^ 6 * (1 + unitRoundoff 64) ^ n - 1)) * (1 + unitRoundoff 24) ^ 3 *
      scaleFactor 24 53 - 1 ≤ 13 / 2 ^ 24 := by
    rw [u1, hH]
    generalize (1 + unitRoundoff 64) ^ n = X at hX hX1
    have h1 : (1 + 1 / 16777216 : ℝ) ^ 6 * X ≤ (1 + 1 / 16777216 : ℝ) ^ 6 * (1 + 1 / 4294967296) :=
      mul_le_mul_of_nonneg_left hX (by positivity)
    have h2 : (1 + 1 / 16777216 : ℝ) ^ 6 * X * ((1 + 1 / 16777216 : ℝ) ^ 3 *
        ((1 + 1 / 9007199254740992) * (1 + 1 / 16777216) ^ 2)) ≤ (1 + 1 / 16777216 : ℝ) ^ 6 * (1 + 1 / 4294967296) *
        ((1 + 1 / 16777216 : ℝ) ^ 3 * ((1 + 1 / 9007199254740992) * (1 + 1 / 16777216) ^ 2)) :=
      mul_le_mul_of_nonneg_right h1 (by positivity)
    have h3 : (1 + 1 / 16777216 : ℝ) ^ 6 * (1 + 1 / 4294967296) *
        ((1 + 1 / 16777216 : ℝ) ^ 3 * ((1 + 1 / 9007199254740992) * (1 + 1 / 16777216) ^ 2)) - 1 ≤ 13 / 2 ^ 24 := by norm_num
    rw [add_sub_cancel, mul_assoc]
    linarith
  have hPn : ∀ (x : Fin n → ℝ) i, 0 ≤ ((fun i j => |M i j| : Matrix (Fin n) (Fin n) ℝ) *ᵥ fun j => |x j|) i := by
    intro x i
    show 0 ≤ ∑ j, |M i j| * |x j|
    exact Finset.sum_nonneg fun j _ => mul_nonneg (abs_nonneg _) (abs_nonneg _)
  have hRn : ∀ a b w k i, 0 ≤ restAbs (fun i j => |M i j|) a b w k i := fun a b w k i => by
    unfold restAbs
    have := hPn (w k) i
    split_ifs <;> positivity
  refine ⟨size, alpha', beta', v, g1, g2, g3, fun i => (g4.start i).trans ?_, fun k hk => (g4.unit k hk).trans e1,
    fun k hk => (g4.diagonal k hk).trans ?_, fun k hk i => (g4.recurrence k hk i).trans ?_, ?_⟩
  · exact mul_le_mul_of_nonneg_right e1 (abs_nonneg _)
  · exact mul_le_mul_of_nonneg_right e2 (Finset.sum_nonneg fun i _ => mul_nonneg (abs_nonneg _) (hPn _ i))
  · exact mul_le_mul_of_nonneg_right e3 (hRn _ _ _ _ _)
  · obtain ⟨r, k1, k2⟩ := g4.last
    refine ⟨r, fun i => (k1 i).trans (mul_le_mul_of_nonneg_right e3 (hRn _ _ _ _ _)), k2.trans ?_⟩
    refine mul_le_mul_of_nonneg_right ?_ (len_nonneg r)
    refine le_trans (by linarith : _ ≤ (8 : ℝ) / 16777216) (by norm_num)

/-- A symmetric matrix of order two, two steps. -/
example : ∃ (flD flE flL : ℝ → ℝ) (A : Array ℝ) (M : Matrix (Fin 2) (Fin 2) ℝ) (z : Fin 2 → ℝ), Nearest 24 flD ∧
    Nearest 53 flE ∧ Nearest 64 flL ∧ DenseRepr true A M ∧ Mᵀ = M ∧ z ≠ 0 := by
  obtain ⟨f, hf⟩ := nearest_exists (p := 24) (by norm_num)
  obtain ⟨g, hg⟩ := nearest_exists (p := 53) (by norm_num)
  obtain ⟨k, hk⟩ := nearest_exists (p := 64) (by norm_num)
  refine ⟨f, g, k, #[2, 1, 1, 3], !![2, 1; 1, 3], ![1, -1], hf, hg, hk, ⟨rfl, fun i j => ?_⟩, ?_, fun h => ?_⟩
  · fin_cases i <;> fin_cases j <;> rfl
  · ext i j
    fin_cases i <;> fin_cases j <;> rfl
  · have := congrFun h 0
    simp at this

end Imate.Props
