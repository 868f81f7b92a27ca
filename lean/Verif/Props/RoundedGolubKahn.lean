import Mathlib.Algebra.BigOperators.Field
import Verif.Lemmas.RoundedGolubKahn
import Verif.Props.RoundedLanczos

/-!
# C76: the Golub-Kahn iteration in floating-point arithmetic
-/

namespace Imate.Props

open Matrix Spec Rounded

private theorem unit_nonneg4 (p : ℕ) : 0 ≤ unitRoundoff p := by unfold unitRoundoff; positivity

section

variable {p e q n : ℕ} {flD flE flL : ℝ → ℝ}

private theorem div_approx {u : ℝ} (hu : 0 ≤ u) (hD : Rel u flD) (x : ℝ) : Approx (1 + u) x |x| (flD x) := by
  have h := (approx_self (G := 1) (x := x) le_rfl).round hu hD
  rwa [one_mul] at h

private theorem norm_ne_zero (hg : normFactor p q n < 2) {z : Fin n → ℝ} (hz : z ≠ 0) {b0 : ℝ}
    (h2 : |b0 - len z| ≤ (normFactor p q n - 1) * len z) : b0 ≠ 0 := by
  intro h0
  rw [h0, zero_sub, abs_neg, abs_of_nonneg (len_nonneg z)] at h2
  have := len_pos hz
  nlinarith

private theorem body_inv (hp : 1 ≤ p) (hq : 1 ≤ q) (hD : Nearest p flD)
    (hL : Nearest q flL) (hg : normFactor p q n < 2) {M P Q : Matrix (Fin n) (Fin n) ℝ} {eA eT : ℝ} (heA : 0 ≤ eA)
    (heT : 0 ≤ eT) {dot transposeDot : Array ℝ → Array ℝ → Except Fault (Array ℝ)} (hdot : AccurateDot dot M P eA)
    (hdot' : AccurateDot transposeDot Mᵀ Q eT) {z : Fin n → ℝ} {m : ℕ} {tol : ℝ}
    (hthr : 0 < flE (tol * flE (Real.sqrt n))) {j : ℕ} (hj : j < m) {s : GolubKahnState}
    {u v : ℕ → Fin n → ℝ} {a b : ℕ → ℝ} (hs : s.stop = false)
    (h : GKInv M P Q z m (normFactor p q n) ((1 + unitRoundoff p) / (2 - normFactor p q n) - 1)
      ((1 + eA) * (1 + unitRoundoff p) ^ 2) ((1 + eT) * (1 + unitRoundoff p) ^ 2) (1 + unitRoundoff p)
      (flE (tol * flE (Real.sqrt n))) j s u v a b) :
    (Rounded.golubKahnBody flD flE flL dot transposeDot n tol j s = .error .invalid ∧
      ∃ u v a b, GolubKahnBreakdown M P Q z j a b ((1 + unitRoundoff p) / (2 - normFactor p q n) - 1)
        ((1 + eA) * (1 + unitRoundoff p) ^ 3 - 1) ((1 + eT) * (1 + unitRoundoff p) ^ 3 - 1) u v) ∨
    ∃ s' u' v' a' b', Rounded.golubKahnBody flD flE flL dot transposeDot n tol j s = .ok s' ∧
      GKInv M P Q z m (normFactor p q n) ((1 + unitRoundoff p) / (2 - normFactor p q n) - 1)
      ((1 + eA) * (1 + unitRoundoff p) ^ 2) ((1 + eT) * (1 + unitRoundoff p) ^ 2) (1 + unitRoundoff p)
      (flE (tol * flE (Real.sqrt n))) (j + 1) s' u' v' a' b' := by
  have hr := unit_nonneg4 p
  have hU := unit_nonneg4 q
  have relD := nearest_rel hp hD
  set ε := unitRoundoff p with hε
  have hG1 : 1 ≤ normFactor p q n := one_le_G hr hU 7 n
  have hH1 : 1 ≤ 1 + ε := by linarith
  have hmod : j % 2 < 2 := Nat.mod_lt _ (by norm_num)
  have hmod' : (j + 1) % 2 < 2 := Nat.mod_lt _ (by norm_num)
  obtain ⟨rowU, hU1, hU2⟩ := h.rowsU.2 (j % 2) hmod
  obtain ⟨rowV, hV1, hV2⟩ := h.rowsV.2 ((j + 1) % 2) hmod'
  -- the left vector
  obtain ⟨w, hw1, hw2⟩ := dot_approx hdot (v j) hU2
  have hw3 : ∀ i, Approx ((1 + eA) * (1 + ε)) ((M *ᵥ v j) i) ((P *ᵥ fun l => |v j l|) i) (w i) := fun i =>
    (hw2 i).weaken (le_mul_of_one_le_right (by linarith) hH1)
  obtain ⟨x, hx1, hx2⟩ : ∃ x : Fin n → ℝ,
      Rounded.subtractOld flD n j s.U s.beta (Array.ofFn w) = .ok (Array.ofFn x) ∧
      ∀ i, Approx ((1 + eA) * (1 + ε) ^ 2) (leftRest M b u v j i) (leftAbs P b u v j i) (x i) := by
    unfold Rounded.subtractOld
    by_cases h0 : j = 0
    · refine ⟨w, by rw [if_neg (by omega)], fun i => ?_⟩
      unfold leftRest leftAbs
      rw [if_pos h0, if_pos h0, sub_zero, add_zero]
      refine (hw3 i).weaken ?_
      exact mul_le_mul_of_nonneg_left (by nlinarith) (by linarith)
    · rw [if_pos (by omega), load_ok (h.prevU (by omega)), rd_ok (h.hb.2 (j - 1) (by omega))]
      simp only [Except.ok_bind']
      obtain ⟨x, g1, g2⟩ := subtractScaled_approx hr relD
        (le_mul_of_one_le_left (by linarith) (by linarith) : 1 + ε ≤ (1 + eA) * (1 + ε)) (u (j - 1)) (b (j - 1)) hw3
      refine ⟨x, g1, fun i => ?_⟩
      unfold leftRest leftAbs
      rw [if_neg h0, if_neg h0]
      have := g2 i
      rwa [mul_assoc, ← pow_two] at this
  obtain ⟨al, ha1, ha2⟩ := norm_len hp hq hD hL hg x
  have hn1 := normalizeInPlace_ofFn x ha1
  set uj : Fin n → ℝ := fun i => flD (x i / al) with huj
  obtain ⟨U', hW1, hW2, hW3, hW4⟩ := rows_set h.rowsU hmod (new := (Array.ofFn uj, decide (al ≠ 0))) (by simp)
  have hA1 : wr s.alpha j al = .ok (s.alpha.set j al (by rw [h.ha.1]; exact hj)) := wr_ok _ _
  by_cases hal : al = 0
  · left
    have eL : ∀ x : ℝ, (1 + x) * (1 + ε) ^ 2 * (1 + ε) = (1 + x) * (1 + ε) ^ 3 := fun x => by ring
    have hx0 : x = 0 := by
      by_contra hne
      exact norm_ne_zero hg hne ha2 hal
    refine ⟨?_, u, v, a, b, h.start, h.unitU, fun l hl => ?_, fun l hl i => ?_, fun l hl i => ?_, fun i => ?_⟩
    rotate_left
    · rcases Nat.lt_or_ge l j with h1 | h1
      · exact h.unitV l h1
      · rw [show l = j by omega]
        exact h.unitCur hs
    · rw [← eL]
      exact (h.left l hl i).2
    · rw [← eL]
      rcases Nat.lt_or_ge (l + 1) j with h1 | h1
      · exact (h.right l h1 i).2
      · have := (h.rightCur hs (by omega) i).2
        rwa [show j - 1 = l by omega, show j = l + 1 by omega] at this
    · rw [← eL]
      have := ((hx2 i).weaken (G' := (1 + eA) * (1 + ε) ^ 2 * (1 + ε))
        (le_mul_of_one_le_right (mul_nonneg (by linarith) (by positivity)) hH1)).2
      rwa [hx0, Pi.zero_apply, zero_sub, abs_neg] at this
    unfold Rounded.golubKahnBody
    rw [load_ok (h.cur hs)]
    simp only [Except.ok_bind']
    rw [rd_ok hU1]
    simp only [Except.ok_bind']
    rw [hw1]
    simp only [Except.ok_bind']
    rw [hx1]
    simp only [Except.ok_bind']
    rw [hn1]
    simp only [Except.ok_bind']
    rw [hW1]
    simp only [Except.ok_bind']
    rw [hA1]
    simp only [Except.ok_bind']
    have : U'[j % 2]? = some (Array.ofFn uj, false) := by rw [hW2]; simp [hal]
    rw [load_error this]
    rfl
  right
  have hxpos : 0 < len x := by
    rcases (len_nonneg x).eq_or_lt with h0 | h0
    · rw [← h0, mul_zero, sub_zero] at ha2
      exact absurd (abs_nonpos_iff.1 ha2) hal
    · exact h0
  have halpos : 0 < al := by
    have := (abs_le.1 ha2).1
    nlinarith
  have hscale : ∀ i, Approx (1 + ε) (x i / al) |x i / al| (uj i) := fun i => div_approx hr relD _
  obtain ⟨hunit, -⟩ := unit_near hG1 hg hH1 ha2 hxpos hscale
  -- the right vector
  obtain ⟨w', hw1', hw2'⟩ := dot_approx hdot' uj hV2
  have hw3' : ∀ i, Approx ((1 + eT) * (1 + ε)) ((Mᵀ *ᵥ uj) i) ((Q *ᵥ fun l => |uj l|) i) (w' i) := fun i =>
    (hw2' i).weaken (le_mul_of_one_le_right (by linarith) hH1)
  obtain ⟨y, hy1, hy2⟩ := subtractScaled_approx hr relD
    (le_mul_of_one_le_left (by linarith) (by linarith) : 1 + ε ≤ (1 + eT) * (1 + ε)) (v j) al hw3'
  obtain ⟨be, hb1, hb2⟩ := norm_len hp hq hD hL hg y
  have hn2 := normalizeInPlace_ofFn y hb1
  set vn : Fin n → ℝ := fun i => flD (y i / be) with hvn
  obtain ⟨V', hX1, hX2, hX3, hX4⟩ := rows_set h.rowsV hmod' (new := (Array.ofFn vn, decide (be ≠ 0))) (by simp)
  have hB1 : wr s.beta j be = .ok (s.beta.set j be (by rw [h.hb.1]; exact hj)) := wr_ok _ _
  set u' := Function.update u j uj with hu'
  set v' := Function.update v (j + 1) vn with hv'
  set a' := Function.update a j al with ha'
  set b' := Function.update b j be with hb'
  have hult : ∀ k < j, u' k = u k := fun k hk => Function.update_of_ne (by omega) _ _
  have hvlt : ∀ k ≤ j, v' k = v k := fun k hk => Function.update_of_ne (by omega) _ _
  have halt : ∀ k < j, a' k = a k := fun k hk => Function.update_of_ne (by omega) _ _
  have hblt : ∀ k < j, b' k = b k := fun k hk => Function.update_of_ne (by omega) _ _
  have huself : u' j = uj := Function.update_self _ _ _
  have hvself : v' (j + 1) = vn := Function.update_self _ _ _
  have haself : a' j = al := Function.update_self _ _ _
  have hbself : b' j = be := Function.update_self _ _ _
  have hload : load U' (j % 2) = .ok (Array.ofFn uj) := load_ok (by rw [hW2]; simp [hal])
  refine ⟨⟨U', V', s.alpha.set j al (by rw [h.ha.1]; exact hj), s.beta.set j be (by rw [h.hb.1]; exact hj),
    s.size + 1, decide (be < flE (tol * flE (Real.sqrt n)))⟩, u', v', a', b', ?_, ?_⟩
  · unfold Rounded.golubKahnBody
    rw [load_ok (h.cur hs)]
    simp only [Except.ok_bind']
    rw [rd_ok hU1]
    simp only [Except.ok_bind']
    rw [hw1]
    simp only [Except.ok_bind']
    rw [hx1]
    simp only [Except.ok_bind']
    rw [hn1]
    simp only [Except.ok_bind']
    rw [hW1]
    simp only [Except.ok_bind']
    rw [hA1]
    simp only [Except.ok_bind']
    rw [hload]
    simp only [Except.ok_bind']
    rw [rd_ok hV1]
    simp only [Except.ok_bind']
    rw [hw1']
    simp only [Except.ok_bind']
    rw [hy1]
    simp only [Except.ok_bind']
    rw [hn2]
    simp only [Except.ok_bind']
    rw [hX1]
    simp only [Except.ok_bind']
    rw [hB1]
    simp only [Except.ok_bind']
  · have hres : ∀ i, Approx ((1 + eT) * (1 + ε) ^ 2) (rightRest M a' u' v' j i) (rightAbs Q a' u' v' j i) (y i) := by
      intro i
      unfold rightRest rightAbs
      rw [huself, haself, hvlt j le_rfl]
      have := hy2 i
      rwa [mul_assoc, ← pow_two] at this
    have hgo : decide (be < flE (tol * flE (Real.sqrt n))) = false → be ≠ 0 := fun hd h0 => by
      have := of_decide_eq_false hd
      rw [h0] at this
      exact this hthr
    have hypos : be ≠ 0 → 0 < len y := fun h1 => by
      rcases (len_nonneg y).eq_or_lt with h0 | h0
      · rw [← h0, mul_zero, sub_zero] at hb2
        exact absurd (abs_nonpos_iff.1 hb2) h1
      · exact h0
    have hscale' : ∀ i, Approx (1 + ε) (y i / be) |y i / be| (vn i) := fun i => div_approx hr relD _
    refine ⟨hW4, hX4, ?_, ?_, ⟨by simp [h.ha.1], ?_⟩, ⟨by simp [h.hb.1], ?_⟩, by simp [h.hsize], ?_, ?_, ?_, ?_, ?_, ?_, ?_,
      ?_, ?_, ?_, ?_⟩
    · intro _
      simp only [Nat.add_sub_cancel]
      rw [huself, hW2]
      simp [hal]
    · intro hd
      rw [hvself]
      show V'[(j + 1) % 2]? = _
      rw [hX2]
      simp [hgo hd]
    · intro k hk
      rw [Array.getElem?_set]
      by_cases hkj : j = k
      · subst hkj; simp [haself]
      · rw [if_neg hkj, h.ha.2 k (by omega), halt k (by omega)]
    · intro k hk
      rw [Array.getElem?_set]
      by_cases hkj : j = k
      · subst hkj; simp [hbself]
      · rw [if_neg hkj, h.hb.2 k (by omega), hblt k (by omega)]
    · intro i
      rw [hvlt 0 (by omega)]
      exact h.start i
    · intro k hk
      by_cases hkj : k = j
      · rw [hkj, huself]; exact hunit
      · rw [hult k (by omega)]; exact h.unitU k (by omega)
    · intro k hk
      rw [hvlt k (by omega)]
      by_cases hkj : k = j
      · rw [hkj]; exact h.unitCur hs
      · exact h.unitV k (by omega)
    · intro hd
      rw [hvself]
      exact (unit_near hG1 hg hH1 hb2 (hypos (hgo hd)) hscale').1
    · intro k hk
      by_cases hkj : k = j
      · rw [hkj, haself]; exact halpos
      · rw [halt k (by omega)]; exact h.pos k (by omega)
    · intro k hk i
      have c1 : leftRest M b' u' v' k = leftRest M b u v k :=
        leftRest_congr (fun i hi => hblt i (by omega)) (fun i hi => hult i (by omega)) (hvlt k (by omega))
      have c2 : leftAbs P b' u' v' k = leftAbs P b u v k :=
        leftAbs_congr (fun i hi => hblt i (by omega)) (fun i hi => hult i (by omega)) (hvlt k (by omega))
      rw [c1, c2]
      by_cases hkj : k = j
      · rw [hkj, haself, huself]
        have g1 := (hscale i).smul al
        have e2 : al * (x i / al) = x i := by field_simp
        have e3 : |al| * |x i / al| = |x i| := by rw [← abs_mul, e2]
        rw [e2, e3] at g1
        have g3 := g1.trans hH1 (hx2 i) (hx2 i).abs_le
        rwa [mul_comm (1 + ε)] at g3
      · rw [halt k (by omega), hult k (by omega)]
        exact h.left k (by omega) i
    · intro k hk i
      have c1 : rightRest M a' u' v' k = rightRest M a u v k :=
        rightRest_congr (halt k (by omega)) (hult k (by omega)) (hvlt k (by omega))
      have c2 : rightAbs Q a' u' v' k = rightAbs Q a u v k :=
        rightAbs_congr (halt k (by omega)) (hult k (by omega)) (hvlt k (by omega))
      rw [c1, c2, hblt k (by omega), hvlt (k + 1) (by omega)]
      by_cases hkj : k + 1 = j
      · have := h.rightCur hs (by omega) i
        rw [← hkj] at this
        exact this
      · exact h.right k (by omega) i
    · intro hd _ i
      simp only [Nat.add_sub_cancel]
      rw [hbself, hvself]
      have hne := hgo hd
      have g1 := (hscale' i).smul be
      have e2 : be * (y i / be) = y i := by field_simp
      have e3 : |be| * |y i / be| = |y i| := by rw [← abs_mul, e2]
      rw [e2, e3] at g1
      have g3 := g1.trans hH1 (hres i) (hres i).abs_le
      rwa [mul_comm (1 + ε)] at g3
    · intro _
      refine ⟨y, fun i => ?_, ?_⟩
      · simp only [Nat.add_sub_cancel]
        exact hres i
      · simp only [Nat.add_sub_cancel]
        rw [hbself]
        exact hb2
    · intro hd _
      simp only [Nat.add_sub_cancel]
      rw [hbself]
      simpa using hd
    · intro hd
      simp only [Nat.add_sub_cancel]
      rw [hbself]
      simpa using hd

/-- `normalize_vector_and_copy` of a vector whose norm was computed. -/
private theorem normalizeAndCopy_ofFn {x : Fin n → ℝ} {b : ℝ}
    (hb : Rounded.euclideanNorm flD flL (Array.ofFn x) n = .ok b) {c : Array ℝ} (hc : c.size = n) :
    Rounded.normalizeAndCopy flD flL (Array.ofFn x) n c = .ok (Array.ofFn fun i => flD (x i / b), b) := by
  unfold Rounded.normalizeAndCopy
  rw [hb]
  simp only [Except.ok_bind']
  have h := forRange_write_ofFn (body := fun i out => do wr out i (flD ((← rd (Array.ofFn x) i) / b))) c
    (fun i => flD (x i / b)) hc fun i c' _ _ => by
      rw [rd_ofFn x i]
      rfl
  rw [h]
  rfl

private theorem threshold_pos (he : 1 ≤ e) (hE : Nearest e flE) (hn : 0 < n) {tol : ℝ} (htol : 0 < tol) :
    0 < flE (tol * flE (Real.sqrt n)) := by
  have hpos : ∀ x, 0 < x → 0 < flE x := by
    intro x hx
    have h3 := nearest_rel he hE x
    rw [abs_of_pos hx] at h3
    have h4 := (abs_le.1 h3).1
    have h5 : (2 : ℝ) ^ (-(e : ℤ)) ≤ 1 / 2 := by
      rw [zpow_neg, zpow_natCast, one_div]
      apply inv_anti₀ (by norm_num)
      exact le_self_pow₀ (by norm_num) (by omega)
    nlinarith
  exact hpos _ (mul_pos htol (hpos _ (Real.sqrt_pos.2 (by exact_mod_cast hn))))

private theorem size_pos {z : Fin n → ℝ} (hz : z ≠ 0) : 0 < n := by
  rcases Nat.eq_zero_or_pos n with h0 | h0
  · subst h0
    exact absurd (funext fun i => i.elim0) hz
  · exact h0

/-- C76: in every precision and for every rounding to nearest, the iteration without reorthogonalization breaks down, or
its coefficients come from vectors that satisfy the recurrences of Golub and Kahan up to rounding errors, however much
orthogonality is lost.  It ends early only when `beta` is below the tolerance.  (Part: see `golub_kahn_zero_alpha` for the
division by zero.) -/
theorem rounded_golub_kahn_partial (hp : 1 ≤ p) (he : 1 ≤ e) (hq : 1 ≤ q) (hD : Nearest p flD) (hE : Nearest e flE)
    (hL : Nearest q flL) (hg : normFactor p q n < 2) {M P Q : Matrix (Fin n) (Fin n) ℝ} {eA eT : ℝ} (heA : 0 ≤ eA)
    (heT : 0 ≤ eT) {dot transposeDot : Array ℝ → Array ℝ → Except Fault (Array ℝ)} (hdot : AccurateDot dot M P eA)
    (hdot' : AccurateDot transposeDot Mᵀ Q eT) {z : Fin n → ℝ} (hz : z ≠ 0)
    {m : ℕ} (hm : 0 < m) {tol : ℝ} (htol : 0 < tol) {U0 V0 : Array Row} (hU0 : U0.size = 2)
    (hU0' : ∀ row ∈ U0, row.1.size = n) (hV0 : V0.size = 2) (hV0' : ∀ row ∈ V0, row.1.size = n) {alpha beta : Array ℝ}
    (ha : alpha.size = m) (hb : beta.size = m) :
    Rounded.golubKahn flD flE flL dot transposeDot n (Array.ofFn z) m tol U0 V0 alpha beta = .error .invalid ∧
      (∃ k < m, ∃ u v a b, GolubKahnBreakdown M P Q z k a b ((1 + unitRoundoff p) / (2 - normFactor p q n) - 1)
        ((1 + eA) * (1 + unitRoundoff p) ^ 3 - 1) ((1 + eT) * (1 + unitRoundoff p) ^ 3 - 1) u v) ∨
    ∃ size alpha' beta' u v, Rounded.golubKahn flD flE flL dot transposeDot n (Array.ofFn z) m tol U0 V0 alpha beta =
        .ok (size, alpha', beta') ∧
      0 < size ∧ size ≤ m ∧ alpha'.size = m ∧ beta'.size = m ∧
      (size < m → beta'.getD (size - 1) 0 < flE (tol * flE (Real.sqrt n))) ∧
      NearlyGolubKahn M P Q z size (fun k => alpha'.getD k 0) (fun k => beta'.getD k 0)
        ((1 + unitRoundoff p) / (2 - normFactor p q n) - 1) ((1 + eA) * (1 + unitRoundoff p) ^ 3 - 1)
        ((1 + eT) * (1 + unitRoundoff p) ^ 3 - 1) (normFactor p q n - 1) u v := by
  have hr := unit_nonneg4 p
  have hU := unit_nonneg4 q
  have relD := nearest_rel hp hD
  have hG1 : 1 ≤ normFactor p q n := one_le_G hr hU 7 n
  have hH1 : 1 ≤ 1 + unitRoundoff p := by linarith
  obtain ⟨b0, h1, h2⟩ := norm_len hp hq hD hL hg z
  have hb0 := norm_ne_zero hg hz h2
  have hthr := threshold_pos he hE (size_pos hz) htol
  have rowsOf : ∀ {R : Array Row}, R.size = 2 → (∀ row ∈ R, row.1.size = n) →
      (R.size = 2 ∧ ∀ k < 2, ∃ row : Row, R[k]? = some row ∧ row.1.size = n) := fun {R} g1 g2 =>
    ⟨g1, fun k hk => ⟨R[k]'(by omega), Array.getElem?_eq_getElem (show k < R.size by omega), g2 _ (Array.getElem_mem _)⟩⟩
  have hVr := rowsOf hV0 hV0'
  obtain ⟨row0, hrow1, hrow2⟩ := hVr.2 0 (by norm_num)
  set v0 : Fin n → ℝ := fun i => flD (z i / b0) with hv0
  obtain ⟨V, hX1, hX2, -, hX4⟩ := rows_set hVr (i := 0) (by norm_num) (new := (Array.ofFn v0, decide (b0 ≠ 0))) (by simp)
  obtain ⟨hunit, hdir⟩ := unit_near hG1 hg hH1 h2 (len_pos hz) fun i => div_approx hr relD (z i / b0)
  unfold Rounded.golubKahn
  rw [rd_ok hrow1]
  simp only [Except.ok_bind']
  rw [normalizeAndCopy_ofFn h1 hrow2]
  simp only [Except.ok_bind']
  rw [hX1]
  simp only [Except.ok_bind']
  have hbase : GKInv M P Q z m (normFactor p q n) ((1 + unitRoundoff p) / (2 - normFactor p q n) - 1)
      ((1 + eA) * (1 + unitRoundoff p) ^ 2) ((1 + eT) * (1 + unitRoundoff p) ^ 2) (1 + unitRoundoff p)
      (flE (tol * flE (Real.sqrt n))) 0 ⟨U0, V, alpha, beta, 0, false⟩ (fun _ => v0) (fun _ => v0) (fun _ => 0)
      (fun _ => 0) := by
    refine ⟨rowsOf hU0 hU0', hX4, by simp, fun _ => ?_, ⟨ha, by simp⟩, ⟨hb, by simp⟩, rfl, hdir, by simp, by simp,
      fun _ => hunit, by simp, by simp, by simp, by simp, by simp, by simp, by simp⟩
    show V[0]? = _
    rw [hX2]
    simp [hb0]
  rcases forRange_inv_or (e := .invalid) (E := ∃ k < m, ∃ u v a b, GolubKahnBreakdown M P Q z k a b
      ((1 + unitRoundoff p) / (2 - normFactor p q n) - 1) ((1 + eA) * (1 + unitRoundoff p) ^ 3 - 1)
      ((1 + eT) * (1 + unitRoundoff p) ^ 3 - 1) u v) (body := fun j s =>
      if s.stop then .ok s else Rounded.golubKahnBody flD flE flL dot transposeDot n tol j s)
    (fun j s => (s.stop = false → s.size = j) ∧ s.size ≤ j ∧ (0 < j → 0 < s.size) ∧ (j = 0 → s.stop = false) ∧ ∃ u v a b,
      GKInv M P Q z m (normFactor p q n) ((1 + unitRoundoff p) / (2 - normFactor p q n) - 1)
      ((1 + eA) * (1 + unitRoundoff p) ^ 2) ((1 + eT) * (1 + unitRoundoff p) ^ 2) (1 + unitRoundoff p)
      (flE (tol * flE (Real.sqrt n))) s.size s u v a b)
    (⟨U0, V, alpha, beta, 0, false⟩ : GolubKahnState)
    ⟨fun _ => rfl, le_rfl, by simp, fun _ => rfl, _, _, _, _, hbase⟩ (by
      rintro j hj s ⟨g1, g2, g3, g5, u, v, a, b, g4⟩
      by_cases hs : s.stop = true
      · right
        refine ⟨s, by simp [hs], by simp [hs], by omega, fun _ => ?_, by omega, u, v, a, b, g4⟩
        rcases Nat.eq_zero_or_pos s.size with h0 | h0
        · exfalso
          rcases Nat.eq_zero_or_pos j with hj0 | hj0
          · exact absurd hs (by rw [g5 hj0]; simp)
          · have := g3 hj0; omega
        · exact h0
      · have hs' : s.stop = false := by simpa using hs
        have e1 := g1 hs'
        rw [e1] at g4
        rcases body_inv hp hq hD hL hg heA heT hdot hdot' hthr hj hs' g4 with ⟨k0, u', v', a', b', k1⟩ | ⟨s', u', v', a', b', k1, k2⟩
        · left
          exact ⟨by simp [hs', k0], j, hj, u', v', a', b', k1⟩
        · right
          refine ⟨s', by simp [hs', k1], ?_⟩
          have e2 := k2.hsize
          refine ⟨fun _ => e2, by omega, fun _ => by omega, by omega, u', v', a', b', ?_⟩
          rw [e2]
          exact k2) with ⟨h3, hE⟩ | ⟨s, h3, h4⟩
  · left
    rw [h3]
    exact ⟨rfl, hE⟩
  right
  obtain ⟨g1, g2, g3, -, u, v, a, b, g4⟩ := h4
  rw [h3]
  have hsz := g3 hm
  have hga : ∀ k < s.size, s.alpha.getD k 0 = a k := fun k hk => by
    rw [Array.getD_eq_getD_getElem?, g4.ha.2 k hk]; rfl
  have hgb : ∀ k < s.size, s.beta.getD k 0 = b k := fun k hk => by
    rw [Array.getD_eq_getD_getElem?, g4.hb.2 k hk]; rfl
  refine ⟨s.size, s.alpha, s.beta, u, v, rfl, hsz, g2, g4.ha.1, g4.hb.1, fun hlt => ?_, ?_⟩
  · have : s.stop = true := by
      by_contra hc
      have := g1 (by simpa using hc)
      omega
    rw [hgb _ (by omega)]
    exact g4.stopped this
  · have eL : ∀ x : ℝ, (1 + x) * (1 + unitRoundoff p) ^ 2 * (1 + unitRoundoff p) = (1 + x) * (1 + unitRoundoff p) ^ 3 :=
      fun x => by ring
    refine ⟨g4.start, g4.unitU, g4.unitV, fun k hk => ?_, fun k hk i => ?_, fun k hk i => ?_, ?_⟩
    · rw [hga k hk]; exact g4.pos k hk
    · have c1 : leftRest M (fun k => s.beta.getD k 0) u v k = leftRest M b u v k :=
        leftRest_congr (fun i hi => hgb i (by omega)) (fun _ _ => rfl) rfl
      have c2 : leftAbs P (fun k => s.beta.getD k 0) u v k = leftAbs P b u v k :=
        leftAbs_congr (fun i hi => hgb i (by omega)) (fun _ _ => rfl) rfl
      rw [c1, c2, hga k hk, ← eL]
      exact (g4.left k hk i).2
    · have c1 : rightRest M (fun k => s.alpha.getD k 0) u v k = rightRest M a u v k :=
        rightRest_congr (hga k (by omega)) rfl rfl
      have c2 : rightAbs Q (fun k => s.alpha.getD k 0) u v k = rightAbs Q a u v k :=
        rightAbs_congr (hga k (by omega)) rfl rfl
      rw [c1, c2, hgb k (by omega), ← eL]
      exact (g4.right k hk i).2
    · obtain ⟨r, k1, k2⟩ := g4.residual hsz
      have c1 : rightRest M (fun k => s.alpha.getD k 0) u v (s.size - 1) = rightRest M a u v (s.size - 1) :=
        rightRest_congr (hga _ (by omega)) rfl rfl
      have c2 : rightAbs Q (fun k => s.alpha.getD k 0) u v (s.size - 1) = rightAbs Q a u v (s.size - 1) :=
        rightAbs_congr (hga _ (by omega)) rfl rfl
      refine ⟨r, fun i => ?_, by rw [hgb _ (by omega)]; exact k2⟩
      rw [c1, c2, ← eL]
      refine ((k1 i).weaken ?_).2
      exact le_mul_of_one_le_right (mul_nonneg (by linarith) (by positivity)) hH1

/-- C76, negation: when the start vector is mapped to zero, the iteration divides by zero and reads the result. -/
theorem golub_kahn_zero_alpha (hp : 1 ≤ p) (hq : 1 ≤ q) (hD : Nearest p flD)
    (hL : Nearest q flL) (hg : normFactor p q n < 2) {M P : Matrix (Fin n) (Fin n) ℝ} {eA : ℝ}
    {dot transposeDot : Array ℝ → Array ℝ → Except Fault (Array ℝ)} (hdot : AccurateDot dot M P eA)
    {z : Fin n → ℝ} (hz : z ≠ 0) (hker : ∀ i j, P i j * z j = 0)
    {m : ℕ} (hm : 0 < m) {tol : ℝ} {U0 V0 : Array Row} (hU0 : U0.size = 2)
    (hU0' : ∀ row ∈ U0, row.1.size = n) (hV0 : V0.size = 2) (hV0' : ∀ row ∈ V0, row.1.size = n) {alpha beta : Array ℝ}
    (ha : alpha.size = m) :
    Rounded.golubKahn flD flE flL dot transposeDot n (Array.ofFn z) m tol U0 V0 alpha beta = .error .invalid := by
  have relD := nearest_rel hp hD
  obtain ⟨b0, h1, h2⟩ := norm_len hp hq hD hL hg z
  have hb0 := norm_ne_zero hg hz h2
  have rowsOf : ∀ {R : Array Row}, R.size = 2 → (∀ row ∈ R, row.1.size = n) →
      (R.size = 2 ∧ ∀ k < 2, ∃ row : Row, R[k]? = some row ∧ row.1.size = n) := fun {R} g1 g2 =>
    ⟨g1, fun k hk => ⟨R[k]'(by omega), Array.getElem?_eq_getElem (show k < R.size by omega), g2 _ (Array.getElem_mem _)⟩⟩
  have hVr := rowsOf hV0 hV0'
  have hUr := rowsOf hU0 hU0'
  obtain ⟨row0, hrow1, hrow2⟩ := hVr.2 0 (by norm_num)
  obtain ⟨rowU, hU1, hU2⟩ := hUr.2 0 (by norm_num)
  have fl0 : flD 0 = 0 := by
    have := relD 0
    simpa using this
  set v0 : Fin n → ℝ := fun i => flD (z i / b0) with hv0
  obtain ⟨V, hX1, hX2, -, hX4⟩ := rows_set hVr (i := 0) (by norm_num) (new := (Array.ofFn v0, decide (b0 ≠ 0))) (by simp)
  have hPv : ∀ i, (P *ᵥ fun l => |v0 l|) i = 0 := by
    intro i
    show ∑ l, P i l * |v0 l| = 0
    refine Finset.sum_eq_zero fun l _ => ?_
    rcases mul_eq_zero.1 (hker i l) with h | h
    · rw [h, zero_mul]
    · show P i l * |flD (z l / b0)| = 0
      rw [h, zero_div, fl0, abs_zero, mul_zero]
  obtain ⟨w, hw1, hw2⟩ := dot_approx hdot v0 hU2
  have hw : w = fun _ => 0 := by
    funext i
    have h := hw2 i
    unfold Approx at h
    rw [hPv i, mul_zero] at h
    have h3 := abs_nonpos_iff.1 h.1
    have h4 := abs_nonpos_iff.1 h.2
    linarith
  obtain ⟨al, ha1, ha2⟩ := norm_len hp hq hD hL hg w
  have hal : al = 0 := by
    have : len w = 0 := by
      unfold len
      rw [hw]
      simp [dotProduct]
    rw [this, mul_zero, sub_zero] at ha2
    exact abs_nonpos_iff.1 ha2
  have hn1 := normalizeInPlace_ofFn w ha1
  obtain ⟨U', hW1, hW2, -, -⟩ := rows_set hUr (i := 0) (by norm_num)
    (new := (Array.ofFn fun i => flD (w i / al), decide (al ≠ 0))) (by simp)
  have hA1 : wr alpha 0 al = .ok (alpha.set 0 al (by rw [ha]; exact hm)) := wr_ok _ _
  unfold Rounded.golubKahn
  rw [rd_ok hrow1]
  simp only [Except.ok_bind']
  rw [normalizeAndCopy_ofFn h1 hrow2]
  simp only [Except.ok_bind']
  rw [hX1]
  simp only [Except.ok_bind']
  have hbody : Rounded.golubKahnBody flD flE flL dot transposeDot n tol 0 ⟨U0, V, alpha, beta, 0, false⟩ =
      .error .invalid := by
    have hcur : V[0]? = some (Array.ofFn v0, true) := by rw [hX2]; simp [hb0]
    unfold Rounded.golubKahnBody
    simp only [Nat.zero_mod, zero_add]
    rw [load_ok hcur]
    simp only [Except.ok_bind']
    rw [rd_ok hU1]
    simp only [Except.ok_bind']
    rw [hw1]
    simp only [Except.ok_bind']
    have : Rounded.subtractOld flD n 0 U0 beta (Array.ofFn w) = .ok (Array.ofFn w) := by
      unfold Rounded.subtractOld
      simp
    rw [this]
    simp only [Except.ok_bind']
    rw [hn1]
    simp only [Except.ok_bind']
    rw [hW1]
    simp only [Except.ok_bind']
    rw [hA1]
    simp only [Except.ok_bind']
    rw [load_error (x := Array.ofFn fun i => flD (w i / al)) (by rw [hW2]; simp [hal])]
    rfl
  obtain ⟨m', rfl⟩ := Nat.exists_eq_succ_of_ne_zero hm.ne'
  unfold forRange
  rw [Nat.sub_zero, loopN]
  simp only [Bool.false_eq_true, if_false]
  rw [hbody]
  rfl

/-- Products with the transpose of a dense matrix. -/
theorem dense_accurate_transpose_dot (hp : 1 ≤ p) (hq : 1 ≤ q) (hD : Nearest p flD) (hL : Nearest q flL) {A : Array ℝ}
    {M : Matrix (Fin n) (Fin n) ℝ} {rowMajor : Bool} (h : DenseRepr rowMajor A M) :
    AccurateDot (fun x c => Rounded.denseTransposedMatvec flD flL A x n n rowMajor c) Mᵀ (fun i j => |M j i|)
      ((1 + unitRoundoff p) ^ 6 * (1 + unitRoundoff q) ^ n - 1) :=
  ⟨fun _ _ => le_rfl, fun x c hc => dense_transposed_matvec_accurate hp hq hD hL h x c hc⟩

/-- A breakdown in the first step needs a start vector that is mapped to zero up to rounding errors. -/
theorem breakdown_first {M P Q : Matrix (Fin n) (Fin n) ℝ} (hP : ∀ i j, |M i j| ≤ P i j) {z : Fin n → ℝ} (hz : z ≠ 0)
    {a b : ℕ → ℝ} {eUnit eLeft eRight : ℝ} (heL : 0 ≤ eLeft) {u v : ℕ → Fin n → ℝ}
    (h : GolubKahnBreakdown M P Q z 0 a b eUnit eLeft eRight u v) (i : Fin n) :
    |(M *ᵥ z) i| ≤ ((1 + eLeft) * (1 + eUnit) - 1) * (P *ᵥ fun j => |z j|) i := by
  have hl := len_pos hz
  have hPn : ∀ j, 0 ≤ P i j := fun j => (abs_nonneg _).trans (hP i j)
  have h0 := h.zero i
  unfold leftRest leftAbs at h0
  rw [if_pos rfl, if_pos rfl, sub_zero, add_zero] at h0
  have hv : ∀ j, |v 0 j| ≤ (1 + eUnit) * (|z j| / len z) := fun j => by
    have h1 := abs_sub_abs_le_abs_sub (v 0 j) (z j / len z)
    have h2 := h.start j
    rw [abs_div, abs_of_pos hl] at h1 h2
    linarith
  set S := (P *ᵥ fun j => |z j|) i with hS
  have e1 : (P *ᵥ fun j => |v 0 j|) i ≤ (1 + eUnit) * (S / len z) := by
    show ∑ j, P i j * |v 0 j| ≤ (1 + eUnit) * ((∑ j, P i j * |z j|) / len z)
    rw [Finset.sum_div, Finset.mul_sum]
    refine Finset.sum_le_sum fun j _ => ?_
    have := mul_le_mul_of_nonneg_left (hv j) (hPn j)
    calc P i j * |v 0 j| ≤ P i j * ((1 + eUnit) * (|z j| / len z)) := this
      _ = (1 + eUnit) * (P i j * |z j| / len z) := by ring
  have e2 : |(M *ᵥ z) i / len z - (M *ᵥ v 0) i| ≤ eUnit * (S / len z) := by
    have e3 : (M *ᵥ z) i / len z - (M *ᵥ v 0) i = ∑ j, M i j * (z j / len z - v 0 j) := by
      show (∑ j, M i j * z j) / len z - ∑ j, M i j * v 0 j = _
      rw [Finset.sum_div, ← Finset.sum_sub_distrib]
      exact Finset.sum_congr rfl fun j _ => by ring
    rw [e3]
    refine (Finset.abs_sum_le_sum_abs (fun j => M i j * (z j / len z - v 0 j)) Finset.univ).trans ?_
    show _ ≤ eUnit * ((∑ j, P i j * |z j|) / len z)
    rw [Finset.sum_div, Finset.mul_sum]
    refine Finset.sum_le_sum fun j _ => ?_
    have h2 := h.start j
    rw [abs_sub_comm, abs_div, abs_of_pos hl] at h2
    rw [abs_mul]
    calc |M i j| * |z j / len z - v 0 j| ≤ P i j * (eUnit * (|z j| / len z)) :=
          mul_le_mul (hP i j) h2 (abs_nonneg _) (hPn j)
      _ = eUnit * (P i j * |z j| / len z) := by ring
  have e4 : |(M *ᵥ z) i / len z| ≤ eUnit * (S / len z) + eLeft * ((1 + eUnit) * (S / len z)) := by
    have h1 := abs_sub_abs_le_abs_sub ((M *ᵥ z) i / len z) ((M *ᵥ v 0) i)
    have h2 := mul_le_mul_of_nonneg_left e1 heL
    linarith
  rw [abs_div, abs_of_pos hl, div_le_iff₀ hl] at e4
  have e5 : (eUnit * (S / len z) + eLeft * ((1 + eUnit) * (S / len z))) * len z = ((1 + eLeft) * (1 + eUnit) - 1) * S := by
    field_simp
    ring
  linarith

end

/-! ## Numbers -/

/-- C76 in single precision: `float` data, divisions in `double`, x87 `long double`, dense matrices with up to `2^31` rows:
all errors are at most `10 * 2^(-24)`, whatever the size of the matrix and the number of steps. -/
theorem rounded_golub_kahn_single_partial {n : ℕ} (hn : n ≤ 2 ^ 31) {flD flE flL : ℝ → ℝ} (hD : Nearest 24 flD)
    (hE : Nearest 53 flE) (hL : Nearest 64 flL) {A : Array ℝ} {M : Matrix (Fin n) (Fin n) ℝ} {rowMajor : Bool}
    (h : DenseRepr rowMajor A M) {z : Fin n → ℝ} (hz : z ≠ 0) {m : ℕ} (hm : 0 < m) {tol : ℝ} (htol : 0 < tol)
    {U0 V0 : Array Row} (hU0 : U0.size = 2) (hU0' : ∀ row ∈ U0, row.1.size = n) (hV0 : V0.size = 2)
    (hV0' : ∀ row ∈ V0, row.1.size = n) {alpha beta : Array ℝ} (ha : alpha.size = m) (hb : beta.size = m) :
    Rounded.golubKahn flD flE flL (fun x c => Rounded.denseMatvec flD flL A x n n rowMajor c)
        (fun x c => Rounded.denseTransposedMatvec flD flL A x n n rowMajor c) n (Array.ofFn z) m tol U0 V0 alpha beta =
          .error .invalid ∧
      (∃ k < m, ∃ u v a b, GolubKahnBreakdown M (fun i j => |M i j|) (fun i j => |M j i|) z k a b
        (10 / 2 ^ 24) (10 / 2 ^ 24) (10 / 2 ^ 24) u v) ∨
    ∃ size alpha' beta' u v, Rounded.golubKahn flD flE flL (fun x c => Rounded.denseMatvec flD flL A x n n rowMajor c)
        (fun x c => Rounded.denseTransposedMatvec flD flL A x n n rowMajor c) n (Array.ofFn z) m tol U0 V0 alpha beta =
          .ok (size, alpha', beta') ∧ 0 < size ∧ size ≤ m ∧
      NearlyGolubKahn M (fun i j => |M i j|) (fun i j => |M j i|) z size (fun k => alpha'.getD k 0)
        (fun k => beta'.getD k 0) (10 / 2 ^ 24) (10 / 2 ^ 24) (10 / 2 ^ 24) (10 / 2 ^ 24) u v := by
  have u1 : unitRoundoff 24 = 1 / 16777216 := by unfold unitRoundoff; norm_num
  have hX := small_power hn
  have hX1 : 1 ≤ (1 + unitRoundoff 64) ^ n := one_le_pow₀ (by linarith [unit_nonneg4 64])
  have hG : normFactor 24 64 n ≤ 1 + 8 / 16777216 := by
    unfold normFactor
    rw [u1]
    generalize (1 + unitRoundoff 64) ^ n = X at hX hX1
    have h1 : (1 + 1 / 16777216 : ℝ) ^ 7 * X ≤ (1 + 1 / 16777216 : ℝ) ^ 7 * (1 + 1 / 4294967296) :=
      mul_le_mul_of_nonneg_left hX (by positivity)
    refine h1.trans ?_
    norm_num
  have hdot := dense_accurate_dot (n := n) (by norm_num) (by norm_num) hD hL h
  have hdot' := dense_accurate_transpose_dot (n := n) (by norm_num) (by norm_num) hD hL h
  have heD : 0 ≤ (1 + unitRoundoff 24) ^ 6 * (1 + unitRoundoff 64) ^ n - 1 := by
    linarith [one_le_G (unit_nonneg4 24) (unit_nonneg4 64) 6 n]
  have e1 : (1 + unitRoundoff 24) / (2 - normFactor 24 64 n) - 1 ≤ 10 / 2 ^ 24 := by
    rw [sub_le_iff_le_add, div_le_iff₀ (by linarith), u1]
    nlinarith
  have e3 : (1 + ((1 + unitRoundoff 24) ^ 6 * (1 + unitRoundoff 64) ^ n - 1)) * (1 + unitRoundoff 24) ^ 3 - 1 ≤
      10 / 2 ^ 24 := by
    rw [u1]
    generalize (1 + unitRoundoff 64) ^ n = X at hX hX1
    have h1 : (1 + 1 / 16777216 : ℝ) ^ 6 * X * (1 + 1 / 16777216 : ℝ) ^ 3 ≤
        (1 + 1 / 16777216 : ℝ) ^ 6 * (1 + 1 / 4294967296) * (1 + 1 / 16777216 : ℝ) ^ 3 :=
      mul_le_mul_of_nonneg_right (mul_le_mul_of_nonneg_left hX (by positivity)) (by positivity)
    have h3 : (1 + 1 / 16777216 : ℝ) ^ 6 * (1 + 1 / 4294967296) * (1 + 1 / 16777216 : ℝ) ^ 3 - 1 ≤ 10 / 2 ^ 24 := by
      norm_num
    rw [add_sub_cancel]
    linarith
  have hLn : ∀ b u v k i, 0 ≤ leftAbs (n := n) (fun i j => |M i j|) b u v k i := fun b u v k i => by
    unfold leftAbs
    have : 0 ≤ ((fun i j => |M i j| : Matrix (Fin n) (Fin n) ℝ) *ᵥ fun j => |v k j|) i := by
      show 0 ≤ ∑ j, |M i j| * |v k j|
      exact Finset.sum_nonneg fun j _ => mul_nonneg (abs_nonneg _) (abs_nonneg _)
    split_ifs <;> positivity
  have hRn : ∀ a u v k i, 0 ≤ rightAbs (n := n) (fun i j => |M j i|) a u v k i := fun a u v k i => by
    unfold rightAbs
    have : 0 ≤ ((fun i j => |M j i| : Matrix (Fin n) (Fin n) ℝ) *ᵥ fun j => |u k j|) i := by
      show 0 ≤ ∑ j, |M j i| * |u k j|
      exact Finset.sum_nonneg fun j _ => mul_nonneg (abs_nonneg _) (abs_nonneg _)
    positivity
  rcases rounded_golub_kahn_partial (by norm_num) (by norm_num) (by norm_num) hD hE hL (by linarith) heD heD hdot hdot' hz hm
    htol hU0 hU0' hV0 hV0' ha hb with ⟨g0, k, hk, u, v, a, b, g4⟩ | ⟨size, alpha', beta', u, v, g1, g2, g3, -, -, -, g4⟩
  · refine .inl ⟨g0, k, hk, u, v, a, b, fun i => (g4.start i).trans ?_, fun k hk => (g4.unitLeft k hk).trans e1,
      fun k hk => (g4.unitRight k hk).trans e1, fun k hk i => (g4.left k hk i).trans ?_,
      fun k hk i => (g4.right k hk i).trans ?_, fun i => (g4.zero i).trans ?_⟩
    · exact mul_le_mul_of_nonneg_right e1 (abs_nonneg _)
    · exact mul_le_mul_of_nonneg_right e3 (hLn _ _ _ _ _)
    · exact mul_le_mul_of_nonneg_right e3 (hRn _ _ _ _ _)
    · exact mul_le_mul_of_nonneg_right e3 (hLn _ _ _ _ _)
  · refine .inr ⟨size, alpha', beta', u, v, g1, g2, g3, fun i => (g4.start i).trans ?_,
      fun k hk => (g4.unitLeft k hk).trans e1, fun k hk => (g4.unitRight k hk).trans e1, g4.positive,
      fun k hk i => (g4.left k hk i).trans ?_, fun k hk i => (g4.right k hk i).trans ?_, ?_⟩
    · exact mul_le_mul_of_nonneg_right e1 (abs_nonneg _)
    · exact mul_le_mul_of_nonneg_right e3 (hLn _ _ _ _ _)
    · exact mul_le_mul_of_nonneg_right e3 (hRn _ _ _ _ _)
    · obtain ⟨r, k1, k2⟩ := g4.last
      refine ⟨r, fun i => (k1 i).trans (mul_le_mul_of_nonneg_right e3 (hRn _ _ _ _ _)), k2.trans ?_⟩
      refine mul_le_mul_of_nonneg_right ?_ (len_nonneg r)
      refine le_trans (by linarith : _ ≤ (8 : ℝ) / 16777216) (by norm_num)

/-- One step for a non-symmetric matrix of order two: no breakdown. -/
example {flD flE flL : ℝ → ℝ} (hD : Nearest 24 flD) (hE : Nearest 53 flE) (hL : Nearest 64 flL) :
    ∃ size alpha' beta' u v, Rounded.golubKahn flD flE flL
        (fun x c => Rounded.denseMatvec flD flL #[2, 1, 0, 3] x 2 2 true c)
        (fun x c => Rounded.denseTransposedMatvec flD flL #[2, 1, 0, 3] x 2 2 true c) 2 (Array.ofFn ![1, -1]) 1 (1 / 1000)
        #[(#[0, 0], true), (#[0, 0], true)] #[(#[0, 0], true), (#[0, 0], true)] #[0] #[0] = .ok (size, alpha', beta') ∧
      size = 1 ∧ NearlyGolubKahn !![2, 1; 0, 3] (fun i j => |!![(2 : ℝ), 1; 0, 3] i j|)
        (fun i j => |!![(2 : ℝ), 1; 0, 3] j i|) ![1, -1] size (fun k => alpha'.getD k 0) (fun k => beta'.getD k 0)
        (10 / 2 ^ 24) (10 / 2 ^ 24) (10 / 2 ^ 24) (10 / 2 ^ 24) u v := by
  have hz : (![1, -1] : Fin 2 → ℝ) ≠ 0 := fun h => by
    have := congrFun h 0
    simp at this
  have hA : DenseRepr true #[2, 1, 0, 3] (!![2, 1; 0, 3] : Matrix (Fin 2) (Fin 2) ℝ) :=
    ⟨rfl, fun i j => by fin_cases i <;> fin_cases j <;> rfl⟩
  rcases rounded_golub_kahn_single_partial (n := 2) (by norm_num) hD hE hL hA hz (m := 1) (by norm_num)
    (tol := 1 / 1000) (by norm_num) (U0 := #[(#[0, 0], true), (#[0, 0], true)]) (V0 := #[(#[0, 0], true), (#[0, 0], true)])
    rfl (by simp) rfl (by simp) (alpha := #[0]) (beta := #[0]) rfl rfl with
    ⟨-, k, hk, u, v, a, b, h⟩ | ⟨size, alpha', beta', u, v, h1, h2, h3, h4⟩
  · exfalso
    obtain rfl : k = 0 := by omega
    have := breakdown_first (fun _ _ => le_rfl) hz (by norm_num) h 1
    simp [Matrix.mulVec, dotProduct, Fin.sum_univ_two, abs_of_pos] at this
    norm_num at this
  · exact ⟨size, alpha', beta', u, v, h1, by omega, h4⟩

/-- A singular matrix of order two, with a start vector in its kernel. -/
example : ∃ (A : Array ℝ) (M : Matrix (Fin 2) (Fin 2) ℝ) (z : Fin 2 → ℝ), DenseRepr true A M ∧ z ≠ 0 ∧ M ≠ 0 ∧
    ∀ i j, |M i j| * z j = 0 := by
  refine ⟨#[1, 0, 2, 0], !![1, 0; 2, 0], ![0, 1], ⟨rfl, fun i j => ?_⟩, fun h => ?_, fun h => ?_, fun i j => ?_⟩
  · fin_cases i <;> fin_cases j <;> rfl
  · have := congrFun h 1
    simp at this
  · have := congrFun (congrFun h 0) 0
    simp at this
  · fin_cases i <;> fin_cases j <;> simp

end Imate.Props
