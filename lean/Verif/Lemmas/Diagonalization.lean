import Verif.Spec.Diagonalization
import Verif.Lemmas.SlqExact
import Verif.Lemmas.Rounded
import Mathlib.Tactic.Linarith
import Mathlib.Algebra.Order.Field.Power

/-! The decomposition step. -/

namespace Imate.Diagonalization

open Matrix Imate.Lanczos Imate.Spec

section
variable {T : Type _}

theorem newArray_ok (junk : Nat → T) (k : Nat) :
    newArray junk (k : Int) = .ok (Array.ofFn (fun i : Fin k => junk i.1)) := by
  unfold newArray
  rw [if_neg (by omega)]
  rfl

theorem newArray_work (junk : Nat → T) {n : Nat} (h : 1 ≤ n) :
    newArray junk (2 * (n : Int) - 2) = .ok (Array.ofFn (fun i : Fin (2 * n - 2) => junk i.1)) := by
  rw [← newArray_ok]
  congr 1
  omega

theorem newArray_pred (junk : Nat → T) {n : Nat} (h : 1 ≤ n) :
    newArray junk ((n : Int) - 1) = .ok (Array.ofFn (fun i : Fin (n - 1) => junk i.1)) := by
  rw [← newArray_ok]
  congr 1
  omega

theorem newArray_sq (junk : Nat → T) (n : Nat) :
    newArray junk ((n : Int) * n) = .ok (Array.ofFn (fun i : Fin (n * n) => junk i.1)) := by
  rw [← newArray_ok]
  congr 1
end

universe u

variable {K : Type _} {T : Type _}

theorem map_bind' {α β γ : Type u} (x : Except Fault α) (f : α → Except Fault β) (g : β → γ) :
    (x >>= f).map g = x >>= fun a => (f a).map g := by
  cases x <;> rfl

theorem assertion_comma (c : Bool) (m : String) : assertion (comma c m) = .ok () := rfl

/-- A cast loop writes the first `count` elements and keeps the others. -/
theorem castLoop_ok (cast : K → K) {count : Nat} {source target : Array K} (hs : count ≤ source.size)
    (ht : count ≤ target.size) :
    ∃ t, castLoop cast count source target = .ok t ∧ t.size = target.size ∧
      (∀ i < count, t[i]? = (source[i]?).map cast) ∧ (∀ i, count ≤ i → t[i]? = target[i]?) := by
  obtain ⟨t, h1, h2, h3, h4⟩ := forRange_inv (lo := 0) (hi := count)
    (body := fun i (t : Array K) => do wr t i (cast (← rd source i)))
    (fun i t => t.size = target.size ∧ (∀ j < i, t[j]? = (source[j]?).map cast) ∧
      (∀ j, i ≤ j → t[j]? = target[j]?)) (Nat.zero_le _) target
    ⟨rfl, by simp, by simp⟩ (by
      rintro i _ hi t ⟨h1, h2, h3⟩
      rw [rd_ok (Array.getElem?_eq_getElem (show i < source.size by omega)), Except.ok_bind',
        wr_ok (show i < t.size by omega)]
      refine ⟨_, rfl, by simp [h1], ?_, ?_⟩
      · intro j hj
        rcases Nat.lt_or_ge j i with h | h
        · rw [Array.getElem?_set_ne _ (by omega)]; exact h2 j h
        · obtain rfl : j = i := by omega
          rw [Array.getElem?_set_self, Array.getElem?_eq_getElem (show j < source.size by omega)]
          rfl
      · intro j hj
        rw [Array.getElem?_set_ne _ (by omega)]; exact h3 j (by omega))
  exact ⟨t, h1, h2, h3, h4⟩

/-- The decomposition step of `float` and `double`. -/
theorem direct_eigh (junk : Nat → K) (stev : StevRoutine K) {k : Nat} (hk : 1 ≤ k) (alpha beta : Array K) :
    eigh junk (directStev stev) k alpha beta =
      ((stev k alpha beta (Array.ofFn (fun i : Fin (k * k) => junk i.1))
          (Array.ofFn (fun i : Fin (2 * k - 2) => junk i.1))).d,
        (stev k alpha beta (Array.ofFn (fun i : Fin (k * k) => junk i.1))
          (Array.ofFn (fun i : Fin (2 * k - 2) => junk i.1))).z) := by
  unfold eigh eighTridiagonal directStev
  rw [newArray_work junk hk]
  rfl

/-- Everything LAPACK is given by `lapack_xstev<long double>`, and what is made of its results. -/
theorem longStev_ok (toDouble : K → K) (junk : Nat → K) (dstev : StevRoutine K) {n : Nat} (hn : 1 ≤ n)
    {d e z work : Array K} (hd : n ≤ d.size) (he : n - 1 ≤ e.size) (hz : n * n ≤ z.size)
    (hsz : ∀ d' e' z' w', d'.size = n → e'.size = n - 1 → z'.size = n * n → w'.size = 2 * n - 2 → (dstev n d' e' z' w').d.size = n ∧
      (dstev n d' e' z' w').z.size = n * n) :
    ∃ d' e' z' w' r, r = dstev n d' e' z' w' ∧ d'.size = n ∧ e'.size = n - 1 ∧ z'.size = n * n ∧
      w'.size = 2 * n - 2 ∧
      (∀ i < n, d'[i]? = (d[i]?).map toDouble) ∧ (∀ i < n - 1, e'[i]? = (e[i]?).map toDouble) ∧
      (∀ x ∈ z', ∃ i, x = junk i) ∧ (∀ x ∈ w', ∃ i, x = junk i) ∧
      ∃ s, longStev toDouble junk dstev n d e z work = .ok s ∧ s.d.size = d.size ∧ s.z.size = z.size ∧
        s.info = r.info ∧ s.e = e ∧ (∀ i < n, s.d[i]? = r.d[i]?) ∧ (∀ i, n ≤ i → s.d[i]? = d[i]?) ∧
        (∀ i < n * n, s.z[i]? = r.z[i]?) ∧ (∀ i, n * n ≤ i → s.z[i]? = z[i]?) := by
  obtain ⟨d', h1, h2, h3, _⟩ := castLoop_ok toDouble (count := n) (source := d)
    (target := Array.ofFn (fun i : Fin n => junk i.1)) hd (by simp)
  obtain ⟨e', g1, g2, g3, _⟩ := castLoop_ok toDouble (count := n - 1) (source := e)
    (target := Array.ofFn (fun i : Fin (n - 1) => junk i.1)) he (by simp)
  have hd' : d'.size = n := by rw [h2]; simp
  have he' : e'.size = n - 1 := by rw [g2]; simp
  obtain ⟨s1, s2⟩ := hsz d' e' (Array.ofFn (fun i : Fin (n * n) => junk i.1))
    (Array.ofFn (fun i : Fin (2 * n - 2) => junk i.1)) hd' he' (by simp) (by simp)
  obtain ⟨d'', a1, a2, a3, a4⟩ := castLoop_ok (K := K) id (count := n)
    (source := (dstev n d' e' (Array.ofFn (fun i : Fin (n * n) => junk i.1))
      (Array.ofFn (fun i : Fin (2 * n - 2) => junk i.1))).d) (target := d) (by omega) hd
  obtain ⟨z'', b1, b2, b3, b4⟩ := castLoop_ok (K := K) id (count := n * n)
    (source := (dstev n d' e' (Array.ofFn (fun i : Fin (n * n) => junk i.1))
      (Array.ofFn (fun i : Fin (2 * n - 2) => junk i.1))).z) (target := z) (by omega) hz
  refine ⟨d', e', Array.ofFn (fun i : Fin (n * n) => junk i.1), Array.ofFn (fun i : Fin (2 * n - 2) => junk i.1), _,
    rfl, hd', he', by simp, by simp, h3, g3, ?_, ?_,
    ⟨d'', e, z'', _⟩, ?_, a2, b2, rfl, rfl, ?_, a4, ?_, b4⟩
  · intro x hx
    obtain ⟨i, hi⟩ := Array.mem_ofFn.1 hx
    exact ⟨i.1, hi.symm⟩
  · intro x hx
    obtain ⟨i, hi⟩ := Array.mem_ofFn.1 hx
    exact ⟨i.1, hi.symm⟩
  · unfold longStev
    rw [newArray_ok, Except.ok_bind', h1, Except.ok_bind', newArray_pred junk hn, Except.ok_bind', g1,
      Except.ok_bind', newArray_sq, Except.ok_bind', newArray_work junk hn, Except.ok_bind']
    dsimp only
    rw [a1, Except.ok_bind', b1, Except.ok_bind']
  · intro i hi
    rw [a3 i hi]
    simp
  · intro i hi
    rw [b3 i hi]
    simp

theorem newArray_svdWork (junk : Nat → T) (n : Nat) :
    newArray junk (3 * (n : Int) * n + 4 * n) = .ok (Array.ofFn (fun i : Fin (3 * n * n + 4 * n) => junk i.1)) := by
  rw [← newArray_ok]
  congr 1

/-- Everything LAPACK is given by `lapack_xbdsdc<long double>`, and what is made of its results. -/
theorem longBdsdc_ok (toDouble : K → K) (junk : Nat → K) (dbdsdc : BdsdcRoutine K) {n : Nat} (hn : 1 ≤ n)
    {d e u vt work : Array K} {iwork : Array Int} (hd : n ≤ d.size) (he : n - 1 ≤ e.size) (hu : n * n ≤ u.size)
    (hvt : n * n ≤ vt.size)
    (hsz : ∀ d' e' u' v' w', d'.size = n → e'.size = n - 1 → u'.size = n * n → v'.size = n * n →
      w'.size = 3 * n * n + 4 * n → (dbdsdc n d' e' u' v' w' iwork).d.size = n ∧
      (dbdsdc n d' e' u' v' w' iwork).u.size = n * n ∧ (dbdsdc n d' e' u' v' w' iwork).vt.size = n * n) :
    ∃ d' e' u' v' w' r, r = dbdsdc n d' e' u' v' w' iwork ∧ d'.size = n ∧ e'.size = n - 1 ∧ u'.size = n * n ∧
      v'.size = n * n ∧ w'.size = 3 * n * n + 4 * n ∧
      (∀ i < n, d'[i]? = (d[i]?).map toDouble) ∧ (∀ i < n - 1, e'[i]? = (e[i]?).map toDouble) ∧
      ∃ s, longBdsdc toDouble junk dbdsdc n d e u vt work iwork = .ok s ∧ s.d.size = d.size ∧ s.u.size = u.size ∧
        s.vt.size = vt.size ∧ s.info = r.info ∧ s.e = e ∧ (∀ i < n, s.d[i]? = r.d[i]?) ∧ (∀ i, n ≤ i → s.d[i]? = d[i]?) ∧
        (∀ i < n * n, s.u[i]? = r.u[i]?) ∧ (∀ i, n * n ≤ i → s.u[i]? = u[i]?) ∧
        (∀ i < n * n, s.vt[i]? = r.vt[i]?) ∧ (∀ i, n * n ≤ i → s.vt[i]? = vt[i]?) := by
  obtain ⟨d', h1, h2, h3, _⟩ := castLoop_ok toDouble (count := n) (source := d)
    (target := Array.ofFn (fun i : Fin n => junk i.1)) hd (by simp)
  obtain ⟨e', g1, g2, g3, _⟩ := castLoop_ok toDouble (count := n - 1) (source := e)
    (target := Array.ofFn (fun i : Fin (n - 1) => junk i.1)) he (by simp)
  have hd' : d'.size = n := by rw [h2]; simp
  have he' : e'.size = n - 1 := by rw [g2]; simp
  set U : Array K := Array.ofFn (fun i : Fin (n * n) => junk i.1) with hU
  set W : Array K := Array.ofFn (fun i : Fin (3 * n * n + 4 * n) => junk i.1) with hW
  obtain ⟨s1, s2, s3⟩ := hsz d' e' U U W hd' he' (by simp [hU]) (by simp [hU]) (by simp [hW])
  obtain ⟨d'', a1, a2, a3, a4⟩ := castLoop_ok (K := K) id (count := n)
    (source := (dbdsdc n d' e' U U W iwork).d) (target := d) (by omega) hd
  obtain ⟨u'', b1, b2, b3, b4⟩ := castLoop_ok (K := K) id (count := n * n)
    (source := (dbdsdc n d' e' U U W iwork).u) (target := u) (by omega) hu
  obtain ⟨v'', c1, c2, c3, c4⟩ := castLoop_ok (K := K) id (count := n * n)
    (source := (dbdsdc n d' e' U U W iwork).vt) (target := vt) (by omega) hvt
  refine ⟨d', e', U, U, W, _, rfl, hd', he', by simp [hU], by simp [hU], by simp [hW], h3, g3,
    ⟨d'', e, u'', v'', _⟩, ?_, a2, b2, c2, rfl, rfl, ?_, a4, ?_, b4, ?_, c4⟩
  · unfold longBdsdc
    rw [newArray_ok, Except.ok_bind', h1, Except.ok_bind', newArray_pred junk hn, Except.ok_bind', g1,
      Except.ok_bind', newArray_sq, Except.ok_bind', Except.ok_bind', newArray_svdWork, Except.ok_bind']
    dsimp only
    rw [a1, Except.ok_bind', b1, Except.ok_bind', c1, Except.ok_bind']
  · intro i hi
    rw [a3 i hi]
    simp
  · intro i hi
    rw [b3 i hi]
    simp
  · intro i hi
    rw [c3 i hi]
    simp

/-- The decomposition step of `long double`. -/
theorem long_eigh (toDouble : K → K) (junk : Nat → K) (dstev : StevRoutine K) {k : Nat} (hk : 1 ≤ k)
    {alpha beta : Array K} {s : Stev K}
    (h : longStev toDouble junk dstev k alpha beta (Array.ofFn (fun i : Fin (k * k) => junk i.1))
      (Array.ofFn (fun i : Fin (2 * k - 2) => junk i.1)) = .ok s) :
    eigh junk (longStev toDouble junk dstev) k alpha beta = (s.d, s.z) := by
  unfold eigh eighTridiagonal
  rw [newArray_work junk hk, Except.ok_bind', h, Except.ok_bind', assertion_comma]
  rfl

/-- The nodes a sample reads from the results of the decomposition. -/
theorem lanczosNodes_eq {n : Nat} {ext : External ℝ} {opt : Options ℝ}
    {dot : (Fin n → ℝ) → Except Fault (Fin n → ℝ)} {z : Fin n → ℝ} {alpha beta : Array ℝ} {c : Coefficients ℝ}
    (hc : lanczos ext.sqrt ext.eps dot z opt.degree opt.tol opt.orthogonalize alpha beta = .ok c)
    (h1 : c.size ≤ (ext.eigh c.size c.alpha c.beta).1.size)
    (h2 : c.size * c.size ≤ (ext.eigh c.size c.alpha c.beta).2.size) :
    lanczosNodes ext opt dot z alpha beta =
      .ok (List.ofFn (fun i : Fin c.size => ((ext.eigh c.size c.alpha c.beta).1.getD i.1 0,
        (ext.eigh c.size c.alpha c.beta).2.getD (i.1 * c.size) 0)),
        (ext.eigh c.size c.alpha c.beta).1, c.beta) := by
  have hread := readNodes_array (k := c.size) (a := (ext.eigh c.size c.alpha c.beta).1)
    (v := (ext.eigh c.size c.alpha c.beta).2) h1 (fun i => i * c.size) (by
      intro i hi
      exact (Nat.mul_lt_mul_of_pos_right hi (by omega)).trans_le h2) id
  unfold lanczosNodes
  rw [hc, Except.ok_bind']
  have hfun : (fun i => rd (ext.eigh c.size c.alpha c.beta).1 i) =
      (fun i => do .ok (id (← rd (ext.eigh c.size c.alpha c.beta).1 i))) := by
    funext i
    cases rd (ext.eigh c.size c.alpha c.beta).1 i <;> rfl
  show (readNodes c.size (fun i => rd (ext.eigh c.size c.alpha c.beta).1 i) _ >>= _) = _
  rw [hfun, hread, Except.ok_bind']
  rfl

/-- A sample with one parameter. -/
theorem slqSample_one {n : Nat} {ext : External ℝ} {opt : Options ℝ} {op : Operator ℝ n} {z : Fin n → ℝ} {f : ℝ → ℝ}
    {t v0 : ℝ} {junkAlpha junkBeta a b : Array ℝ} {l : Nodes ℝ}
    (hl : inquiryNodes ext opt op z t junkAlpha junkBeta = .ok (l, a, b)) :
    slqSample ext opt op f #[t] 1 z junkAlpha junkBeta #[false] #[v0] =
      .ok (#[false], #[n * quadratureSum ext.pow f opt.exponent l]) := by
  have hreq : requiredInquiries op 1 = 1 := by unfold requiredInquiries; simp
  have hcond : (op.relationKnown && decide (1 > 1)) = false := by simp
  unfold slqSample
  simp only [hreq]
  have hb := inquiryBody_run (ext := ext) (opt := opt) (op := op) (z := z) (parameters := #[t])
    (converged := #[false]) (required := 1) (num := 1) (j := 0)
    (s := ⟨Array.replicate 1 none, junkAlpha, junkBeta⟩) (b := false) rfl (Or.inl rfl) (t := t) rfl hl (by simp)
  unfold forRange
  show ((loopN 1 _ 1 0 _) >>= _) = _
  simp only [loopN]
  rw [hb, Except.ok_bind', Except.ok_bind']
  unfold allNodes resetConverged
  rw [hcond]
  simp only [Bool.false_eq_true, if_false, Except.ok_bind']
  rfl

/-- Numbers next to 1 are rounded to 1. -/
theorem nearest_near_one {p : ℕ} (hp : 1 ≤ p) {fl : ℝ → ℝ} (h : Nearest p fl) {x : ℝ}
    (hx : |x - 1| ≤ (2 : ℝ) ^ (-(p : ℤ) - 2)) : fl x = 1 := by
  have h1 := (h x).2 1 (by simpa using Rounded.representable_pow hp 0)
  obtain ⟨s, e, hs, hy⟩ := (h x).1
  have hP : (0 : ℝ) < (2 : ℝ) ^ (-(p : ℤ)) := by positivity
  have hP1 : (2 : ℝ) ^ (-(p : ℤ)) ≤ 1 := zpow_le_one_of_nonpos₀ (by norm_num) (by omega)
  have hx' : |x - 1| ≤ (2 : ℝ) ^ (-(p : ℤ)) / 4 := by
    rw [zpow_sub₀ (by norm_num)] at hx
    norm_num at hx ⊢
    exact hx
  have hd : |fl x - 1| ≤ (2 : ℝ) ^ (-(p : ℤ)) / 2 := by
    have := abs_add_le (fl x - x) (x - 1)
    rw [sub_add_sub_cancel] at this
    rw [abs_sub_comm 1 x] at h1
    linarith
  have hge : (1 : ℝ) / 2 ≤ fl x := by
    have := (abs_le.1 hd).1
    linarith
  have hpe : (0 : ℝ) < (2 : ℝ) ^ e := by positivity
  have hs' : (s : ℝ) < (2 : ℝ) ^ p := by
    have : s < 2 ^ p := (le_abs_self s).trans_lt hs
    exact_mod_cast this
  have he : -(p : ℤ) ≤ e := by
    by_contra hc
    push Not at hc
    have h2 : (2 : ℝ) ^ e ≤ (2 : ℝ) ^ (-(p : ℤ) - 1) := zpow_le_zpow_right₀ (by norm_num) (by omega)
    have h3 : (s : ℝ) * (2 : ℝ) ^ e < (2 : ℝ) ^ p * (2 : ℝ) ^ (-(p : ℤ) - 1) :=
      (mul_lt_mul_of_pos_right hs' hpe).trans_le (mul_le_mul_of_nonneg_left h2 (by positivity))
    rw [← zpow_natCast, ← zpow_add₀ (by norm_num)] at h3
    have h4 : (p : ℤ) + (-(p : ℤ) - 1) = -1 := by ring
    rw [h4, ← hy] at h3
    norm_num at h3
    linarith
  obtain ⟨t, ht⟩ : ∃ t : ℕ, e = (t : ℤ) + -(p : ℤ) := ⟨(e + p).toNat, by omega⟩
  have hk : fl x = ((s * 2 ^ t : ℤ) : ℝ) * (2 : ℝ) ^ (-(p : ℤ)) := by
    rw [hy, ht, zpow_add₀ (by norm_num), zpow_natCast]
    push_cast
    ring
  have hone : (1 : ℝ) = ((2 ^ p : ℤ) : ℝ) * (2 : ℝ) ^ (-(p : ℤ)) := by
    push_cast
    rw [_root_.zpow_neg, zpow_natCast, mul_inv_cancel₀ (by positivity)]
  have hdiff : fl x - 1 = ((s * 2 ^ t - 2 ^ p : ℤ) : ℝ) * (2 : ℝ) ^ (-(p : ℤ)) := by
    conv_lhs => rw [hk, hone]
    push_cast
    ring
  rw [hdiff, abs_mul, abs_of_pos hP] at hd
  have h5 : |((s * 2 ^ t - 2 ^ p : ℤ) : ℝ)| < 1 := by
    by_contra hc
    push Not at hc
    have := mul_le_mul_of_nonneg_right hc hP.le
    linarith
  have h6 : s * 2 ^ t - 2 ^ p = 0 := by
    rw [← Int.cast_abs] at h5
    have : |s * 2 ^ t - 2 ^ p| < 1 := by exact_mod_cast h5
    exact abs_eq_zero.1 (by have := abs_nonneg (s * 2 ^ t - 2 ^ p); omega)
  rw [h6] at hdiff
  simp at hdiff
  linarith

end Imate.Diagonalization
