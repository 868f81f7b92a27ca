import Verif.Props.Accuracy
import Verif.Props.RoundedConvergence
import Verif.Props.RoundedSample
import Verif.Model.RoundedSlq

/-!
# C108: the estimate of SLQ in floating-point arithmetic, from the random vectors to the average

`s` independent sign vectors are `w : Fin s → Fin n → Bool`, all equally likely; `probability` (Spec/Accuracy.lean) is over them.
The numbers of the runs are `Fl fl`: every operation of the average is rounded by `fl`.
-/

namespace Imate.Props

open Matrix Spec Rounded Polynomial Convergence Estimator Imate.Accuracy Imate.RoundedConvergence
open Imate.Lanczos (signVector)

variable {n s : ℕ} {p : ℕ} {fl : ℝ → ℝ}

/-- The run has one inquiry, and its sample `i` is a value that `Sample` allows for the sign vector given by `w i`. -/
structure RoundedDraws (cfg : Config (Fl fl)) (Sample : (Fin n → Bool) → ℝ → Prop) (w : Fin s → Fin n → Bool) : Prop where
  threads : 0 < cfg.numThreads
  inquiries : cfg.numInquiries = 1
  min : cfg.minNumSamples = s
  max : cfg.maxNumSamples = s
  value : ∀ i : Fin s, ∃ v, Sample (w i) v ∧ cfg.value i 0 = Fl.fin v

theorem inf_mul_nonneg {σ : ℝ} (hσ : 0 ≤ σ) :
    FloatLike.mul (FloatLike.inf : Fl fl) (Fl.fin σ) = (FloatLike.nan : Fl fl) ∨
      FloatLike.mul (FloatLike.inf : Fl fl) (Fl.fin σ) = (FloatLike.inf : Fl fl) := by
  have e : FloatLike.mul (FloatLike.inf : Fl fl) (Fl.fin σ) = Fl.round fl (XR.signedInf σ) := rfl
  rw [e]
  unfold XR.signedInf
  rcases hσ.lt_or_eq with h1 | h1
  · right; rw [if_pos h1]; rfl
  · left; rw [if_neg (by rw [← h1]; exact lt_irrefl _), if_neg (by rw [← h1]; exact lt_irrefl _)]; rfl

theorem not_outlier {m half : Fl fl} (h : half = (FloatLike.nan : Fl fl) ∨ half = (FloatLike.inf : Fl fl)) (x : Fl fl) :
    isOutlier m half x = false := by
  unfold isOutlier
  generalize FloatLike.abs (FloatLike.sub x m) = y
  rcases h with h | h <;> subst h
  · rfl
  · change XR.lt XR.pinf y = false
    cases y <;> rfl

theorem rounded_average_all (hp : 1 ≤ p) (h : Nearest p fl) {xs : List ℝ} (h2 : 2 ≤ xs.length) (hn : xs.length ≤ 2 ^ p) (z : Fl fl) :
    (averageEstimate z (FloatLike.inf : Fl fl) (xs.map (Fl.fin (fl := fl)))).trace = Fl.fin (flMean fl xs) ∧
      (averageEstimate z (FloatLike.inf : Fl fl) (xs.map (Fl.fin (fl := fl)))).numOutliers = 0 := by
  have hne : xs ≠ [] := by rintro rfl; simp at h2
  obtain ⟨σ, hσ, hlo, -⟩ := RoundedConvergence.std_accurate hp h h2 hn
  have hσ0 : 0 ≤ σ := by
    refine le_trans (mul_nonneg (pow_nonneg ?_ _) ?_) hlo
    · have : RoundedConvergence.unit p ≤ 1 := by
        unfold RoundedConvergence.unit
        rw [_root_.zpow_neg, zpow_natCast]
        exact inv_le_one_of_one_le₀ (one_le_pow₀ (by norm_num))
      linarith
    · unfold sampleStd
      exact Real.sqrt_nonneg _
  have hhalf : FloatLike.mul (FloatLike.inf : Fl fl) (stdOf (xs.map (Fl.fin (fl := fl)))) = (FloatLike.nan : Fl fl) ∨
      FloatLike.mul (FloatLike.inf : Fl fl) (stdOf (xs.map (Fl.fin (fl := fl)))) = (FloatLike.inf : Fl fl) := by
    rw [hσ]
    exact inf_mul_nonneg hσ0
  have hno : ∀ x : Fl fl, isOutlier (meanOf (xs.map (Fl.fin (fl := fl))))
      (FloatLike.mul (FloatLike.inf : Fl fl) (stdOf (xs.map (Fl.fin (fl := fl))))) x = false := by
    exact fun x => not_outlier hhalf x
  have hm := meanOf_fin hp h hne hn
  unfold averageEstimate
  dsimp only
  have hc : (xs.map (Fl.fin (fl := fl))).countP (fun _ => false) = 0 := by simp
  simp only [hno, Bool.not_false, List.filter_true, hc, Nat.sub_zero]
  exact ⟨hm, trivial⟩

theorem mean_abs_le {xs : List ℝ} {C : ℝ} (hC0 : 0 ≤ C) (h : ∀ x ∈ xs, |x| ≤ C) : mean (xs.map abs) ≤ C := by
  unfold mean
  rw [List.length_map]
  refine div_le_of_le_mul₀ (Nat.cast_nonneg _) hC0 ?_
  have := List.sum_le_card_nsmul (xs.map abs) C (by
    intro y hy
    obtain ⟨x, hx, rfl⟩ := List.mem_map.1 hy
    exact h x hx)
  rw [List.length_map, nsmul_eq_mul] at this
  linarith

theorem mean_perm {xs ys : List ℝ} (h : xs.Perm ys) : mean xs = mean ys := by
  unfold mean
  rw [h.sum_eq, h.length_eq]

/-- C108, one run: whatever the number of threads and the schedule, the average that the run reports is the exact average of the
quadratic forms up to the error `B` of the samples and the rounding errors of the sum. -/
theorem rounded_run_average (hp : 1 ≤ p) (h : Nearest p fl) (hs : 2 ≤ s) (hsp : s ≤ 2 ^ p) {F : Matrix (Fin n) (Fin n) ℝ}
    {Sample : (Fin n → Bool) → ℝ → Prop} {B C : ℝ} (hB0 : 0 ≤ B) (hB : ∀ b v, Sample b v → |v - signVector b ⬝ᵥ (F *ᵥ signVector b)| ≤ B)
    (hC : ∀ b, |signVector b ⬝ᵥ (F *ᵥ signVector b)| ≤ C) {cfg : Config (Fl fl)} {w : Fin s → Fin n → Bool}
    (hd : RoundedDraws cfg Sample w) {ts : List ℕ} {st : State (Fl fl)} (hrun : run cfg (init cfg) ts = some st)
    (hf : Finished cfg st) (z : Fl fl) :
    ∃ t, (averaged cfg z (FloatLike.inf : Fl fl) st 0).trace = Fl.fin t ∧ (averaged cfg z (FloatLike.inf : Fl fl) st 0).numOutliers = 0 ∧
      |t - (∑ k, signVector (w k) ⬝ᵥ (F *ᵥ signVector (w k))) / s| ≤ B + ((1 + unitRoundoff p) ^ (s + 1) - 1) * (C + B) := by
  have hsep : Separate cfg := Or.inr hd.inquiries
  have hN : 0 < cfg.numInquiries := by rw [hd.inquiries]; omega
  have hex : Exclusive cfg := Or.inr (by rw [hsep.required, hd.inquiries])
  obtain ⟨q, hq⟩ : ∃ q, st.inqs[0]? = some q := by
    have hlen : st.inqs.length = 1 := by rw [(inv_run hsep hN hrun).numInqs, hd.inquiries]
    exact ⟨_, List.getElem?_eq_getElem (by omega : 0 < st.inqs.length)⟩
  obtain ⟨a1, a2, a3, a4, a5⟩ := sample_accounting hsep hN hd.threads hrun hf hq
  rw [hd.min, hd.max, min_self] at a1
  rw [hd.max] at a3
  have hl : st.processed.length = s := by omega
  rw [trace_is_average_of_values hsep hN hex hrun hq, List.take_of_length_le (by omega)]
  have hperm : st.processed.Perm (List.range s) := by
    refine (List.subperm_of_subset a4 ?_).perm_of_length_le (by simp [hl])
    intro i hi
    have := a5 i hi
    rw [hd.max] at this
    exact List.mem_range.2 this
  choose v hv hval using hd.value
  -- the samples in the order of processing
  obtain ⟨xs, hxs, hxp⟩ : ∃ xs : List ℝ, st.processed.map (fun i => cfg.value i 0) = xs.map (Fl.fin (fl := fl)) ∧
      xs.Perm (List.ofFn v) := by
    refine ⟨st.processed.map fun i => if hi : i < s then v ⟨i, hi⟩ else 0, ?_, ?_⟩
    · rw [List.map_map]
      apply List.map_congr_left
      intro i hi
      have : i < s := by have := a5 i hi; rwa [hd.max] at this
      simp only [Function.comp, this, dite_true]
      exact hval ⟨i, this⟩
    · refine (hperm.map _).trans (List.Perm.of_eq ?_)
      apply List.ext_getElem (by simp)
      intro i h1 h2
      simp only [List.length_map, List.length_range] at h1
      simp [h1]
  have hlen : xs.length = s := by rw [hxp.length_eq, List.length_ofFn]
  have hne : xs ≠ [] := by rintro rfl; simp at hlen; omega
  rw [hxs]
  obtain ⟨e1, e2⟩ := rounded_average_all hp h (xs := xs) (by omega) (by omega) z
  refine ⟨_, e1, e2, ?_⟩
  obtain ⟨m, hm, hm'⟩ := RoundedConvergence.mean_accurate hp h hne (by omega)
  have : m = flMean fl xs := by
    have := (meanOf_fin hp h hne (by omega)).symm.trans hm
    injection this with this
    exact this.symm
  rw [this, hlen] at hm'
  have hu : (0 : ℝ) ≤ RoundedConvergence.unit p := by unfold RoundedConvergence.unit; positivity
  have hγ : 0 ≤ (1 + RoundedConvergence.unit p) ^ (s + 1) - 1 := by
    have := one_le_pow₀ (by linarith : (1 : ℝ) ≤ 1 + RoundedConvergence.unit p) (n := s + 1)
    linarith
  have hC0 : 0 ≤ C := (abs_nonneg _).trans (hC fun _ => true)
  have habs : ∀ x ∈ xs, |x| ≤ C + B := fun x hx => by
    have hx' := hxp.mem_iff.1 hx
    obtain ⟨k, rfl⟩ := List.mem_ofFn.1 hx'
    have k1 := abs_le.1 (hB (w k) (v k) (hv k))
    have k2 := abs_le.1 (hC (w k))
    rw [abs_le]
    constructor <;> linarith [k1.1, k1.2, k2.1, k2.2]
  have h1 := mul_le_mul_of_nonneg_left (mean_abs_le (by linarith) habs) hγ
  have hs0 : (0 : ℝ) < s := by exact_mod_cast (by omega : 0 < s)
  have h2 : |mean xs - (∑ k, signVector (w k) ⬝ᵥ (F *ᵥ signVector (w k))) / s| ≤ B := by
    rw [mean_perm hxp, mean_ofFn, ← sub_div, ← Finset.sum_sub_distrib, abs_div, abs_of_pos hs0, div_le_iff₀ hs0]
    refine (Finset.abs_sum_le_sum_abs _ _).trans ((Finset.sum_le_sum fun k _ => hB (w k) (v k) (hv k)).trans (le_of_eq ?_))
    rw [Finset.sum_const, Finset.card_univ, Fintype.card_fin, nsmul_eq_mul]
    ring
  have h3 := abs_le.1 (hm'.trans h1)
  have h4 := abs_le.1 h2
  change |flMean fl xs - _| ≤ B + ((1 + RoundedConvergence.unit p) ^ (s + 1) - 1) * (C + B)
  rw [abs_le]
  constructor <;> linarith [h3.1, h3.2, h4.1, h4.2]

/-- C108: the reported trace of independent sign vectors is off by `e` and the rounding errors or more with probability at most
`2 Σ_{i≠j} F_ij² / (s e²)`, also if the schedule of the threads is chosen as badly as possible for every choice of vectors. -/
theorem rounded_estimate (hp : 1 ≤ p) (h : Nearest p fl) (hs : 2 ≤ s) (hsp : s ≤ 2 ^ p) {F : Matrix (Fin n) (Fin n) ℝ}
    (hF : F.IsSymm) {Sample : (Fin n → Bool) → ℝ → Prop} {B C : ℝ}
    (hB0 : 0 ≤ B) (hB : ∀ b v, Sample b v → |v - signVector b ⬝ᵥ (F *ᵥ signVector b)| ≤ B) (hC : ∀ b, |signVector b ⬝ᵥ (F *ᵥ signVector b)| ≤ C)
    {z : Fl fl} {trace : (Fin s → Fin n → Bool) → ℝ}
    (htrace : ∀ w, ∃ (cfg : Config (Fl fl)) (ts : List ℕ) (st : State (Fl fl)), RoundedDraws cfg Sample w ∧
      run cfg (init cfg) ts = some st ∧ Finished cfg st ∧ (averaged cfg z (FloatLike.inf : Fl fl) st 0).trace = Fl.fin (trace w))
    {e : ℝ} (he : 0 < e)
    [DecidablePred fun w => e + (B + ((1 + unitRoundoff p) ^ (s + 1) - 1) * (C + B)) ≤ |trace w - F.trace|] :
    probability (fun w => e + (B + ((1 + unitRoundoff p) ^ (s + 1) - 1) * (C + B)) ≤ |trace w - F.trace|) ≤
      2 * offDiagonal F / (s * e ^ 2) := by
  classical
  have hmse := mean_square_error (s := s) (by omega) (fun x : Fin n → Bool => signVector x ⬝ᵥ (F *ᵥ signVector x))
  rw [expected_form F, variance_form hF] at hmse
  have hcheb := chebyshev (fun w : Fin s → Fin n → Bool => (∑ k, signVector (w k) ⬝ᵥ (F *ᵥ signVector (w k))) / s) F.trace he
  rw [hmse, div_div] at hcheb
  refine le_trans ?_ hcheb
  unfold probability
  refine div_le_div_of_nonneg_right ?_ (Nat.cast_nonneg _)
  rw [Nat.cast_le]
  refine Finset.card_le_card fun w hw => ?_
  rw [Finset.mem_filter] at hw ⊢
  refine ⟨hw.1, ?_⟩
  obtain ⟨cfg, ts, st, hd, hrun, hf, ht⟩ := htrace w
  obtain ⟨t, t1, -, t3⟩ := rounded_run_average hp h hs hsp hB0 hB hC hd hrun hf z
  have : t = trace w := by
    have := t1.symm.trans ht
    injection this
  rw [this] at t3
  generalize trace w = t at *
  have h1 := hw.2
  have h2 := abs_sub_abs_le_abs_sub (t - F.trace) (t - (∑ k, signVector (w k) ⬝ᵥ (F *ᵥ signVector (w k))) / s)
  rw [show t - F.trace - (t - (∑ k, signVector (w k) ⬝ᵥ (F *ᵥ signVector (w k))) / s) =
    (∑ k, signVector (w k) ⬝ᵥ (F *ᵥ signVector (w k))) / s - F.trace by ring] at h2
  linarith

/-! ### The samples of SLQ -/

theorem signVector_sq (b : Fin n → Bool) : signVector b ⬝ᵥ signVector b = (n : ℝ) := by
  have : ∀ i, signVector b i * signVector b i = (1 : ℝ) := fun i => by
    unfold signVector
    split <;> norm_num
  show ∑ i, signVector b i * signVector b i = _
  rw [Finset.sum_congr rfl fun i _ => this i]
  simp

theorem normalized_sign (b : Fin n → Bool) (hn : 0 < n) (x : ℝ) :
    (n : ℝ) * (x / (signVector b ⬝ᵥ signVector b)) = x := by
  have : (n : ℝ) ≠ 0 := by positivity
  rw [signVector_sq]
  field_simp

theorem signVector_ne_zero (b : Fin n → Bool) (hn : 0 < n) : signVector b ≠ (0 : Fin n → ℝ) := by
  intro h
  have h1 := signVector_sq b
  rw [h, zero_dotProduct] at h1
  have : (0 : ℝ) < n := by exact_mod_cast hn
  linarith

theorem trace_matrixFunction {M Q : Matrix (Fin n) (Fin n) ℝ} {lam : Fin n → ℝ} (h : Spectral M Q lam) (f : ℝ → ℝ) :
    (matrixFunction f Q lam).trace = ∑ i, f (lam i) := by
  unfold matrixFunction
  rw [Matrix.trace_mul_comm, ← Matrix.mul_assoc, h.left, Matrix.one_mul, Matrix.trace_diagonal]

/-- The values that one sample of SLQ can take for a sign vector: the contents of the memory that it allocates are arbitrary. -/
def SlqValue (flD flE flL flW : ℝ → ℝ) (lib : Libm) (dot : Array ℝ → Array ℝ → Except Fault (Array ℝ))
    (eigh : Nat → Array ℝ → Array ℝ → Array ℝ × Array ℝ) (eps : ℝ) (orth : ℤ) (m : ℕ) (tol : ℝ) (api : Functions.Api)
    (exponent : ℝ) (b : Fin n → Bool) (v : ℝ) : Prop :=
  ∃ (V0 : Array (Array ℝ)) (r0 alpha beta : Array ℝ), V0.size = m ∧ (∀ row ∈ V0, row.size = n) ∧ r0.size = n ∧ alpha.size = m ∧
    beta.size = m ∧ slqSample flD flE flL flW lib dot eigh eps orth n m tol api exponent (Array.ofFn (signVector b : Fin n → ℝ))
      V0 r0 alpha beta = .ok v

variable {e q : ℕ} {flD flE flL : ℝ → ℝ}

/-- C108 for `trace` (SLQ of the identity function): no approximation error is left. -/
theorem rounded_trace_estimate (hp : 1 ≤ p) (hpe : p ≤ e) (hq : 1 ≤ q) (hD : Nearest p flD) (hE : Nearest e flE)
    (hL : Nearest q flL) {M P : Matrix (Fin n) (Fin n) ℝ} (hM : M.transpose = M) {ε : ℝ} (hε : normFactor p q n - 1 ≤ ε)
    {eDot : ℝ} (heD : 0 ≤ eDot) (heDε : eDot ≤ ε) {dot : Array ℝ → Array ℝ → Except Fault (Array ℝ)}
    (hdot : AccurateDot dot M P eDot) {A : ℝ} (hF : ∀ x : Fin n → ℝ, len (P *ᵥ fun j => |x j|) ≤ A * len x)
    {eps : ℝ} (heps0 : 0 < eps) (heps : eps ≤ 1 / 16) (hepsn : eps * Real.sqrt n ≤ 1 / 4)
    {m : ℕ} (hm : 2 ≤ m) (hmn : m ≤ n) {orth : ℤ} (ho : orth < 0 ∨ (m : ℤ) ≤ orth) {θ : ℝ} (hθ : 0 < θ) (hθA : θ ≤ A)
    (hsq : 4096 * (m ^ 2 * ε * A ^ 2) ≤ θ ^ 2) (hskip : 6000 * (m * ε * A ^ 2) ≤ θ)
    {tol : ℝ} (htol : 0 < tol) (hθt : θ ≤ flE (tol * flE (Real.sqrt n))) {ω : ℝ} (hω : ω = 2688 * (m ^ 3 * ε * A) / θ)
    {δ η : ℝ} (hδ : 0 ≤ δ) (hη : 0 ≤ η) {eigh : Nat → Array ℝ → Array ℝ → Array ℝ × Array ℝ} (heigh : StableEigh m δ η eigh)
    {qW : ℕ} (hqW : 1 ≤ qW) {flW : ℝ → ℝ} (hW : Nearest qW flW) {eLib : ℝ} (heLib : 0 ≤ eLib) (heLib1 : eLib < 1) {lib : Libm}
    (hlib : LibmAccurate eLib lib)
    {ζ γ : ℝ} (hζ : ζ = 2 * Real.sqrt m * η + m * η ^ 2) (hγ : γ = (1 + unitRoundoff p) ^ (m + 4) - 1)
    {B : ℝ} (hB : B = n * (A * (1 + ω) * ((1 + δ) * ((1 + ζ) * (eLib + γ * (1 + eLib)) + ζ) + 2 * ω + δ)))
    (hs : 2 ≤ s) (hsp : s ≤ 2 ^ p) {zscore : Fl flD} {trace : (Fin s → Fin n → Bool) → ℝ}
    (htrace : ∀ w, ∃ (cfg : Config (Fl flD)) (ts : List ℕ) (st : State (Fl flD)),
      RoundedDraws cfg (SlqValue flD flE flL flW lib dot eigh eps orth m tol .trace 1) w ∧
      run cfg (init cfg) ts = some st ∧ Finished cfg st ∧
      (averaged cfg zscore (FloatLike.inf : Fl flD) st 0).trace = Fl.fin (trace w)) {d : ℝ} (hd : 0 < d)
    [DecidablePred fun w => d + (B + ((1 + unitRoundoff p) ^ (s + 1) - 1) * (n * A + B)) ≤ |trace w - M.trace|] :
    probability (fun w => d + (B + ((1 + unitRoundoff p) ^ (s + 1) - 1) * (n * A + B)) ≤ |trace w - M.trace|) ≤
      2 * offDiagonal M / (s * d ^ 2) := by
  have hn : 0 < n := by omega
  have hε0 : 0 ≤ ε := heD.trans heDε
  have hA0 : 0 < A := lt_of_lt_of_le hθ hθA
  have hω0 : 0 ≤ ω := by rw [hω]; positivity
  have hu := (unit_pos p).le
  have hζ0 : 0 ≤ ζ := by rw [hζ]; positivity
  have hγ0 : 0 ≤ γ := by
    have := one_le_pow₀ (by linarith : (1 : ℝ) ≤ 1 + unitRoundoff p) (n := m + 4)
    rw [hγ]; linarith
  have hB0 : 0 ≤ B := by rw [hB]; positivity
  refine rounded_estimate hp hD hs hsp hM hB0 (fun b v hv => ?_) (fun b => ?_) htrace hd
  · obtain ⟨V0, r0, alpha, beta, hV, hV', hr0, ha, hb, hv⟩ := hv
    obtain ⟨size, alpha', beta', r, g1, g2, g3, g4, g5⟩ := rounded_trace_sample_operator hp hpe hq hD hE hL hM hε heD heDε hdot hF
      heps0 heps hepsn hm hmn ho hθ hθA hsq hskip (signVector_ne_zero b hn) htol hθt hV hV' hr0 ha hb hω hδ hη heigh hqW hW heLib
      heLib1 hlib hζ hγ
    have : v = r := by
      unfold slqSample at hv
      rw [g1] at hv
      have h2 := hv.symm.trans g4
      injection h2
    rw [this, hB]
    rwa [normalized_sign b hn] at g5
  · have k1 := (abs_dot_le (signVector b) (M *ᵥ signVector b)).trans
      (mul_le_mul_of_nonneg_left (len_mulVec_le hdot.1 hF (signVector b)) (len_nonneg _))
    refine k1.trans (le_of_eq ?_)
    rw [← signVector_sq b, ← len_sq]
    ring

/-- C108 for every function of the API: `B` bounds the error of a sample for every number of steps it may take, with the best
polynomial of degree below twice that number. -/
theorem rounded_function_estimate (hp : 1 ≤ p) (hpe : p ≤ e) (hq : 1 ≤ q) (hD : Nearest p flD) (hE : Nearest e flE)
    (hL : Nearest q flL) {M P : Matrix (Fin n) (Fin n) ℝ} (hM : M.transpose = M) {ε : ℝ} (hε : normFactor p q n - 1 ≤ ε)
    {eDot : ℝ} (heD : 0 ≤ eDot) (heDε : eDot ≤ ε) {dot : Array ℝ → Array ℝ → Except Fault (Array ℝ)}
    (hdot : AccurateDot dot M P eDot) {A : ℝ} (hF : ∀ x : Fin n → ℝ, len (P *ᵥ fun j => |x j|) ≤ A * len x)
    {eps : ℝ} (heps0 : 0 < eps) (heps : eps ≤ 1 / 16) (hepsn : eps * Real.sqrt n ≤ 1 / 4)
    {m : ℕ} (hm : 2 ≤ m) (hmn : m ≤ n) {orth : ℤ} (ho : orth < 0 ∨ (m : ℤ) ≤ orth) {θ : ℝ} (hθ : 0 < θ) (hθA : θ ≤ A)
    (hsq : 4096 * (m ^ 2 * ε * A ^ 2) ≤ θ ^ 2) (hskip : 6000 * (m * ε * A ^ 2) ≤ θ)
    {tol : ℝ} (htol : 0 < tol) (hθt : θ ≤ flE (tol * flE (Real.sqrt n))) {ω : ℝ} (hω : ω = 2688 * (m ^ 3 * ε * A) / θ)
    {Q : Matrix (Fin n) (Fin n) ℝ} {lam : Fin n → ℝ} (hspec : Spectral M Q lam) {lo hi : ℝ} (hlam : ∀ i, lo ≤ lam i ∧ lam i ≤ hi)
    {δ η : ℝ} (hδ : 0 ≤ δ) (hη : 0 ≤ η) {eigh : Nat → Array ℝ → Array ℝ → Array ℝ × Array ℝ} (heigh : StableEigh m δ η eigh)
    {ρ : ℝ} (hρ : ρ = ω * A + δ * (A * (1 + ω)))
    {qW : ℕ} (hqW : 1 ≤ qW) {flW : ℝ → ℝ} (hW : Nearest qW flW) {eLib : ℝ} (heLib : 0 ≤ eLib) {lib : Libm}
    (hlib : LibmAccurate eLib lib) (api : Functions.Api) (exponent : ℝ) {κ : ℝ → ℝ} {φ F : ℝ}
    (hfun : ∀ x, lo - ρ ≤ x → x ≤ hi + ρ → (0 ≤ κ x ∧ κ x < 1) ∧
      |lib.pow x (flD exponent) - x ^ exponent| ≤ κ x * |x ^ exponent| ∧ WellDefined (unitRoundoff p) (κ x) api (x ^ exponent) ∧
      functionError (unitRoundoff p) (unitRoundoff qW) eLib (κ x) api (x ^ exponent) ≤ φ ∧
      |exactFunction api (x ^ exponent)| ≤ F)
    {ζ γ : ℝ} (hζ : ζ = 2 * Real.sqrt m * η + m * η ^ 2) (hγ : γ = (1 + unitRoundoff p) ^ (m + 4) - 1)
    {B : ℝ} (hB : ∀ k, 0 < k → k ≤ m → ∃ (g : ℝ[X]) (μ : ℝ), g.natDegree < 2 * k ∧
      (∀ x, lo - ρ ≤ x → x ≤ hi + ρ → |exactFunction api (x ^ exponent) - g.eval x| ≤ μ) ∧
      n * ((1 + ζ) * (φ + γ * (F + φ)) + 2 * μ + F * ζ +
        ∑ k ∈ Finset.range (g.natDegree + 1), |g.coeff k| * (A * (1 + ω)) ^ k * ((k + 1) * ω + ((1 + δ) ^ k - 1))) ≤ B)
    (hB0 : 0 ≤ B) (hs : 2 ≤ s) (hsp : s ≤ 2 ^ p) {zscore : Fl flD} {trace : (Fin s → Fin n → Bool) → ℝ}
    (htrace : ∀ w, ∃ (cfg : Config (Fl flD)) (ts : List ℕ) (st : State (Fl flD)),
      RoundedDraws cfg (SlqValue flD flE flL flW lib dot eigh eps orth m tol api exponent) w ∧
      run cfg (init cfg) ts = some st ∧ Finished cfg st ∧
      (averaged cfg zscore (FloatLike.inf : Fl flD) st 0).trace = Fl.fin (trace w)) {d : ℝ} (hd : 0 < d)
    [DecidablePred fun w => d + (B + ((1 + unitRoundoff p) ^ (s + 1) - 1) * (n * F + B)) ≤
      |trace w - ∑ i, exactFunction api (lam i ^ exponent)|] :
    probability (fun w => d + (B + ((1 + unitRoundoff p) ^ (s + 1) - 1) * (n * F + B)) ≤
        |trace w - ∑ i, exactFunction api (lam i ^ exponent)|) ≤
      2 * offDiagonal (matrixFunction (fun x => exactFunction api (x ^ exponent)) Q lam) / (s * d ^ 2) := by
  have hn : 0 < n := by omega
  have hε0 : 0 ≤ ε := heD.trans heDε
  have hA0 : 0 < A := lt_of_lt_of_le hθ hθA
  have hω0 : 0 ≤ ω := by rw [hω]; positivity
  have hρ0 : 0 ≤ ρ := by rw [hρ]; positivity
  simp only [← trace_matrixFunction hspec fun x => exactFunction api (x ^ exponent)] at *
  refine rounded_estimate hp hD hs hsp (matrixFunction_symm _) hB0 (fun b v hv => ?_) (fun b => ?_) htrace hd
  · obtain ⟨V0, r0, alpha, beta, hV, hV', hr0, ha, hb, hv⟩ := hv
    obtain ⟨size, alpha', beta', r, g1, g2, g3, g4, g5⟩ := rounded_sample_operator hp hpe hq hD hE hL hM hε heD heDε hdot hF
      heps0 heps hepsn hm hmn ho hθ hθA hsq hskip (signVector_ne_zero b hn) htol hθt hV hV' hr0 ha hb hω hspec hlam hδ hη heigh hρ
      hqW hW heLib hlib api exponent hfun hζ hγ
    have : v = r := by
      unfold slqSample at hv
      rw [g1] at hv
      have h2 := hv.symm.trans g4
      injection h2
    obtain ⟨g, μ, k1, k2, k3⟩ := hB size g2 g3
    have := g5 g μ k1 k2
    rw [normalized_sign b hn] at this
    subst v
    exact this.trans k3
  · rw [matrixFunction_form, ← signVector_sq b, ← hspec.weights_sum (signVector b), mul_comm, ← Gauss.wsum_const (weights Q _) lam]
    have hl : ∀ i, |exactFunction api (lam i ^ exponent)| ≤ F := fun i =>
      (hfun (lam i) (by linarith [(hlam i).1]) (by linarith [(hlam i).2])).2.2.2.2
    rw [abs_le]
    constructor
    · have := Gauss.wsum_mono (weights_nonneg (Q := Q) (signVector b)) (x := lam) (f := fun _ => -F)
        (g := fun x => exactFunction api (x ^ exponent)) fun i => (abs_le.1 (hl i)).1
      rw [Gauss.wsum_const] at this ⊢
      linarith
    · exact Gauss.wsum_mono (weights_nonneg _) fun i => (abs_le.1 (hl i)).2

/-- Every choice of vectors is drawn by a run that finishes, with three threads. -/
noncomputable def roundedRun (sample : (Fin n → Bool) → ℝ) (w : Fin s → Fin n → Bool) : Config (Fl fl) where
  numThreads := 3
  chunkSize := 2
  minNumSamples := s
  maxNumSamples := s
  numInquiries := 1
  relationKnown := false
  numProducts := 4
  z := Fl.fin 2
  atol := Fl.fin 0
  rtol := Fl.fin (1/100)
  value := fun i _ => if h : i < s then Fl.fin (sample (w ⟨i, h⟩)) else FloatLike.nan
  mixedValue := fun _ _ => FloatLike.nan
  garbageValue := fun _ _ => FloatLike.nan

/-- The hypothesis on the runs of `rounded_estimate` is met: for every relation that allows a value for each vector within `B` there
are runs, and their reported traces are finite. -/
theorem rounded_runs_exist (hp : 1 ≤ p) (h : Nearest p fl) (hs : 2 ≤ s) (hsp : s ≤ 2 ^ p) {F : Matrix (Fin n) (Fin n) ℝ}
    {Sample : (Fin n → Bool) → ℝ → Prop} {B C : ℝ} (hB0 : 0 ≤ B)
    (hB : ∀ b v, Sample b v → |v - signVector b ⬝ᵥ (F *ᵥ signVector b)| ≤ B) (hC : ∀ b, |signVector b ⬝ᵥ (F *ᵥ signVector b)| ≤ C)
    (hex : ∀ b, ∃ v, Sample b v) (z : Fl fl) :
    ∃ trace : (Fin s → Fin n → Bool) → ℝ, ∀ w, ∃ (cfg : Config (Fl fl)) (ts : List ℕ) (st : State (Fl fl)),
      RoundedDraws cfg Sample w ∧ run cfg (init cfg) ts = some st ∧ Finished cfg st ∧
      (averaged cfg z (FloatLike.inf : Fl fl) st 0).trace = Fl.fin (trace w) := by
  choose sample hsample using hex
  have : ∀ w : Fin s → Fin n → Bool, ∃ t : ℝ, ∃ (cfg : Config (Fl fl)) (ts : List ℕ) (st : State (Fl fl)),
      RoundedDraws cfg Sample w ∧ run cfg (init cfg) ts = some st ∧ Finished cfg st ∧
      (averaged cfg z (FloatLike.inf : Fl fl) st 0).trace = Fl.fin t := fun w => by
    have hd : RoundedDraws (roundedRun (fl := fl) sample w) Sample w :=
      ⟨by simp [roundedRun], rfl, rfl, rfl, fun i => ⟨_, hsample (w i), by simp [roundedRun]⟩⟩
    obtain ⟨ts, st, h1, h2⟩ := (loop_terminates (roundedRun (fl := fl) sample w)).2 [] _ rfl
    obtain ⟨t, t1, -⟩ := rounded_run_average hp h hs hsp hB0 hB hC hd h1 h2 z
    exact ⟨t, _, ts, st, hd, h1, h2, t1⟩
  choose trace htrace using this
  exact ⟨trace, htrace⟩

/-- A sample that is always wrong by `1/8`, for a matrix with a non-trivial variance. -/
example {p : ℕ} {fl : ℝ → ℝ} (hp : 1 ≤ p) (h : Nearest p fl) (z : Fl fl) := rounded_runs_exist (s := 2) hp h le_rfl
  (le_trans (by norm_num) (Nat.pow_le_pow_right (by norm_num) hp)) (F := !![2, 1; 1, 3]) (B := 1 / 8) (C := 7)
  (Sample := fun b v => v = signVector b ⬝ᵥ (!![2, 1; 1, 3] *ᵥ signVector b) + 1 / 8) (by norm_num)
  (fun b v hv => by rw [hv, add_sub_cancel_left]; norm_num)
  (fun b => by
    rw [abs_le]
    cases h0 : b 0 <;> cases h1 : b 1 <;>
      simp [signVector, h0, h1, Matrix.mulVec, dotProduct, Fin.sum_univ_two] <;> norm_num) (fun b => ⟨_, rfl⟩) z

end Imate.Props
