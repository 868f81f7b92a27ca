import Verif.Lemmas.MaximalAverage
import Verif.Props.RoundedEstimate

/-!
# C109: the stopping rule does not spoil the accuracy of the estimate

The loop of the samples ends between `min_num_samples` and `max_num_samples`, when the estimates seem to have converged.  Whatever
the rule, the estimate is as accurate as Chebyshev's inequality allows for `min_num_samples` samples, if the order in which the
samples are processed does not depend on their values.  `s` is `max_num_samples`; the random vectors of all samples are
`w : Fin s → Fin n → Bool`, all equally likely.
-/

namespace Imate.Props

open Matrix Spec Rounded Convergence Estimator Imate.Accuracy Imate.RoundedConvergence
open Imate.Lanczos (signVector)

variable {n s k₀ : ℕ} {p : ℕ} {fl : ℝ → ℝ}

theorem sum_castLE {k : ℕ} (hk : k ≤ s) (f : Fin s → ℝ) :
    ∑ i : Fin s, (if i.1 < k then f i else 0) = ∑ i : Fin k, f (Fin.castLE hk i) := by
  rw [← Finset.sum_filter]
  have h3 : (Finset.univ.filter fun i : Fin s => i.1 < k) = (Finset.univ : Finset (Fin k)).map (Fin.castLEEmb hk) := by
    ext i
    simp only [Finset.mem_filter, Finset.mem_univ, true_and, Finset.mem_map]
    constructor
    · exact fun h => ⟨⟨i.1, h⟩, rfl⟩
    · rintro ⟨a, rfl⟩
      exact a.2
  rw [h3, Finset.sum_map]
  rfl

/-- The average of the samples that come first in a fixed order, where their number depends on all samples. -/
theorem stopped_average {Ω : Type} [Fintype Ω] [Nonempty Ω] (Y : Ω → ℝ) (hk₀ : 0 < k₀) (hs : k₀ ≤ s) {κ : (Fin s → Ω) → ℕ}
    (hκ : ∀ w, k₀ ≤ κ w ∧ κ w ≤ s) (order : Equiv.Perm (Fin s)) {e : ℝ} (he : 0 < e)
    [DecidablePred fun w => e ≤ |(∑ i : Fin (κ w), Y (w (order (Fin.castLE (hκ w).2 i)))) / κ w - expected Y|] :
    probability (fun w => e ≤ |(∑ i : Fin (κ w), Y (w (order (Fin.castLE (hκ w).2 i)))) / κ w - expected Y|) ≤
      expected (fun x => (Y x - expected Y) ^ 2) / (k₀ * e ^ 2) := by
  classical
  let Z : Ω → ℝ := fun x => Y x - expected Y
  have hZ : expected Z = 0 := by
    have := expected_add Y fun _ => -expected Y
    rw [expected_const] at this
    show expected (fun x => Y x - expected Y) = 0
    simp only [sub_eq_add_neg]
    rw [this]
    ring
  let κ' : (Fin s → Ω) → ℕ := fun w' => κ fun i => w' (order.symm i)
  have h1 := maximal_average Z hk₀ hs (κ := κ') (fun w => hκ _) he
  rw [mean_square_prefix Z hZ hk₀ hs, div_div] at h1
  refine le_trans (le_of_eq ?_) h1
  unfold probability
  congr 2
  refine Finset.card_equiv (order.symm.arrowCongr (Equiv.refl Ω)) fun w => ?_
  have e1 : (order.symm.arrowCongr (Equiv.refl Ω)) w = fun i => w (order i) := by
    funext a
    simp [Equiv.arrowCongr]
  have e2 : κ' (fun i => w (order i)) = κ w := by
    show κ _ = κ w
    simp
  rw [e1]
  simp only [Finset.mem_filter, Finset.mem_univ, true_and]
  rw [e2]
  have hk : (κ w : ℝ) ≠ 0 := by
    have : 0 < κ w := by have := (hκ w).1; omega
    positivity
  have e3 : firstSum Z (κ w) (fun i => w (order i)) / κ w =
      (∑ i : Fin (κ w), Y (w (order (Fin.castLE (hκ w).2 i)))) / κ w - expected Y := by
    unfold firstSum
    rw [sum_castLE (hκ w).2 fun i => Z (w (order i))]
    show (∑ i : Fin (κ w), (Y _ - expected Y)) / _ = _
    rw [Finset.sum_sub_distrib, Finset.sum_const, Finset.card_univ, Fintype.card_fin, nsmul_eq_mul]
    field_simp
  rw [e3]

theorem take_processed {l : List ℕ} {order : Equiv.Perm (Fin s)} (h : l <+: List.ofFn fun i => (order i).1) {k : ℕ} (hk : k ≤ l.length)
    (hs : k ≤ s) : l.take k = List.ofFn fun i : Fin k => (order (Fin.castLE hs i)).1 := by
  have h1 := List.prefix_iff_eq_take.1 h
  apply List.ext_getElem
  · simp [hk]
  · intro i h2 h3
    rw [List.length_take] at h2
    simp only [List.getElem_take, List.getElem_ofFn]
    have := List.IsPrefix.getElem h (i := i) (by omega)
    rw [this]
    simp

/-- C109 in exact arithmetic. -/
theorem stopped_estimate_accurate {F : Matrix (Fin n) (Fin n) ℝ} (hF : F.IsSymm) (hk₀ : 2 ≤ k₀) (hs : k₀ ≤ s) {z : ℝ}
    (order : Equiv.Perm (Fin s)) {trace : (Fin s → Fin n → Bool) → ℝ}
    (htrace : ∀ w, ∃ (cfg : Config (XR ℝ)) (ts : List ℕ) (st : State (XR ℝ)), Draws cfg F w ∧ cfg.minNumSamples = k₀ ∧
      run cfg (init cfg) ts = some st ∧ Finished cfg st ∧ (st.processed <+: List.ofFn fun i => (order i).1) ∧
      (averaged cfg (.fin z) .pinf st 0).trace = .fin (trace w)) {e : ℝ} (he : 0 < e)
    [DecidablePred fun w => e ≤ |trace w - F.trace|] :
    probability (fun w => e ≤ |trace w - F.trace|) ≤ 2 * offDiagonal F / (k₀ * e ^ 2) := by
  classical
  have key : ∀ w, ∃ κ : ℕ, ∃ hκ : k₀ ≤ κ ∧ κ ≤ s,
      trace w = (∑ i : Fin κ, (fun b => signVector b ⬝ᵥ (F *ᵥ signVector b)) (w (order (Fin.castLE hκ.2 i)))) / κ := fun w => by
    obtain ⟨cfg, ts, st, hd, hmin, hrun, hf, hord, ht⟩ := htrace w
    have hsep : Separate cfg := Or.inr hd.inquiries
    have hN : 0 < cfg.numInquiries := by rw [hd.inquiries]; omega
    have hex : Exclusive cfg := Or.inr (by rw [hsep.required, hd.inquiries])
    obtain ⟨q, hq⟩ := hd.inquiry hrun
    obtain ⟨a1, a2, a3, a4, a5⟩ := sample_accounting hsep hN hd.threads hrun hf hq
    rw [hmin, hd.max, min_eq_left hs] at a1
    rw [hd.max] at a3
    refine ⟨q.numSamplesUsed, ⟨a1, by omega⟩, ?_⟩
    rw [trace_is_average_of_values hsep hN hex hrun hq, take_processed hord a2 (by omega)] at ht
    have hlist : (List.ofFn fun i : Fin q.numSamplesUsed => (order (Fin.castLE (by omega) i)).1).map (fun i => cfg.value i 0) =
        (List.ofFn fun i : Fin q.numSamplesUsed => signVector (w (order (Fin.castLE (by omega) i))) ⬝ᵥ
          (F *ᵥ signVector (w (order (Fin.castLE (by omega) i))))).map XR.fin := by
      rw [List.map_ofFn, List.map_ofFn]
      congr 1
      funext i
      exact hd.value _
    rw [hlist, average_all (by simp; omega)] at ht
    have := XR.fin.inj ht
    rw [← this, mean_ofFn]
  choose κ hκ hκt using key
  have h1 := stopped_average (fun b : Fin n → Bool => signVector b ⬝ᵥ (F *ᵥ signVector b)) (by omega : 0 < k₀) hs hκ order he
  simp only [expected_form F] at h1
  rw [variance_form hF] at h1
  refine le_trans (le_of_eq ?_) h1
  unfold probability
  congr 3
  ext w
  simp only [Finset.mem_filter, Finset.mem_univ, true_and]
  rw [hκt w]

/-- The run has one inquiry and stops between `k₀` and `s` samples; sample `i` is a value that `Sample` allows for the sign vector given
by `w i`. -/
structure RoundedStops (cfg : Config (Fl fl)) (Sample : (Fin n → Bool) → ℝ → Prop) (k₀ : ℕ) (w : Fin s → Fin n → Bool) : Prop where
  threads : 0 < cfg.numThreads
  inquiries : cfg.numInquiries = 1
  min : cfg.minNumSamples = k₀
  max : cfg.maxNumSamples = s
  value : ∀ i : Fin s, ∃ v, Sample (w i) v ∧ cfg.value i 0 = Fl.fin v

theorem rounded_stopped_run (hp : 1 ≤ p) (h : Nearest p fl) (hk₀ : 2 ≤ k₀) (hs : k₀ ≤ s) (hsp : s ≤ 2 ^ p)
    {F : Matrix (Fin n) (Fin n) ℝ} {Sample : (Fin n → Bool) → ℝ → Prop} {B C : ℝ} (hB0 : 0 ≤ B)
    (hB : ∀ b v, Sample b v → |v - signVector b ⬝ᵥ (F *ᵥ signVector b)| ≤ B)
    (hC : ∀ b, |signVector b ⬝ᵥ (F *ᵥ signVector b)| ≤ C) (order : Equiv.Perm (Fin s)) {cfg : Config (Fl fl)} {w : Fin s → Fin n → Bool}
    (hd : RoundedStops cfg Sample k₀ w) {ts : List ℕ} {st : State (Fl fl)} (hrun : run cfg (init cfg) ts = some st)
    (hf : Finished cfg st) (hord : st.processed <+: List.ofFn fun i => (order i).1) (z : Fl fl) :
    ∃ κ, ∃ hκ : k₀ ≤ κ ∧ κ ≤ s, ∃ t, (averaged cfg z (FloatLike.inf : Fl fl) st 0).trace = Fl.fin t ∧
      |t - (∑ i : Fin κ, (fun b => signVector b ⬝ᵥ (F *ᵥ signVector b)) (w (order (Fin.castLE hκ.2 i)))) / κ| ≤
        B + ((1 + unitRoundoff p) ^ (s + 1) - 1) * (C + B) := by
  have hsep : Separate cfg := Or.inr hd.inquiries
  have hN : 0 < cfg.numInquiries := by rw [hd.inquiries]; omega
  have hex : Exclusive cfg := Or.inr (by rw [hsep.required, hd.inquiries])
  obtain ⟨q, hq⟩ : ∃ q, st.inqs[0]? = some q := by
    have hlen : st.inqs.length = 1 := by rw [(inv_run hsep hN hrun).numInqs, hd.inquiries]
    exact ⟨_, List.getElem?_eq_getElem (by omega : 0 < st.inqs.length)⟩
  obtain ⟨a1, a2, a3, a4, a5⟩ := sample_accounting hsep hN hd.threads hrun hf hq
  rw [hd.min, hd.max, min_eq_left hs] at a1
  rw [hd.max] at a3
  have hks : q.numSamplesUsed ≤ s := by omega
  rw [trace_is_average_of_values hsep hN hex hrun hq, take_processed hord a2 hks]
  choose v hv hval using hd.value
  generalize q.numSamplesUsed = κ at *
  have hlist : (List.ofFn fun i : Fin κ => (order (Fin.castLE hks i)).1).map (fun i => cfg.value i 0) =
      (List.ofFn fun i : Fin κ => v (order (Fin.castLE hks i))).map (Fl.fin (fl := fl)) := by
    rw [List.map_ofFn, List.map_ofFn]
    congr 1
    funext i
    exact hval _
  rw [hlist]
  set xs := List.ofFn fun i : Fin κ => v (order (Fin.castLE hks i)) with hxs
  have hlen : xs.length = κ := by rw [hxs, List.length_ofFn]
  have hne : xs ≠ [] := by intro h0; rw [h0] at hlen; simp at hlen; omega
  obtain ⟨e1, -⟩ := rounded_average_all hp h (xs := xs) (by omega) (by omega) z
  refine ⟨κ, ⟨a1, hks⟩, _, e1, ?_⟩
  obtain ⟨m, hm, hm'⟩ := RoundedConvergence.mean_accurate hp h hne (by omega)
  have : m = flMean fl xs := by
    have := (meanOf_fin hp h hne (by omega)).symm.trans hm
    injection this with this
    exact this.symm
  rw [this, hlen] at hm'
  have hu : (0 : ℝ) ≤ RoundedConvergence.unit p := by unfold RoundedConvergence.unit; positivity
  have hγ : 0 ≤ (1 + RoundedConvergence.unit p) ^ (κ + 1) - 1 := by
    have := one_le_pow₀ (by linarith : (1 : ℝ) ≤ 1 + RoundedConvergence.unit p) (n := κ + 1)
    linarith
  have hγs : (1 + RoundedConvergence.unit p) ^ (κ + 1) - 1 ≤ (1 + RoundedConvergence.unit p) ^ (s + 1) - 1 := by
    have := pow_le_pow_right₀ (by linarith : (1 : ℝ) ≤ 1 + RoundedConvergence.unit p) (by omega : κ + 1 ≤ s + 1)
    linarith
  have hC0 : 0 ≤ C := (abs_nonneg _).trans (hC fun _ => true)
  have habs : ∀ x ∈ xs, |x| ≤ C + B := fun x hx => by
    obtain ⟨k, rfl⟩ := List.mem_ofFn.1 hx
    have k1 := abs_le.1 (hB _ _ (hv (order (Fin.castLE hks k))))
    have k2 := abs_le.1 (hC (w (order (Fin.castLE hks k))))
    rw [abs_le]
    constructor <;> linarith [k1.1, k1.2, k2.1, k2.2]
  have h1 := (mul_le_mul_of_nonneg_left (mean_abs_le (by linarith) habs) hγ).trans
    (mul_le_mul_of_nonneg_right hγs (by linarith : 0 ≤ C + B))
  have hκ0 : (0 : ℝ) < κ := by exact_mod_cast (by omega : 0 < κ)
  have h2 : |mean xs - (∑ i : Fin κ, (fun b => signVector b ⬝ᵥ (F *ᵥ signVector b)) (w (order (Fin.castLE hks i)))) / κ| ≤ B := by
    rw [hxs, mean_ofFn, ← sub_div, ← Finset.sum_sub_distrib, abs_div, abs_of_pos hκ0, div_le_iff₀ hκ0]
    refine (Finset.abs_sum_le_sum_abs _ _).trans ((Finset.sum_le_sum fun k _ => hB _ _ (hv (order (Fin.castLE hks k)))).trans
      (le_of_eq ?_))
    rw [Finset.sum_const, Finset.card_univ, Fintype.card_fin, nsmul_eq_mul]
    ring
  have h3 := abs_le.1 (hm'.trans h1)
  have h4 := abs_le.1 h2
  change |flMean fl xs - _| ≤ B + ((1 + RoundedConvergence.unit p) ^ (s + 1) - 1) * (C + B)
  rw [abs_le]
  constructor <;> linarith [h3.1, h3.2, h4.1, h4.2]

/-- C109 with all roundings: `B` bounds the error of a sample (C107), `C` the size of the quadratic forms. -/
theorem rounded_stopped_estimate (hp : 1 ≤ p) (h : Nearest p fl) (hk₀ : 2 ≤ k₀) (hs : k₀ ≤ s) (hsp : s ≤ 2 ^ p)
    {F : Matrix (Fin n) (Fin n) ℝ} (hF : F.IsSymm) {Sample : (Fin n → Bool) → ℝ → Prop} {B C : ℝ} (hB0 : 0 ≤ B)
    (hB : ∀ b v, Sample b v → |v - signVector b ⬝ᵥ (F *ᵥ signVector b)| ≤ B)
    (hC : ∀ b, |signVector b ⬝ᵥ (F *ᵥ signVector b)| ≤ C) (order : Equiv.Perm (Fin s)) {z : Fl fl}
    {trace : (Fin s → Fin n → Bool) → ℝ}
    (htrace : ∀ w, ∃ (cfg : Config (Fl fl)) (ts : List ℕ) (st : State (Fl fl)), RoundedStops cfg Sample k₀ w ∧
      run cfg (init cfg) ts = some st ∧ Finished cfg st ∧ (st.processed <+: List.ofFn fun i => (order i).1) ∧
      (averaged cfg z (FloatLike.inf : Fl fl) st 0).trace = Fl.fin (trace w)) {e : ℝ} (he : 0 < e)
    [DecidablePred fun w => e + (B + ((1 + unitRoundoff p) ^ (s + 1) - 1) * (C + B)) ≤ |trace w - F.trace|] :
    probability (fun w => e + (B + ((1 + unitRoundoff p) ^ (s + 1) - 1) * (C + B)) ≤ |trace w - F.trace|) ≤
      2 * offDiagonal F / (k₀ * e ^ 2) := by
  classical
  have key : ∀ w, ∃ κ : ℕ, ∃ hκ : k₀ ≤ κ ∧ κ ≤ s,
      |trace w - (∑ i : Fin κ, (fun b => signVector b ⬝ᵥ (F *ᵥ signVector b)) (w (order (Fin.castLE hκ.2 i)))) / κ| ≤
        B + ((1 + unitRoundoff p) ^ (s + 1) - 1) * (C + B) := fun w => by
    obtain ⟨cfg, ts, st, hd, hrun, hf, hord, ht⟩ := htrace w
    obtain ⟨κ, hκ, t, t1, t2⟩ := rounded_stopped_run hp h hk₀ hs hsp hB0 hB hC order hd hrun hf hord z
    have : t = trace w := by
      have := t1.symm.trans ht
      injection this
    rw [this] at t2
    exact ⟨κ, hκ, t2⟩
  choose κ hκ hκt using key
  have h1 := stopped_average (fun b : Fin n → Bool => signVector b ⬝ᵥ (F *ᵥ signVector b)) (by omega : 0 < k₀) hs hκ order he
  simp only [expected_form F] at h1
  rw [variance_form hF] at h1
  refine le_trans ?_ h1
  unfold probability
  refine div_le_div_of_nonneg_right ?_ (Nat.cast_nonneg _)
  rw [Nat.cast_le]
  refine Finset.card_le_card fun w hw => ?_
  rw [Finset.mem_filter] at hw ⊢
  refine ⟨hw.1, ?_⟩
  have h2 := hκt w
  have h3 := hw.2
  set S := (∑ i : Fin (κ w), (fun b => signVector b ⬝ᵥ (F *ᵥ signVector b)) (w (order (Fin.castLE (hκ w).2 i)))) / κ w with hS
  have h4 := abs_sub_abs_le_abs_sub (trace w - F.trace) (trace w - S)
  rw [show trace w - F.trace - (trace w - S) = S - F.trace by ring] at h4
  show e ≤ |S - F.trace|
  linarith

/-! ### One thread -/

section
variable {V : Type} [FloatLike V]

theorem range_append {a b : ℕ} (h : a ≤ b) : List.range a ++ List.range' a (b - a) = List.range b := by
  have := List.range'_append_1 (s := 0) (m := a) (n := b - a)
  rw [Nat.zero_add, Nat.add_sub_cancel' h] at this
  rw [List.range_eq_range', List.range_eq_range', this]

/-- With one thread the samples are processed in the order of their numbers. -/
structure InOrder (cfg : Config V) (s : State V) : Prop where
  order : s.processed = List.range s.processed.length
  thread : ∃ th, s.threads = [th] ∧ ((th.pc = .ready ∧ s.allConverged = true) ∨ s.processed ++ th.held = List.range s.next)

theorem inOrder_init {cfg : Config V} (h : cfg.numThreads = 1) : InOrder cfg (init cfg) :=
  ⟨rfl, ⟨[], .ready⟩, by simp [init, h], Or.inr rfl⟩

theorem inOrder_step {cfg : Config V} {s s' : State V} {t : ℕ} (h : InOrder cfg s) (hs : step cfg s t = some s') :
    InOrder cfg s' := by
  obtain ⟨h1, th, h2, h3⟩ := h
  unfold step at hs
  rw [h2] at hs
  rcases t with _ | t
  swap
  · simp at hs
  simp only [List.getElem?_cons_zero] at hs
  cases hst : stepThread cfg s th with
  | none => rw [hst] at hs; simp at hs
  | some r =>
    obtain ⟨s1, th'⟩ := r
    rw [hst] at hs
    simp only [Option.some.injEq] at hs
    subst hs
    obtain ⟨todo, pc⟩ := th
    unfold stepThread at hst
    cases pc with
    | ready =>
      cases todo with
      | nil =>
        simp only at hst
        split at hst
        · simp only [Option.some.injEq, Prod.mk.injEq] at hst
          obtain ⟨rfl, rfl⟩ := hst
          rename_i hlt
          refine ⟨h1, _, rfl, ?_⟩
          rcases h3 with ⟨_, h3⟩ | h3
          · exact Or.inl ⟨rfl, h3⟩
          · refine Or.inr ?_
            simp only [Thread.held, Pc.inflight, List.nil_append, List.append_nil] at h3 ⊢
            rw [h3]
            exact range_append (by omega)
        · simp at hst
      | cons i rest =>
        simp only at hst
        split at hst
        · rename_i hc
          simp only [Option.some.injEq, Prod.mk.injEq] at hst
          obtain ⟨rfl, rfl⟩ := hst
          exact ⟨h1, _, rfl, Or.inl ⟨rfl, hc⟩⟩
        · rename_i hc
          simp only [Option.some.injEq, Prod.mk.injEq] at hst
          obtain ⟨rfl, rfl⟩ := hst
          refine ⟨h1, _, rfl, Or.inr ?_⟩
          rcases h3 with ⟨_, h3⟩ | h3
          · exact absurd h3 hc
          · simpa [Thread.held, Pc.inflight] using h3
    | test i j seen =>
      have h4 : s.processed ++ i :: todo = List.range s.next := by
        rcases h3 with ⟨h3, _⟩ | h3
        · simp at h3
        · simpa [Thread.held, Pc.inflight] using h3
      simp only at hst
      split at hst
      · split at hst <;>
        · simp only [Option.some.injEq, Prod.mk.injEq] at hst
          obtain ⟨rfl, rfl⟩ := hst
          exact ⟨h1, _, rfl, Or.inr (by simpa [Thread.held, Pc.inflight] using h4)⟩
      · simp only [Option.some.injEq, Prod.mk.injEq] at hst
        obtain ⟨rfl, rfl⟩ := hst
        refine ⟨h1, _, rfl, Or.inr ?_⟩
        unfold afterLanczos
        split <;> simpa [Thread.held, Pc.inflight] using h4
    | setParam i j seen =>
      have h4 : s.processed ++ i :: todo = List.range s.next := by
        rcases h3 with ⟨h3, _⟩ | h3
        · simp at h3
        · simpa [Thread.held, Pc.inflight] using h3
      simp only [Option.some.injEq, Prod.mk.injEq] at hst
      obtain ⟨rfl, rfl⟩ := hst
      exact ⟨h1, _, rfl, Or.inr (by simpa [Thread.held, Pc.inflight] using h4)⟩
    | lanczos i j k own seen =>
      have h4 : s.processed ++ i :: todo = List.range s.next := by
        rcases h3 with ⟨h3, _⟩ | h3
        · simp at h3
        · simpa [Thread.held, Pc.inflight] using h3
      cases k <;>
      · simp only [Option.some.injEq, Prod.mk.injEq] at hst
        obtain ⟨rfl, rfl⟩ := hst
        exact ⟨h1, _, rfl, Or.inr (by simpa [Thread.held, Pc.inflight] using h4)⟩
    | reset i j seen =>
      have h4 : s.processed ++ i :: todo = List.range s.next := by
        rcases h3 with ⟨h3, _⟩ | h3
        · simp at h3
        · simpa [Thread.held, Pc.inflight] using h3
      simp only at hst
      split at hst <;>
      · simp only [Option.some.injEq, Prod.mk.injEq] at hst
        obtain ⟨rfl, rfl⟩ := hst
        exact ⟨h1, _, rfl, Or.inr (by simpa [Thread.held, Pc.inflight, clearFlag] using h4)⟩
    | quad i j seen =>
      have h4 : s.processed ++ i :: todo = List.range s.next := by
        rcases h3 with ⟨h3, _⟩ | h3
        · simp at h3
        · simpa [Thread.held, Pc.inflight] using h3
      simp only at hst
      split at hst
      · split at hst <;>
        · simp only [Option.some.injEq, Prod.mk.injEq] at hst
          obtain ⟨rfl, rfl⟩ := hst
          exact ⟨h1, _, rfl, Or.inr (by simpa [Thread.held, Pc.inflight] using h4)⟩
      · simp only [Option.some.injEq, Prod.mk.injEq] at hst
        obtain ⟨rfl, rfl⟩ := hst
        exact ⟨h1, _, rfl, Or.inr (by simpa [Thread.held, Pc.inflight] using h4)⟩
    | critical i =>
      have h4 : s.processed ++ i :: todo = List.range s.next := by
        rcases h3 with ⟨h3, _⟩ | h3
        · simp at h3
        · simpa [Thread.held, Pc.inflight] using h3
      simp only [Option.some.injEq, Prod.mk.injEq] at hst
      obtain ⟨rfl, rfl⟩ := hst
      have h5 : (s.processed ++ [i]) ++ todo = List.range s.next := by rw [← h4]; simp
      refine ⟨?_, _, rfl, Or.inr ?_⟩
      · show s.processed ++ [i] = List.range (s.processed ++ [i]).length
        have h6 : s.processed ++ [i] <+: List.range s.next := ⟨todo, h5⟩
        have h7 := List.prefix_iff_eq_take.1 h6
        have h8 := h6.length_le
        rw [List.length_range] at h8
        rw [List.take_range, min_eq_left h8] at h7
        exact h7
      · simpa [Thread.held, Pc.inflight, criticalSection] using h5

theorem one_thread_order {cfg : Config V} (hT : cfg.numThreads = 1) {ts : List ℕ} {st : State V}
    (hrun : run cfg (init cfg) ts = some st) : st.processed = List.range st.processed.length :=
  (run_induction (P := InOrder cfg) (fun _ _ _ h hs => inOrder_step h hs) ts _ st (inOrder_init hT) hrun).order

end

/-- C109 for one thread: the order is that of the numbers of the samples, whatever the values are. -/
theorem one_thread_prefix {V : Type} [FloatLike V] {cfg : Config V} (hT : cfg.numThreads = 1) (hmax : cfg.maxNumSamples = s)
    (hone : cfg.numInquiries = 1) {ts : List ℕ} {st : State V} (hrun : run cfg (init cfg) ts = some st) (hf : Finished cfg st) :
    st.processed <+: List.ofFn fun i : Fin s => ((1 : Equiv.Perm (Fin s)) i).1 := by
  have hsep : Separate cfg := Or.inr hone
  have hN : 0 < cfg.numInquiries := by omega
  obtain ⟨q, hq⟩ : ∃ q, st.inqs[0]? = some q := by
    have hlen : st.inqs.length = 1 := by rw [(inv_run hsep hN hrun).numInqs, hone]
    exact ⟨_, List.getElem?_eq_getElem (by omega : 0 < st.inqs.length)⟩
  obtain ⟨-, -, a3, -, -⟩ := sample_accounting hsep hN (by omega) hrun hf hq
  rw [one_thread_order hT hrun]
  have : (List.ofFn fun i : Fin s => ((1 : Equiv.Perm (Fin s)) i).1) = List.range s := by
    apply List.ext_getElem <;> simp
  rw [this]
  rw [hmax] at a3
  exact ⟨List.range' st.processed.length (s - st.processed.length), range_append a3⟩

/-- C109: the estimate of a run on one thread, with any stopping rule, tolerances and confidence level. -/
theorem stopped_estimate_one_thread {F : Matrix (Fin n) (Fin n) ℝ} (hF : F.IsSymm) (hk₀ : 2 ≤ k₀) (hs : k₀ ≤ s) {z : ℝ}
    {trace : (Fin s → Fin n → Bool) → ℝ}
    (htrace : ∀ w, ∃ (cfg : Config (XR ℝ)) (ts : List ℕ) (st : State (XR ℝ)), Draws cfg F w ∧ cfg.minNumSamples = k₀ ∧
      cfg.numThreads = 1 ∧ run cfg (init cfg) ts = some st ∧ Finished cfg st ∧
      (averaged cfg (.fin z) .pinf st 0).trace = .fin (trace w)) {e : ℝ} (he : 0 < e)
    [DecidablePred fun w => e ≤ |trace w - F.trace|] :
    probability (fun w => e ≤ |trace w - F.trace|) ≤ 2 * offDiagonal F / (k₀ * e ^ 2) := by
  refine stopped_estimate_accurate hF hk₀ hs (z := z) 1 (fun w => ?_) he
  obtain ⟨cfg, ts, st, hd, hmin, hT, hrun, hf, ht⟩ := htrace w
  exact ⟨cfg, ts, st, hd, hmin, hrun, hf, one_thread_prefix hT hd.max hd.inquiries hrun hf, ht⟩

/-- C109 for one thread, with all roundings. -/
theorem rounded_stopped_one_thread (hp : 1 ≤ p) (h : Nearest p fl) (hk₀ : 2 ≤ k₀) (hs : k₀ ≤ s) (hsp : s ≤ 2 ^ p)
    {F : Matrix (Fin n) (Fin n) ℝ} (hF : F.IsSymm) {Sample : (Fin n → Bool) → ℝ → Prop} {B C : ℝ} (hB0 : 0 ≤ B)
    (hB : ∀ b v, Sample b v → |v - signVector b ⬝ᵥ (F *ᵥ signVector b)| ≤ B)
    (hC : ∀ b, |signVector b ⬝ᵥ (F *ᵥ signVector b)| ≤ C) {z : Fl fl} {trace : (Fin s → Fin n → Bool) → ℝ}
    (htrace : ∀ w, ∃ (cfg : Config (Fl fl)) (ts : List ℕ) (st : State (Fl fl)), RoundedStops cfg Sample k₀ w ∧ cfg.numThreads = 1 ∧
      run cfg (init cfg) ts = some st ∧ Finished cfg st ∧
      (averaged cfg z (FloatLike.inf : Fl fl) st 0).trace = Fl.fin (trace w)) {e : ℝ} (he : 0 < e)
    [DecidablePred fun w => e + (B + ((1 + unitRoundoff p) ^ (s + 1) - 1) * (C + B)) ≤ |trace w - F.trace|] :
    probability (fun w => e + (B + ((1 + unitRoundoff p) ^ (s + 1) - 1) * (C + B)) ≤ |trace w - F.trace|) ≤
      2 * offDiagonal F / (k₀ * e ^ 2) := by
  refine rounded_stopped_estimate hp h hk₀ hs hsp hF hB0 hB hC 1 (z := z) (fun w => ?_) he
  obtain ⟨cfg, ts, st, hd, hT, hrun, hf, ht⟩ := htrace w
  exact ⟨cfg, ts, st, hd, hrun, hf, one_thread_prefix hT hd.max hd.inquiries hrun hf, ht⟩

/-- Runs that stop early for some vectors: at least `2` and at most `s` samples, one thread, a tolerance of one half. -/
noncomputable def stoppingRun (F : Matrix (Fin n) (Fin n) ℝ) (w : Fin s → Fin n → Bool) : Config (XR ℝ) :=
  { fixedRun F w with numThreads := 1, minNumSamples := 2, rtol := .fin (1/2) }

example (F : Matrix (Fin n) (Fin n) ℝ) (hs : 2 ≤ s) (z : ℝ) :
    ∃ trace : (Fin s → Fin n → Bool) → ℝ, ∀ w, ∃ (cfg : Config (XR ℝ)) (ts : List ℕ) (st : State (XR ℝ)), Draws cfg F w ∧
      cfg.minNumSamples = 2 ∧ cfg.numThreads = 1 ∧ run cfg (init cfg) ts = some st ∧ Finished cfg st ∧
      (averaged cfg (.fin z) .pinf st 0).trace = .fin (trace w) := by
  have : ∀ w : Fin s → Fin n → Bool, ∃ t : ℝ, ∃ (cfg : Config (XR ℝ)) (ts : List ℕ) (st : State (XR ℝ)), Draws cfg F w ∧
      cfg.minNumSamples = 2 ∧ cfg.numThreads = 1 ∧ run cfg (init cfg) ts = some st ∧ Finished cfg st ∧
      (averaged cfg (.fin z) .pinf st 0).trace = .fin t := fun w => by
    have hd : Draws (stoppingRun F w) F w := ⟨by simp [stoppingRun], rfl, rfl, fun i => by simp [stoppingRun, fixedRun]⟩
    obtain ⟨ts, st, hrun, hf⟩ := (loop_terminates (stoppingRun F w)).2 [] _ rfl
    have hsep : Separate (stoppingRun F w) := Or.inr hd.inquiries
    have hN : 0 < (stoppingRun F w).numInquiries := by rw [hd.inquiries]; omega
    have hex : Exclusive (stoppingRun F w) := Or.inr (by rw [hsep.required, hd.inquiries])
    obtain ⟨q, hq⟩ := hd.inquiry hrun
    obtain ⟨a1, a2, a3, a4, a5⟩ := sample_accounting hsep hN hd.threads hrun hf hq
    have h2 : (stoppingRun F w).minNumSamples = 2 := rfl
    rw [h2, hd.max, min_eq_left hs] at a1
    rw [hd.max] at a3
    have ht := trace_is_average_of_values hsep hN hex hrun hq (.fin z) .pinf
    rw [take_processed (one_thread_prefix rfl hd.max hd.inquiries hrun hf) a2 (by omega)] at ht
    have hlist : (List.ofFn fun i : Fin q.numSamplesUsed => ((1 : Equiv.Perm (Fin s)) (Fin.castLE (by omega) i)).1).map
        (fun i => (stoppingRun F w).value i 0) =
        (List.ofFn fun i : Fin q.numSamplesUsed => signVector (w (Fin.castLE (by omega) i)) ⬝ᵥ
          (F *ᵥ signVector (w (Fin.castLE (by omega) i)))).map XR.fin := by
      rw [List.map_ofFn, List.map_ofFn]
      congr 1
      funext i
      exact hd.value _
    rw [hlist, average_all (by simp; omega)] at ht
    exact ⟨_, _, ts, st, hd, rfl, rfl, hrun, hf, by rw [ht]⟩
  choose trace htrace using this
  exact ⟨trace, htrace⟩

end Imate.Props
