import Mathlib.Analysis.Calculus.Deriv.Polynomial
import Mathlib.Analysis.Calculus.LocalExtr.Rolle
import Mathlib.Data.Finset.Sort
import Mathlib.LinearAlgebra.Lagrange

/-!
# Interpolation with derivatives, and its remainder
-/

namespace Imate.Gauss

open Polynomial Finset

/-- Between the zeros of a function there are zeros of its derivative. -/
theorem rolle_zeros {a b : ℝ} {f f' : ℝ → ℝ} (hf : ∀ x ∈ Set.Icc a b, HasDerivAt f (f' x) x) {m : ℕ} {S : Finset ℝ}
    (hS : S.card = m + 1) (hab : ∀ x ∈ S, x ∈ Set.Icc a b) (h0 : ∀ x ∈ S, f x = 0) :
    ∃ S' : Finset ℝ, S'.card = m ∧ Disjoint S' S ∧ (∀ x ∈ S', x ∈ Set.Icc a b) ∧ ∀ x ∈ S', f' x = 0 := by
  set e := S.orderEmbOfFin hS with he
  have hmem : ∀ i, e i ∈ S := fun i => S.orderEmbOfFin_mem hS i
  have hlt : ∀ i : Fin m, e i.castSucc < e i.succ := fun i => e.strictMono (Fin.castSucc_lt_succ)
  have hex : ∀ i : Fin m, ∃ c ∈ Set.Ioo (e i.castSucc) (e i.succ), f' c = 0 := by
    intro i
    have hsub : ∀ x ∈ Set.Icc (e i.castSucc) (e i.succ), x ∈ Set.Icc a b := fun x hx =>
      ⟨(hab _ (hmem _)).1.trans hx.1, hx.2.trans (hab _ (hmem _)).2⟩
    refine exists_hasDerivAt_eq_zero (hlt i) (fun x hx => (hf x (hsub x hx)).continuousAt.continuousWithinAt) ?_
      fun x hx => hf x (hsub x ⟨hx.1.le, hx.2.le⟩)
    rw [h0 _ (hmem _), h0 _ (hmem _)]
  choose c hc hc0 using hex
  have hinj : Function.Injective c := by
    have hmono : StrictMono c := by
      intro i j hij
      refine (hc i).2.trans_le (le_trans ?_ (hc j).1.le)
      apply e.monotone
      rw [Fin.le_def]
      simpa using hij
    exact hmono.injective
  refine ⟨univ.image c, by rw [card_image_of_injective _ hinj]; simp, ?_, ?_, ?_⟩
  · rw [Finset.disjoint_left]
    intro x hx hxS
    obtain ⟨i, -, rfl⟩ := mem_image.1 hx
    obtain ⟨j, hj⟩ : ∃ j, e j = c i := by
      have : c i ∈ Set.range e := by
        rw [he, S.range_orderEmbOfFin hS]
        exact hxS
      exact this
    have h1 := (hc i).1
    have h2 := (hc i).2
    rw [← hj] at h1 h2
    have h3 := e.lt_iff_lt.1 h1
    have h4 := e.lt_iff_lt.1 h2
    rw [Fin.lt_def] at h3 h4
    simp at h3 h4
    omega
  · intro x hx
    obtain ⟨i, -, rfl⟩ := mem_image.1 hx
    exact ⟨(hab _ (hmem _)).1.trans (hc i).1.le, (hc i).2.le.trans (hab _ (hmem _)).2⟩
  · intro x hx
    obtain ⟨i, -, rfl⟩ := mem_image.1 hx
    exact hc0 i

/-- A function with `m + 1` zeros has a zero of its derivative of order `m`; `F k` is the derivative of order `k`. -/
theorem rolle_iterated {a b : ℝ} : ∀ (m : ℕ) {F : ℕ → ℝ → ℝ},
    (∀ k < m, ∀ x ∈ Set.Icc a b, HasDerivAt (F k) (F (k + 1) x) x) → ∀ {S : Finset ℝ}, S.card = m + 1 →
    (∀ x ∈ S, x ∈ Set.Icc a b) → (∀ x ∈ S, F 0 x = 0) → ∃ x ∈ Set.Icc a b, F m x = 0 := by
  intro m
  induction m with
  | zero =>
    intro F _ S hS hab h0
    obtain ⟨x, hx⟩ := Finset.card_pos.1 (by omega : 0 < S.card)
    exact ⟨x, hab x hx, h0 x hx⟩
  | succ m ih =>
    intro F hF S hS hab h0
    obtain ⟨S', g1, -, g2, g3⟩ := rolle_zeros (hF 0 (by omega)) hS hab h0
    exact ih (F := fun k => F (k + 1)) (fun k hk x hx => hF (k + 1) (by omega) x hx) g1 g2 g3

/-- The polynomial with simple zeros at `T`. -/
noncomputable def nodePoly (T : Finset ℝ) : ℝ[X] := ∏ t ∈ T, (X - C t)

theorem nodePoly_monic (T : Finset ℝ) : (nodePoly T).Monic := monic_prod_of_monic _ _ fun t _ => monic_X_sub_C t

theorem nodePoly_natDegree (T : Finset ℝ) : (nodePoly T).natDegree = T.card := by
  unfold nodePoly
  rw [natDegree_prod_of_monic _ _ fun t _ => monic_X_sub_C t]
  simp

theorem nodePoly_zero {T : Finset ℝ} {t : ℝ} (ht : t ∈ T) : (nodePoly T).eval t = 0 := by
  unfold nodePoly
  rw [eval_prod]
  exact prod_eq_zero ht (by simp)

theorem nodePoly_ne_zero {T : Finset ℝ} {t : ℝ} (ht : t ∉ T) : (nodePoly T).eval t ≠ 0 := by
  unfold nodePoly
  rw [eval_prod, prod_ne_zero_iff]
  intro s hs h
  rw [eval_sub, eval_X, eval_C, sub_eq_zero] at h
  exact ht (h ▸ hs)

theorem nodePoly_derivative_ne_zero {T : Finset ℝ} {t : ℝ} (ht : t ∈ T) : (derivative (nodePoly T)).eval t ≠ 0 := by
  have e1 : nodePoly T = (X - C t) * nodePoly (T.erase t) := by
    unfold nodePoly
    rw [mul_prod_erase T (fun t => X - C t) ht]
  rw [e1, derivative_mul, eval_add, eval_mul, eval_mul]
  simp only [derivative_sub, derivative_X, derivative_C, sub_zero, eval_one, one_mul, eval_sub, eval_X, eval_C, sub_self,
    zero_mul, add_zero]
  exact nodePoly_ne_zero (notMem_erase t T)

/-- Interpolation of values. -/
theorem exists_interpolant (T : Finset ℝ) (g : ℝ → ℝ) :
    ∃ p : ℝ[X], p.degree < T.card ∧ ∀ t ∈ T, p.eval t = g t := by
  refine ⟨Lagrange.interpolate T id g, ?_, fun t ht => ?_⟩
  · exact Lagrange.degree_interpolate_lt g (fun _ _ _ _ h => h)
  · have := Lagrange.eval_interpolate_at_node (s := T) (v := id) g (fun _ _ _ _ h => h) ht
    simpa using this

/-- Interpolation of values and derivatives. -/
theorem exists_hermite (T : Finset ℝ) (g g' : ℝ → ℝ) :
    ∃ p : ℝ[X], p.degree < ((2 * T.card : ℕ) : WithBot ℕ) ∧ (∀ t ∈ T, p.eval t = g t) ∧ ∀ t ∈ T, (derivative p).eval t = g' t := by
  obtain ⟨L, hL1, hL2⟩ := exists_interpolant T g
  obtain ⟨R, hR1, hR2⟩ := exists_interpolant T fun t =>
    (g' t - (derivative L).eval t) / (derivative (nodePoly T)).eval t
  refine ⟨L + nodePoly T * R, ?_, fun t ht => ?_, fun t ht => ?_⟩
  · refine lt_of_le_of_lt (degree_add_le _ _) (max_lt ?_ ?_)
    · refine hL1.trans_le ?_
      exact_mod_cast (by omega : T.card ≤ 2 * T.card)
    · by_cases hR0 : R = 0
      · rw [hR0, mul_zero, degree_zero]
        exact WithBot.bot_lt_coe _
      · rw [degree_mul, degree_eq_natDegree (nodePoly_monic T).ne_zero, nodePoly_natDegree,
          degree_eq_natDegree hR0]
        rw [degree_eq_natDegree hR0] at hR1
        have h1 : R.natDegree < T.card := by exact_mod_cast hR1
        rw [← Nat.cast_add]
        exact_mod_cast (by omega : T.card + R.natDegree < 2 * T.card)
  · rw [eval_add, eval_mul, nodePoly_zero ht, zero_mul, add_zero, hL2 t ht]
  · rw [derivative_add, derivative_mul, eval_add, eval_add, eval_mul, eval_mul, nodePoly_zero ht, zero_mul, add_zero,
      hR2 t ht]
    have := nodePoly_derivative_ne_zero ht
    field_simp
    ring

/-- Remainder of the interpolation of values and derivatives. -/
theorem hermite_remainder {a b : ℝ} {T : Finset ℝ} (hT : T.Nonempty) (hab : ∀ t ∈ T, t ∈ Set.Icc a b) {F : ℕ → ℝ → ℝ}
    (hF : ∀ k < 2 * T.card, ∀ x ∈ Set.Icc a b, HasDerivAt (F k) (F (k + 1) x) x) {p : ℝ[X]}
    (hp : p.degree < ((2 * T.card : ℕ) : WithBot ℕ)) (hp0 : ∀ t ∈ T, p.eval t = F 0 t)
    (hp1 : ∀ t ∈ T, (derivative p).eval t = F 1 t) {x : ℝ} (hx : x ∈ Set.Icc a b) :
    ∃ ξ ∈ Set.Icc a b, F 0 x - p.eval x = F (2 * T.card) ξ / (2 * T.card).factorial * (nodePoly T).eval x ^ 2 := by
  by_cases hxT : x ∈ T
  · exact ⟨x, hx, by rw [hp0 x hxT, nodePoly_zero hxT]; ring⟩
  have hn := nodePoly_ne_zero hxT
  set s := T.card with hs
  have hspos : 0 < s := Finset.card_pos.2 hT
  set c := (F 0 x - p.eval x) / (nodePoly T).eval x ^ 2 with hc
  set P := p + C c * nodePoly T ^ 2 with hP
  set G : ℕ → ℝ → ℝ := fun k y => F k y - (derivative^[k] P).eval y with hG
  have hGd : ∀ k < 2 * s, ∀ y ∈ Set.Icc a b, HasDerivAt (G k) (G (k + 1) y) y := by
    intro k hk y hy
    have h1 := (derivative^[k] P).hasDerivAt y
    rw [← Function.iterate_succ_apply' (f := derivative)] at h1
    exact (hF k hk y hy).sub h1
  have hzero : ∀ t ∈ insert x T, G 0 t = 0 := by
    intro t ht
    show F 0 t - P.eval t = 0
    rcases mem_insert.1 ht with rfl | ht
    · rw [hP, eval_add, eval_mul, eval_C, eval_pow, hc]
      field_simp
      ring
    · rw [hP, eval_add, eval_mul, eval_C, eval_pow, nodePoly_zero ht, hp0 t ht]
      ring
  obtain ⟨S, g1, g2, g3, g4⟩ := rolle_zeros (hGd 0 (by omega)) (S := insert x T) (m := s)
    (by rw [card_insert_of_notMem hxT]) (fun t ht => by
      rcases mem_insert.1 ht with rfl | ht
      · exact hx
      · exact hab t ht) hzero
  have hzero1 : ∀ t ∈ S ∪ T, G 1 t = 0 := by
    intro t ht
    rcases mem_union.1 ht with ht | ht
    · exact g4 t ht
    · show F 1 t - (derivative P).eval t = 0
      rw [hP, derivative_add, derivative_C_mul, derivative_pow, eval_add, eval_mul, eval_mul, eval_mul, hp1 t ht]
      simp [nodePoly_zero ht]
  have hdis : Disjoint S T := by
    refine g2.mono_right ?_
    exact subset_insert x T
  obtain ⟨ξ, hξ, h0⟩ := rolle_iterated (a := a) (b := b) (2 * s - 1) (F := fun k => G (k + 1))
    (fun k hk y hy => hGd (k + 1) (by omega) y hy) (S := S ∪ T)
    (by rw [card_union_of_disjoint hdis, g1]; omega)
    (fun t ht => by
      rcases mem_union.1 ht with ht | ht
      · exact g3 t ht
      · exact hab t ht) hzero1
  refine ⟨ξ, hξ, ?_⟩
  have e1 : 2 * s - 1 + 1 = 2 * s := by omega
  have h1 : F (2 * s) ξ = (derivative^[2 * s] P).eval ξ := by
    have h2 : G (2 * s - 1 + 1) ξ = 0 := h0
    rw [e1] at h2
    exact sub_eq_zero.1 h2
  have h3 : derivative^[2 * s] P = C (c * (2 * s).factorial) := by
    rw [hP, iterate_map_add, iterate_derivative_C_mul]
    have hd1 : derivative^[2 * s] p = 0 := by
      by_cases hp00 : p = 0
      · rw [hp00]; exact iterate_derivative_zero
      · apply iterate_derivative_eq_zero
        rw [degree_eq_natDegree hp00] at hp
        exact_mod_cast hp
    have hm : (nodePoly T ^ 2).Monic := (nodePoly_monic T).pow 2
    have hd : (nodePoly T ^ 2).natDegree = 2 * s := by rw [(nodePoly_monic T).natDegree_pow, nodePoly_natDegree]
    have hd2 : derivative^[2 * s] (nodePoly T ^ 2) = C ((2 * s).factorial : ℝ) := by
      ext m
      rw [coeff_iterate_derivative, coeff_C]
      by_cases hm0 : m = 0
      · subst hm0
        have h6 : (nodePoly T ^ 2).coeff (2 * s) = 1 := by rw [← hd]; exact hm.coeff_natDegree
        simp [h6, Nat.descFactorial_self]
      · rw [coeff_eq_zero_of_natDegree_lt (by omega), if_neg hm0, smul_zero]
    rw [hd1, zero_add, hd2, ← C_mul]
  rw [h1, h3, eval_C, hc]
  have : ((2 * s).factorial : ℝ) ≠ 0 := by exact_mod_cast (2 * s).factorial_ne_zero
  field_simp

end Imate.Gauss
