import Verif.Model.Cuda
import Verif.Lemmas.GramSchmidt

/-! The Krylov iterations of the GPU code and of the CPU code agree. -/

namespace Imate

theorem bind_congr_ok {ε α β : Type _} {x : Except ε α} {f g : α → Except ε β}
    (h : ∀ a, x = .ok a → f a = g a) : (x >>= f) = (x >>= g) := by
  cases x with
  | error e => rfl
  | ok a => exact h a rfl

theorem bind_ok_iff {ε α β : Type _} {x : Except ε α} {f : α → Except ε β} {b : β} :
    (x >>= f) = .ok b ↔ ∃ a, x = .ok a ∧ f a = .ok b := by
  cases x with
  | error e => simp [Except.error_bind']
  | ok a => simp [Except.ok_bind']

/-- Two loops whose bodies agree on the states that satisfy an invariant of the first. -/
theorem loopN_congr_inv {σ : Type _} {step : Nat} {b1 b2 : Nat → σ → Except Fault σ}
    (Inv : Nat → σ → Prop) : ∀ (c i : Nat) (s : σ), Inv i s →
      (∀ i s, Inv i s → b1 i s = b2 i s ∧ ∀ s', b1 i s = .ok s' → Inv (i + step) s') →
      loopN step b1 c i s = loopN step b2 c i s ∧
        ∀ s', loopN step b1 c i s = .ok s' → Inv (i + c * step) s' := by
  intro c
  induction c with
  | zero =>
    intro i s h _
    refine ⟨rfl, ?_⟩
    intro s' hs'
    simp only [loopN] at hs'
    cases hs'
    simpa using h
  | succ c ih =>
    intro i s h hb
    obtain ⟨e, k⟩ := hb i s h
    simp only [loopN]
    rw [← e]
    cases hs : b1 i s with
    | error er => exact ⟨rfl, by intro s' h'; cases h'⟩
    | ok s1 =>
      simp only [Except.ok_bind']
      obtain ⟨e2, k2⟩ := ih (i + step) s1 (k s1 hs) hb
      refine ⟨e2, fun s' h' => ?_⟩
      have := k2 s' h'
      rwa [show i + step + c * step = i + (c + 1) * step by ring] at this

theorem forRange_congr_inv {σ : Type _} {b1 b2 : Nat → σ → Except Fault σ}
    (Inv : Nat → σ → Prop) {hi : Nat} {s : σ} (h0 : Inv 0 s)
    (hb : ∀ i s, Inv i s → b1 i s = b2 i s ∧ ∀ s', b1 i s = .ok s' → Inv (i + 1) s') :
    forRange 0 hi b1 s = forRange 0 hi b2 s ∧
      ∀ s', forRange 0 hi b1 s = .ok s' → Inv hi s' := by
  have := loopN_congr_inv (step := 1) Inv (hi - 0) 0 s h0 hb
  simp only [Nat.mul_one, Nat.zero_add, Nat.sub_zero] at this
  exact this

namespace Lanczos

open Matrix

variable {n : Nat}

/-- Every initialised row, except perhaps the row `slot`, is a unit vector. -/
def UnitExcept (slot : Option Nat) (V : Rows ℝ n) : Prop :=
  ∀ i x, some i ≠ slot → V[i]? = some (some x) → x ⬝ᵥ x = 1

theorem load_eq_ok {V : Rows ℝ n} {i : Nat} {x : Fin n → ℝ} (h : load V i = .ok x) :
    V[i]? = some (some x) := by
  unfold load rd at h
  cases hv : V[i]? with
  | none => rw [hv] at h; simp [Except.error_bind'] at h
  | some o =>
    rw [hv] at h
    cases o with
    | none => simp [Except.ok_bind'] at h
    | some y => simp only [Except.ok_bind'] at h; cases h; rfl

theorem store_eq_ok {V V' : Rows ℝ n} {i : Nat} {o : Option (Fin n → ℝ)} (h : store V i o = .ok V') :
    i < V.size ∧ ∀ k, V'[k]? = if k = i then some o else V[k]? := by
  unfold store wr at h
  split at h
  · rename_i hi
    cases h
    refine ⟨hi, fun k => ?_⟩
    rw [Array.getElem?_set]
    by_cases hk : k = i
    · subst hk; simp
    · rw [if_neg (fun h => hk h.symm), if_neg hk]
  · cases h

theorem UnitExcept.store_slot {V V' : Rows ℝ n} {slot : Nat} {o : Option (Fin n → ℝ)}
    (hV : UnitExcept (some slot) V) (h : store V slot o = .ok V') : UnitExcept (some slot) V' := by
  intro i x hi hx
  rw [(store_eq_ok h).2] at hx
  rw [if_neg (fun h => hi (by rw [h]))] at hx
  exact hV i x hi hx

theorem UnitExcept.weaken {V : Rows ℝ n} (slot : Nat) (hV : UnitExcept none V) :
    UnitExcept (some slot) V := fun i x _ hx => hV i x (by simp) hx

/-- Storing a normalised vector restores the invariant. -/
theorem UnitExcept.store_normal {V V' : Rows ℝ n} {slot : Nat} {r : Fin n → ℝ}
    (hV : UnitExcept (some slot) V) (h : store V slot (divide r (norm Real.sqrt r)) = .ok V') :
    UnitExcept none V' := by
  intro i x _ hx
  rw [(store_eq_ok h).2] at hx
  by_cases hi : i = slot
  · rw [if_pos hi] at hx
    by_cases h0 : norm Real.sqrt r = 0
    · unfold divide at hx
      rw [if_pos h0] at hx
      cases hx
    · rw [divide_eq h0] at hx
      cases hx
      exact unit_of_normalised h0
  · rw [if_neg hi] at hx
    exact hV i x (by simpa using hi) hx

/-- The two tests of the Gram-Schmidt step agree. -/
theorem cuGsStep_eq {eps : ℝ} {Vi v : Fin n → ℝ}
    (h : 0 ≤ Vi ⬝ᵥ v ∨ 2 * eps * n ≤ Vi ⬝ᵥ Vi) :
    cuGsStep Real.sqrt eps Vi v = gsStep Real.sqrt eps Vi v := by
  unfold cuGsStep gsStep
  simp only
  split
  · rfl
  rw [norm_mul_self, norm_mul_self]
  have hVi : 0 ≤ Vi ⬝ᵥ Vi := by rw [← norm_mul_self]; exact mul_self_nonneg _
  have hv : 0 ≤ v ⬝ᵥ v := by rw [← norm_mul_self]; exact mul_self_nonneg _
  by_cases hs : 0 ≤ Vi ⬝ᵥ v
  · rw [abs_of_nonneg (a := (Vi ⬝ᵥ v) / (Vi ⬝ᵥ Vi)) (div_nonneg hs hVi)]
  · have h2 : 2 * eps * n ≤ Vi ⬝ᵥ Vi := h.resolve_left hs
    have h3 : ¬ (v ⬝ᵥ v - 2 * (Vi ⬝ᵥ v) + Vi ⬝ᵥ Vi < 2 * eps * n) := by
      push Not at hs ⊢
      linarith
    rw [if_neg (fun h => h3 h.2), if_neg (fun h => h3 h.2)]

theorem cuGramSchmidt_eq {eps : ℝ} (he : 2 * eps * n ≤ 1) {V : Rows ℝ n} (hV : UnitExcept none V)
    (nv last : Nat) (no : Int) (v : Fin n → ℝ) :
    cuGramSchmidt Real.sqrt eps V nv last no v = gramSchmidt Real.sqrt eps V nv last no v := by
  unfold cuGramSchmidt gramSchmidt
  refine (forRange_congr_inv (fun _ _ => True) trivial ?_).1
  intro i s _
  refine ⟨bind_congr_ok fun Vi h => ?_, fun _ _ => trivial⟩
  rw [cuGsStep_eq (Or.inr (by rw [hV _ _ (by simp) (load_eq_ok h)]; exact he))]

theorem cuGramSchmidtIn_eq {eps : ℝ} (he : 2 * eps * n ≤ 1) {V : Rows ℝ n} {slot : Nat}
    (hV : UnitExcept (some slot) V) (nv last : Nat) (no : Int) :
    cuGramSchmidtIn Real.sqrt eps V nv last no slot = gramSchmidtIn Real.sqrt eps V nv last no slot ∧
      ∀ V', cuGramSchmidtIn Real.sqrt eps V nv last no slot = .ok V' → UnitExcept (some slot) V' := by
  unfold cuGramSchmidtIn gramSchmidtIn
  refine forRange_congr_inv (fun _ V => UnitExcept (some slot) V) hV ?_
  intro i V hV
  constructor
  · refine bind_congr_ok fun Vi h => bind_congr_ok fun v h' => ?_
    rw [cuGsStep_eq]
    by_cases hi : gsIndex nv last i = slot
    · left
      rw [hi] at h
      rw [h] at h'
      cases h'
      rw [← norm_mul_self]
      exact mul_self_nonneg _
    · right
      rw [hV _ _ (by simpa using hi) (load_eq_ok h)]
      exact he
  · intro V' h
    obtain ⟨Vi, -, h⟩ := bind_ok_iff.1 h
    obtain ⟨v, -, h⟩ := bind_ok_iff.1 h
    exact hV.store_slot h

/-! ### Lanczos -/

/-- The invariant: unit rows, and the last coefficient is the norm of the residual. -/
def CuLInv (initialBeta : ℝ) (j : Nat) (s : LanczosState ℝ n) : Prop :=
  s.stop = false → UnitExcept none s.V ∧
    (if j = 0 then initialBeta = norm Real.sqrt s.r
      else s.beta[j - 1]? = some (norm Real.sqrt s.r))

theorem cuLanczosBody_eq {eps : ℝ} (he : 2 * eps * n ≤ 1)
    (dot : (Fin n → ℝ) → Except Fault (Fin n → ℝ)) (tol : ℝ) (orth : Int) (buf : Nat) (b0 : ℝ)
    (j : Nat) (s : LanczosState ℝ n) (hs : CuLInv b0 j s) (hstop : s.stop = false) :
    cuLanczosBody Real.sqrt eps dot tol orth buf b0 j s =
        lanczosBody Real.sqrt eps dot tol orth buf b0 j s ∧
      ∀ s', cuLanczosBody Real.sqrt eps dot tol orth buf b0 j s = .ok s' → CuLInv b0 (j + 1) s' := by
  obtain ⟨hV, hb⟩ := hs hstop
  have hnorm : ∀ V, lanczosNormalize buf b0 j s = .ok V → UnitExcept none V := by
    intro V h
    unfold lanczosNormalize at h
    by_cases hj : j = 0
    · rw [if_pos hj] at h hb
      rw [hb] at h
      exact (hV.weaken _).store_normal h
    · rw [if_neg hj] at h hb
      rw [rd_ok hb, Except.ok_bind'] at h
      exact (hV.weaken _).store_normal h
  constructor
  · unfold cuLanczosBody lanczosBody
    refine bind_congr_ok fun V hV' => bind_congr_ok fun vj _ => bind_congr_ok fun r _ =>
      bind_congr_ok fun alpha _ => bind_congr_ok fun r' _ => ?_
    have : cuLanczosReorthogonalize Real.sqrt eps orth buf V j r' =
        lanczosReorthogonalize Real.sqrt eps orth buf V j r' := by
      unfold cuLanczosReorthogonalize lanczosReorthogonalize
      split
      · exact cuGramSchmidt_eq he (hnorm V hV') _ _ _ _
      · rfl
    rw [this]
  · intro s' h
    unfold cuLanczosBody at h
    obtain ⟨V, hV', h⟩ := bind_ok_iff.1 h
    obtain ⟨vj, -, h⟩ := bind_ok_iff.1 h
    obtain ⟨r, -, h⟩ := bind_ok_iff.1 h
    obtain ⟨alpha, -, h⟩ := bind_ok_iff.1 h
    obtain ⟨r1, -, h⟩ := bind_ok_iff.1 h
    obtain ⟨r2, -, h⟩ := bind_ok_iff.1 h
    obtain ⟨beta, hbeta, h⟩ := bind_ok_iff.1 h
    cases h
    intro _
    refine ⟨hnorm V hV', ?_⟩
    rw [if_neg (by omega)]
    unfold wr at hbeta
    split at hbeta
    · cases hbeta
      simp
    · cases hbeta

theorem cuLanczos_eq {eps : ℝ} (he : 2 * eps * n ≤ 1)
    (dot : (Fin n → ℝ) → Except Fault (Fin n → ℝ)) (v : Fin n → ℝ) (m : Nat) (tol : ℝ) (orth : Int)
    (alpha beta : Array ℝ) :
    cuLanczos Real.sqrt eps dot v m tol orth alpha beta =
      lanczos Real.sqrt eps dot v m tol orth alpha beta := by
  unfold cuLanczos lanczos
  simp only
  rw [(forRange_congr_inv (CuLInv (norm Real.sqrt v)) ?_ ?_).1]
  · intro _
    exact ⟨by intro i x _ hx; simp [Array.getElem?_replicate] at hx, by simp⟩
  · intro j s hs
    cases hst : s.stop with
    | true =>
      simp only [if_true]
      refine ⟨trivial, ?_⟩
      intro s' h
      cases h
      intro h
      rw [hst] at h
      cases h
    | false =>
      simp only [Bool.false_eq_true, if_false]
      exact cuLanczosBody_eq he dot tol orth _ _ j s hs hst

/-! ### Golub-Kahn -/

theorem subtractIn_unit {V V' : Rows ℝ n} {i k : Nat} {c : ℝ} (hV : UnitExcept (some k) V)
    (h : subtractIn V i c k = .ok V') : UnitExcept (some k) V' := by
  unfold subtractIn at h
  obtain ⟨x, -, h⟩ := bind_ok_iff.1 h
  obtain ⟨y, -, h⟩ := bind_ok_iff.1 h
  exact hV.store_slot h

theorem normalizeIn_unit {V V' : Rows ℝ n} {k : Nat} {c : ℝ} (hV : UnitExcept (some k) V)
    (h : normalizeIn Real.sqrt V k = .ok (V', c)) : UnitExcept none V' := by
  unfold normalizeIn at h
  obtain ⟨x, -, h⟩ := bind_ok_iff.1 h
  obtain ⟨W, hW, h⟩ := bind_ok_iff.1 h
  cases h
  exact hV.store_normal hW

def CuGInv (s : GKState ℝ n) : Prop := UnitExcept none s.U ∧ UnitExcept none s.V

theorem cuGkReorthogonalizeU_eq {eps : ℝ} (he : 2 * eps * n ≤ 1) (orth : Int) (buf : Nat)
    {U : Rows ℝ n} {j : Nat} (hU : UnitExcept (some (j % buf)) U) :
    cuGkReorthogonalizeU Real.sqrt eps orth buf U j = gkReorthogonalizeU Real.sqrt eps orth buf U j ∧
      ∀ U', cuGkReorthogonalizeU Real.sqrt eps orth buf U j = .ok U' →
        UnitExcept (some (j % buf)) U' := by
  unfold cuGkReorthogonalizeU gkReorthogonalizeU
  split
  · exact cuGramSchmidtIn_eq he hU _ _ _
  · exact ⟨rfl, by intro U' h; cases h; exact hU⟩

theorem cuGkReorthogonalizeV_eq {eps : ℝ} (he : 2 * eps * n ≤ 1) (orth : Int) (buf : Nat)
    {V : Rows ℝ n} {j : Nat} (hV : UnitExcept (some ((j + 1) % buf)) V) :
    cuGkReorthogonalizeV Real.sqrt eps orth buf V j = gkReorthogonalizeV Real.sqrt eps orth buf V j ∧
      ∀ V', cuGkReorthogonalizeV Real.sqrt eps orth buf V j = .ok V' →
        UnitExcept (some ((j + 1) % buf)) V' := by
  unfold cuGkReorthogonalizeV gkReorthogonalizeV
  split
  · exact cuGramSchmidtIn_eq he hV _ _ _
  · exact ⟨rfl, by intro U' h; cases h; exact hV⟩

theorem gkSubtractPrevious_unit {U U' : Rows ℝ n} {buf j : Nat} {beta : Array ℝ}
    (hU : UnitExcept (some (j % buf)) U) (h : gkSubtractPrevious buf U beta j = .ok U') :
    UnitExcept (some (j % buf)) U' := by
  unfold gkSubtractPrevious at h
  split at h
  · obtain ⟨b, -, h⟩ := bind_ok_iff.1 h
    exact subtractIn_unit hU h
  · cases h; exact hU

theorem cuGolubKahnBody_eq {eps : ℝ} (he : 2 * eps * n ≤ 1)
    (dot transposeDot : (Fin n → ℝ) → Except Fault (Fin n → ℝ)) (tol : ℝ) (orth : Int) (buf : Nat)
    (j : Nat) (s : GKState ℝ n) (hs : CuGInv s) :
    cuGolubKahnBody Real.sqrt eps dot transposeDot tol orth buf j s =
        golubKahnBody Real.sqrt eps dot transposeDot tol orth buf j s ∧
      ∀ s', cuGolubKahnBody Real.sqrt eps dot transposeDot tol orth buf j s = .ok s' → CuGInv s' := by
  constructor
  · unfold cuGolubKahnBody golubKahnBody
    refine bind_congr_ok fun vj _ => bind_congr_ok fun dv _ => bind_congr_ok fun U1 h1 =>
      bind_congr_ok fun U2 h2 => ?_
    have hU2 := gkSubtractPrevious_unit ((hs.1.weaken _).store_slot h1) h2
    rw [(cuGkReorthogonalizeU_eq he orth buf hU2).1]
    refine bind_congr_ok fun U3 _ => bind_congr_ok fun Ua _ => bind_congr_ok fun alpha _ =>
      bind_congr_ok fun uj _ => bind_congr_ok fun tu _ => bind_congr_ok fun V1 k1 =>
      bind_congr_ok fun V2 k2 => ?_
    have hV2 := subtractIn_unit ((hs.2.weaken _).store_slot k1) k2
    rw [(cuGkReorthogonalizeV_eq he orth buf hV2).1]
  · intro s' h
    unfold cuGolubKahnBody at h
    obtain ⟨vj, -, h⟩ := bind_ok_iff.1 h
    obtain ⟨dv, -, h⟩ := bind_ok_iff.1 h
    obtain ⟨U1, h1, h⟩ := bind_ok_iff.1 h
    obtain ⟨U2, h2, h⟩ := bind_ok_iff.1 h
    obtain ⟨U3, h3, h⟩ := bind_ok_iff.1 h
    obtain ⟨⟨U4, a⟩, h4, h⟩ := bind_ok_iff.1 h
    obtain ⟨alpha, -, h⟩ := bind_ok_iff.1 h
    obtain ⟨uj, -, h⟩ := bind_ok_iff.1 h
    obtain ⟨tu, -, h⟩ := bind_ok_iff.1 h
    obtain ⟨V1, k1, h⟩ := bind_ok_iff.1 h
    obtain ⟨V2, k2, h⟩ := bind_ok_iff.1 h
    obtain ⟨V3, k3, h⟩ := bind_ok_iff.1 h
    obtain ⟨⟨V4, b⟩, k4, h⟩ := bind_ok_iff.1 h
    obtain ⟨beta, -, h⟩ := bind_ok_iff.1 h
    cases h
    have hU2 := gkSubtractPrevious_unit ((hs.1.weaken _).store_slot h1) h2
    have hV2 := subtractIn_unit ((hs.2.weaken _).store_slot k1) k2
    exact ⟨normalizeIn_unit ((cuGkReorthogonalizeU_eq he orth buf hU2).2 U3 h3) h4,
      normalizeIn_unit ((cuGkReorthogonalizeV_eq he orth buf hV2).2 V3 k3) k4⟩

theorem cuGolubKahn_eq {eps : ℝ} (he : 2 * eps * n ≤ 1)
    (dot transposeDot : (Fin n → ℝ) → Except Fault (Fin n → ℝ)) (v : Fin n → ℝ) (m : Nat) (tol : ℝ)
    (orth : Int) (alpha beta : Array ℝ) :
    cuGolubKahn Real.sqrt eps dot transposeDot v m tol orth alpha beta =
      golubKahn Real.sqrt eps dot transposeDot v m tol orth alpha beta := by
  unfold cuGolubKahn golubKahn
  simp only
  set buf := golubKahnBufferSize m orth
  have hempty : UnitExcept none (Array.replicate buf (none : Option (Fin n → ℝ))) := by
    intro i x _ hx
    simp [Array.getElem?_replicate] at hx
  by_cases hb : 0 < buf
  · have e1 : store (Array.replicate buf (none : Option (Fin n → ℝ))) 0 (some v) =
        .ok ((Array.replicate buf none).set 0 (some v) (by simpa using hb)) := wr_ok _ _
    have e2 : normalizeIn Real.sqrt
        ((Array.replicate buf (none : Option (Fin n → ℝ))).set 0 (some v) (by simpa using hb)) 0 = .ok
        ((Array.replicate buf none).set 0 (divide v (norm Real.sqrt v)) (by simpa using hb),
          norm Real.sqrt v) := by
      unfold normalizeIn
      rw [load_ok (x := v) (by simp), Except.ok_bind']
      unfold store
      rw [wr_ok (by simpa using hb), Except.ok_bind']
      simp [Array.set_set]
    have e3 : store (Array.replicate buf (none : Option (Fin n → ℝ))) 0 (divide v (norm Real.sqrt v)) =
        .ok ((Array.replicate buf none).set 0 (divide v (norm Real.sqrt v)) (by simpa using hb)) :=
      wr_ok _ _
    rw [e1, Except.ok_bind', e2, e3]
    simp only [Except.ok_bind']
    rw [(forRange_congr_inv (fun _ => CuGInv) ?_ ?_).1]
    · exact ⟨hempty, (hempty.weaken 0).store_normal e3⟩
    · intro j s hs
      split
      · exact ⟨rfl, by intro s' h; cases h; exact hs⟩
      · exact cuGolubKahnBody_eq he dot transposeDot tol orth buf j s hs
  · have : ∀ o : Option (Fin n → ℝ), store (Array.replicate buf none) 0 o = .error .outOfBounds := by
      intro o
      unfold store wr
      rw [dif_neg (by simpa using hb)]
    rw [this, this]
    rfl

/-! ### One sample -/

theorem cuSlqSample_eq {ext : External ℝ} (hsq : ext.sqrt = Real.sqrt) (he : 2 * ext.eps * n ≤ 1)
    (opt : Options ℝ) (op : Operator ℝ n) (f : ℝ → ℝ) (parameters : Array ℝ) (q : Nat)
    (z : Fin n → ℝ) (ja jb : Array ℝ) (converged : Array Bool) (estimate : Array ℝ) :
    cuSlqSample ext opt op f parameters q z ja jb converged estimate =
      slqSample ext opt op f parameters q z ja jb converged estimate := by
  have h1 : cuInquiryNodes ext opt op = inquiryNodes ext opt op := by
    funext z t alpha beta
    unfold cuInquiryNodes inquiryNodes cuGolubKahnNodes golubKahnNodes cuLanczosNodes lanczosNodes
    rw [hsq, cuGolubKahn_eq he, cuLanczos_eq he]
  have h2 : cuInquiryBody ext opt op = inquiryBody ext opt op := by
    funext p z c r q j s
    unfold cuInquiryBody inquiryBody
    rw [h1]
  unfold cuSlqSample slqSample
  rw [h2]

end Lanczos

end Imate
