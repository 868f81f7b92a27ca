import Verif.Lemmas.LanczosLoop

/-! The Golub-Kahn recurrence and the ring-buffered loop. -/

namespace Imate.Lanczos

open Matrix

variable {n : Nat}

/-- `(u_{j-1}, q_j)`: the recurrence without buffers. -/
noncomputable def gref (A : Matrix (Fin n) (Fin n) ℝ) (z : Fin n → ℝ) :
    Nat → (Fin n → ℝ) × (Fin n → ℝ)
  | 0 => (0, z)
  | j + 1 =>
    let s := gref A z j
    let b := norm Real.sqrt s.2
    let v := b⁻¹ • s.2
    let p := A *ᵥ v - b • s.1
    let a := norm Real.sqrt p
    let u := a⁻¹ • p
    (u, Aᵀ *ᵥ u - a • v)

noncomputable def gq (A : Matrix (Fin n) (Fin n) ℝ) (z : Fin n → ℝ) (j : Nat) := (gref A z j).2
noncomputable def gb (A : Matrix (Fin n) (Fin n) ℝ) (z : Fin n → ℝ) (j : Nat) :=
  norm Real.sqrt (gq A z j)
noncomputable def gv (A : Matrix (Fin n) (Fin n) ℝ) (z : Fin n → ℝ) (j : Nat) :=
  (gb A z j)⁻¹ • gq A z j
noncomputable def gp (A : Matrix (Fin n) (Fin n) ℝ) (z : Fin n → ℝ) (j : Nat) :=
  A *ᵥ gv A z j - gb A z j • (gref A z j).1
noncomputable def ga (A : Matrix (Fin n) (Fin n) ℝ) (z : Fin n → ℝ) (j : Nat) :=
  norm Real.sqrt (gp A z j)
noncomputable def gu (A : Matrix (Fin n) (Fin n) ℝ) (z : Fin n → ℝ) (j : Nat) :=
  (ga A z j)⁻¹ • gp A z j

variable {A : Matrix (Fin n) (Fin n) ℝ} {z : Fin n → ℝ}

theorem gp_zero : gp A z 0 = A *ᵥ gv A z 0 := by
  show A *ᵥ gv A z 0 - gb A z 0 • (0 : Fin n → ℝ) = _
  simp
theorem gp_succ (j : Nat) : gp A z (j + 1) = A *ᵥ gv A z (j + 1) - gb A z (j + 1) • gu A z j := rfl
theorem gq_succ (j : Nat) : gq A z (j + 1) = Aᵀ *ᵥ gu A z j - ga A z j • gv A z j := rfl

theorem unit_of_normalised {x : Fin n → ℝ} (h : norm Real.sqrt x ≠ 0) :
    ((norm Real.sqrt x)⁻¹ • x) ⬝ᵥ ((norm Real.sqrt x)⁻¹ • x) = 1 := by
  rw [smul_dotProduct, dotProduct_smul, ← norm_mul_self]
  simp only [smul_eq_mul]
  field_simp

theorem gv_unit {j : Nat} (h : gb A z j ≠ 0) : gv A z j ⬝ᵥ gv A z j = 1 := unit_of_normalised h
theorem gu_unit {j : Nat} (h : ga A z j ≠ 0) : gu A z j ⬝ᵥ gu A z j = 1 := unit_of_normalised h
theorem gq_eq_smul {j : Nat} (h : gb A z j ≠ 0) : gq A z j = gb A z j • gv A z j := by
  rw [gv, smul_smul, mul_inv_cancel₀ h, one_smul]
theorem gp_eq_smul {j : Nat} (h : ga A z j ≠ 0) : gp A z j = ga A z j • gu A z j := by
  rw [gu, smul_smul, mul_inv_cancel₀ h, one_smul]

theorem adj_dot (x y : Fin n → ℝ) : x ⬝ᵥ (A *ᵥ y) = (Aᵀ *ᵥ x) ⬝ᵥ y := by
  rw [dotProduct_mulVec, ← mulVec_transpose]

theorem mulVec_gv_zero (h : ga A z 0 ≠ 0) : A *ᵥ gv A z 0 = ga A z 0 • gu A z 0 := by
  rw [← gp_zero, gp_eq_smul h]
theorem mulVec_gv_succ {j : Nat} (h : ga A z (j + 1) ≠ 0) : A *ᵥ gv A z (j + 1) =
    ga A z (j + 1) • gu A z (j + 1) + gb A z (j + 1) • gu A z j := by
  rw [← gp_eq_smul h, gp_succ]; abel
theorem transpose_mulVec_gu (j : Nat) : Aᵀ *ᵥ gu A z j = gq A z (j + 1) + ga A z j • gv A z j := by
  rw [gq_succ]; abel

/-- Extending an orthonormal family by one unit vector. -/
theorem extend_orthonormal {w : Nat → Fin n → ℝ} {j : Nat}
    (ho : ∀ i ≤ j, ∀ k ≤ j, w i ⬝ᵥ w k = if i = k then 1 else 0)
    (hu : w (j + 1) ⬝ᵥ w (j + 1) = 1) (hl : ∀ i ≤ j, w (j + 1) ⬝ᵥ w i = 0) :
    ∀ i ≤ j + 1, ∀ k ≤ j + 1, w i ⬝ᵥ w k = if i = k then 1 else 0 := by
  intro i hi k hk
  rcases Nat.lt_or_ge i (j + 1) with h1 | h1 <;> rcases Nat.lt_or_ge k (j + 1) with h2 | h2
  · exact ho i (by omega) k (by omega)
  · obtain rfl : k = j + 1 := by omega
    rw [dotProduct_comm, hl i (by omega), if_neg (by omega)]
  · obtain rfl : i = j + 1 := by omega
    rw [hl k (by omega), if_neg (by omega)]
  · obtain rfl : i = j + 1 := by omega
    obtain rfl : k = j + 1 := by omega
    simpa using hu

/-- The next left residual is orthogonal to the left basis. -/
theorem gp_orth {j : Nat}
    (hv : ∀ i ≤ j + 1, ∀ k ≤ j + 1, gv A z i ⬝ᵥ gv A z k = if i = k then 1 else 0)
    (hu : ∀ i ≤ j, ∀ k ≤ j, gu A z i ⬝ᵥ gu A z k = if i = k then 1 else 0)
    (hb : ∀ i ≤ j + 1, gb A z i ≠ 0) :
    ∀ i ≤ j, gp A z (j + 1) ⬝ᵥ gu A z i = 0 := by
  intro i hi
  rw [gp_succ, sub_dotProduct, smul_dotProduct, hu j le_rfl i hi, dotProduct_comm, adj_dot,
    transpose_mulVec_gu, gq_eq_smul (hb (i + 1) (by omega)), add_dotProduct, smul_dotProduct,
    smul_dotProduct, hv (i + 1) (by omega) (j + 1) le_rfl, hv i (by omega) (j + 1) le_rfl,
    if_neg (show ¬ i = j + 1 by omega)]
  by_cases h : i = j
  · subst h; simp
  · rw [if_neg (by omega), if_neg (by omega)]; simp

/-- The next right residual is orthogonal to the right basis. -/
theorem gq_orth {j : Nat}
    (hv : ∀ i ≤ j, ∀ k ≤ j, gv A z i ⬝ᵥ gv A z k = if i = k then 1 else 0)
    (hu : ∀ i ≤ j, ∀ k ≤ j, gu A z i ⬝ᵥ gu A z k = if i = k then 1 else 0)
    (ha : ∀ i ≤ j, ga A z i ≠ 0) :
    ∀ i ≤ j, gq A z (j + 1) ⬝ᵥ gv A z i = 0 := by
  intro i hi
  rw [gq_succ, sub_dotProduct, smul_dotProduct, hv j le_rfl i hi, ← adj_dot]
  cases i with
  | zero =>
    rw [mulVec_gv_zero (ha 0 hi), dotProduct_smul, hu j le_rfl 0 hi]
    by_cases h : j = 0
    · subst h; simp
    · simp [h]
  | succ i =>
    rw [mulVec_gv_succ (ha (i + 1) hi), dotProduct_add, dotProduct_smul, dotProduct_smul,
      hu j le_rfl (i + 1) hi, hu j le_rfl i (by omega), if_neg (show ¬ j = i by omega)]
    by_cases h : j = i + 1
    · subst h; simp
    · simp [h]

/-- Orthonormality of both bases up to the first breakdown. -/
theorem orthonormal_gref (j : Nat) (hb : ∀ i ≤ j, gb A z i ≠ 0) (ha : ∀ i ≤ j, ga A z i ≠ 0) :
    (∀ i ≤ j, ∀ k ≤ j, gv A z i ⬝ᵥ gv A z k = if i = k then 1 else 0) ∧
    (∀ i ≤ j, ∀ k ≤ j, gu A z i ⬝ᵥ gu A z k = if i = k then 1 else 0) := by
  induction j with
  | zero =>
    constructor
    · intro i hi k hk
      obtain rfl : i = 0 := by omega
      obtain rfl : k = 0 := by omega
      simpa using gv_unit (hb 0 le_rfl)
    · intro i hi k hk
      obtain rfl : i = 0 := by omega
      obtain rfl : k = 0 := by omega
      simpa using gu_unit (ha 0 le_rfl)
  | succ j ih =>
    obtain ⟨hv, hu⟩ := ih (fun i hi => hb i (by omega)) (fun i hi => ha i (by omega))
    have hv' := extend_orthonormal hv (gv_unit (hb (j + 1) le_rfl)) (by
      intro i hi
      rw [show gv A z (j + 1) = (gb A z (j + 1))⁻¹ • gq A z (j + 1) from rfl, smul_dotProduct,
        gq_orth hv hu (fun i hi => ha i (by omega)) i hi, smul_zero])
    refine ⟨hv', extend_orthonormal hu (gu_unit (ha (j + 1) le_rfl)) ?_⟩
    intro i hi
    rw [show gu A z (j + 1) = (ga A z (j + 1))⁻¹ • gp A z (j + 1) from rfl, smul_dotProduct,
      gp_orth hv' hu hb i hi, smul_zero]

/-- `u_i` is the image of a vector in the span of `v_0, …, v_i`. -/
theorem gu_preimage (i : Nat) (ha : ∀ k ≤ i, ga A z k ≠ 0) :
    ∃ w, A *ᵥ w = gu A z i ∧ ∀ x, (∀ k ≤ i, gv A z k ⬝ᵥ x = 0) → w ⬝ᵥ x = 0 := by
  induction i with
  | zero =>
    refine ⟨(ga A z 0)⁻¹ • gv A z 0, ?_, ?_⟩
    · rw [mulVec_smul, mulVec_gv_zero (ha 0 le_rfl), smul_smul, inv_mul_cancel₀ (ha 0 le_rfl),
        one_smul]
    · intro x hx
      rw [smul_dotProduct, hx 0 le_rfl, smul_zero]
  | succ i ih =>
    obtain ⟨w, hw, hx⟩ := ih (fun k hk => ha k (by omega))
    refine ⟨(ga A z (i + 1))⁻¹ • (gv A z (i + 1) - gb A z (i + 1) • w), ?_, ?_⟩
    · rw [mulVec_smul, mulVec_sub, mulVec_smul, hw, mulVec_gv_succ (ha (i + 1) le_rfl),
        add_sub_cancel_right, smul_smul, inv_mul_cancel₀ (ha (i + 1) le_rfl), one_smul]
    · intro x h
      rw [smul_dotProduct, sub_dotProduct, smul_dotProduct, h (i + 1) le_rfl,
        hx x (fun k hk => h k (by omega))]
      simp

/-- For an injective matrix the left side never breaks down before the right side. -/
theorem ga_ne_zero (hA : Function.Injective A.mulVec) (j : Nat) (hb : ∀ i ≤ j, gb A z i ≠ 0) :
    ∀ i ≤ j, ga A z i ≠ 0 := by
  induction j with
  | zero =>
    intro i hi
    obtain rfl : i = 0 := by omega
    intro h
    have h1 := norm_eq_zero.1 h
    rw [gp_zero] at h1
    have h2 : gv A z 0 = 0 := hA (by simpa using h1)
    have := gv_unit (hb 0 le_rfl)
    rw [h2] at this
    simp at this
  | succ j ih =>
    have ha := ih (fun i hi => hb i (by omega))
    intro i hi
    rcases Nat.lt_or_ge i (j + 1) with h1 | h1
    · exact ha i (by omega)
    obtain rfl : i = j + 1 := by omega
    intro h
    have h1 := norm_eq_zero.1 h
    rw [gp_succ, sub_eq_zero] at h1
    obtain ⟨w, hw, hx⟩ := gu_preimage j ha
    rw [← hw, ← mulVec_smul] at h1
    have h2 : gv A z (j + 1) = gb A z (j + 1) • w := hA h1
    obtain ⟨hv, hu⟩ := orthonormal_gref j (fun i hi => hb i (by omega)) ha
    have h3 : w ⬝ᵥ gv A z (j + 1) = 0 := by
      apply hx
      intro k hk
      rw [dotProduct_comm, show gv A z (j + 1) = (gb A z (j + 1))⁻¹ • gq A z (j + 1) from rfl,
        smul_dotProduct, gq_orth hv hu ha k hk, smul_zero]
    have h4 := gv_unit (hb (j + 1) le_rfl)
    nth_rewrite 1 [h2] at h4
    rw [smul_dotProduct, h3] at h4
    simp at h4

/-! ### The loop -/

theorem gramSchmidtIn_noop (eps : ℝ) (V : Rows ℝ n) (nv last : Nat) (no : Int) (slot : Nat)
    {v : Fin n → ℝ} (hs : V[slot]? = some (some v))
    (h : ∀ step < gsNumSteps n nv no, ∃ x, V[gsIndex nv last step]? = some (some x) ∧ x ⬝ᵥ v = 0) :
    gramSchmidtIn Real.sqrt eps V nv last no slot = .ok V := by
  unfold gramSchmidtIn
  obtain ⟨s', h1, h2⟩ := forRange_inv (body := fun step V => do
    let Vi ← load V (gsIndex nv last step)
    let v ← load V slot
    Lanczos.store V slot (some (gsStep Real.sqrt eps Vi v))) (fun _ s => s = V)
    (Nat.zero_le (gsNumSteps n nv no)) V rfl (by
      intro i _ hi s hs'
      obtain ⟨x, hx, hx0⟩ := h i hi
      refine ⟨V, ?_, rfl⟩
      rw [hs', load_ok hx, load_ok hs]
      show Lanczos.store V slot (some (gsStep Real.sqrt eps x v)) = _
      rw [gsStep_orthogonal eps hx0]
      have hlt : slot < V.size := by
        by_contra hc
        rw [Array.getElem?_eq_none (by omega)] at hs
        simp at hs
      rw [Lanczos.store, wr_ok hlt]
      congr 1
      rw [Array.getElem?_eq_getElem hlt] at hs
      simp only [Option.some.injEq] at hs
      rw [← hs]
      simp)
  rw [h1, h2]

theorem golubKahnBufferSize_ge {m : Nat} {orth : Int} (h : 2 ≤ m ∨ (1 ≤ m ∧ orth = 0)) :
    2 ≤ golubKahnBufferSize m orth := by
  unfold golubKahnBufferSize
  split
  · omega
  · split <;> omega

theorem mod_ne_succ {j buf : Nat} (h : 2 ≤ buf) : j % buf ≠ (j + 1) % buf := by
  intro h'
  have := mod_inj (i := j) (j := j + 1) (buf := buf) (by omega) (by omega) h'
  omega

theorem set_set_same {V : Rows ℝ n} {i : Nat} {x y : Option (Fin n → ℝ)} (h : i < V.size)
    (h' : i < (V.set i x h).size) : (V.set i x h).set i y h' = V.set i y h := by
  simp

/-- Overwrite the row of a ring buffer used in step `j`. -/
theorem Holds.set {V : Rows ℝ n} {buf : Nat} {v : Nat → Fin n → ℝ} {j : Nat} (h : Holds V buf v j)
    (hlt : j % buf < V.size) : Holds (V.set (j % buf) (some (v j)) hlt) buf v (j + 1) := by
  refine ⟨by simp [h.1], ?_⟩
  intro i hi hij
  rw [Array.getElem?_set]
  by_cases he : j % buf = i % buf
  · have := mod_inj (i := i) (j := j) (by omega) (by omega) he.symm
    subst this
    simp
  · rw [if_neg he]
    have hne : i ≠ j := fun h' => he (by rw [h'])
    exact h.2 i (by omega) (by omega)

/-- The other rows survive. -/
theorem Holds.get_set {V : Rows ℝ n} {buf : Nat} {v : Nat → Fin n → ℝ} {j : Nat}
    (h : Holds V buf v j) (hlt : j % buf < V.size) (x : Option (Fin n → ℝ)) {i : Nat} (hi : i < j)
    (hij : j < i + buf) : (V.set (j % buf) x hlt)[i % buf]? = some (some (v i)) := by
  rw [Array.getElem?_set]
  by_cases he : j % buf = i % buf
  · have := mod_inj (i := i) (j := j) (by omega) (by omega) he.symm
    omega
  · rw [if_neg he]
    exact h.2 i hi (by omega)

theorem gkNumOrtho_bound {buf j step : Nat} (hb : 2 ≤ buf)
    (h : step < gsNumSteps n buf (gkNumOrtho buf j)) : step < j ∧ step + 1 < buf := by
  have := gsNumSteps_le_of_nat n buf (gkNumOrtho buf j)
  have h2 : step < gkNumOrtho buf j := by omega
  unfold gkNumOrtho at h2
  split at h2 <;> omega

/-- The loop invariant. -/
structure GInv (A : Matrix (Fin n) (Fin n) ℝ) (z : Fin n → ℝ) (m buf : Nat) (thr : ℝ) (j : Nat)
    (s : GKState ℝ n) : Prop where
  asize : s.alpha.size = m
  bsize : s.beta.size = m
  alpha : ∀ i < s.size, s.alpha[i]? = some (ga A z i)
  beta : ∀ i < s.size, s.beta[i]? = some (gb A z (i + 1))
  le : s.size ≤ j
  big : ∀ i, i + 1 < s.size → thr ≤ gb A z (i + 1)
  stopped : s.stop = true → 0 < s.size ∧ gb A z s.size < thr
  running : s.stop = false → s.size = j ∧ (0 < j → thr ≤ gb A z j) ∧
    Holds s.U buf (gu A z) j ∧ Holds s.V buf (gv A z) (j + 1)

theorem GInv.ne_zero {m buf j : Nat} {thr : ℝ} {s : GKState ℝ n} (hz : z ≠ 0) (hthr : 0 < thr)
    (hs : GInv A z m buf thr j s) (hstop : s.stop = false) : ∀ i ≤ j, gb A z i ≠ 0 := by
  obtain ⟨hsz, hbig, hU, hV⟩ := hs.running hstop
  intro i hi
  rcases Nat.eq_zero_or_pos i with rfl | hp
  · exact norm_ne_zero hz
  · rcases Nat.lt_or_ge i j with h1 | h1
    · have := hs.big (i - 1) (by omega)
      rw [Nat.sub_add_cancel hp] at this
      exact (lt_of_lt_of_le hthr this).ne'
    · obtain rfl : i = j := by omega
      exact (lt_of_lt_of_le hthr (hbig hp)).ne'

theorem golubKahnBody_inv {dot tdot : (Fin n → ℝ) → Except Fault (Fin n → ℝ)}
    (hdot : ∀ x, dot x = .ok (A *ᵥ x)) (htdot : ∀ x, tdot x = .ok (Aᵀ *ᵥ x))
    (eps tol : ℝ) (htol : 0 < tol * Real.sqrt n)
    {m buf : Nat} (hb2 : 2 ≤ buf) (orth : Int) {j : Nat} (hj : j < m)
    (hne : ∀ i ≤ j, gb A z i ≠ 0) (hga : ∀ i ≤ j, ga A z i ≠ 0)
    {s : GKState ℝ n}
    (hs : GInv A z m buf (tol * Real.sqrt n) j s) (hstop : s.stop = false) :
    ∃ s', golubKahnBody Real.sqrt eps dot tdot tol orth buf j s
        = .ok s' ∧ GInv A z m buf (tol * Real.sqrt n) (j + 1) s' := by
  obtain ⟨hsz, hbig, hU, hV⟩ := hs.running hstop
  obtain ⟨hvo, huo⟩ := orthonormal_gref j hne hga
  have hqo := gq_orth hvo huo hga
  have hlt : j % buf < s.U.size := by rw [hU.1]; exact Nat.mod_lt _ (by omega)
  have hltV : (j + 1) % buf < s.V.size := by rw [hV.1]; exact Nat.mod_lt _ (by omega)
  have hbprev : 0 < j → rd s.beta (j - 1) = .ok (gb A z j) := by
    intro hp
    have := hs.beta (j - 1) (by omega)
    rw [Nat.sub_add_cancel hp] at this
    exact rd_ok this
  have hself : ∀ x : Fin n → ℝ, (s.U.set (j % buf) (some x) hlt)[j % buf]? = some (some x) := by
    intro x; simp
  have hselfV : ∀ x : Fin n → ℝ,
      (s.V.set ((j + 1) % buf) (some x) hltV)[(j + 1) % buf]? = some (some x) := by
    intro x; simp
  -- v_j
  have e0 : load s.V (j % buf) = .ok (gv A z j) := load_ok (hV.2 j (by omega) (by omega))
  -- u_j before orthogonalisation
  have e1 : Lanczos.store s.U (j % buf) (some (A *ᵥ gv A z j)) =
      .ok (s.U.set (j % buf) (some (A *ᵥ gv A z j)) hlt) := wr_ok hlt _
  have e2 : gkSubtractPrevious buf (s.U.set (j % buf) (some (A *ᵥ gv A z j)) hlt) s.beta j =
      .ok (s.U.set (j % buf) (some (gp A z j)) hlt) := by
    unfold gkSubtractPrevious
    rcases Nat.eq_zero_or_pos j with h0 | hp
    · subst h0
      rw [if_neg (by omega), gp_zero]
    · rw [if_pos hp, hbprev hp]
      show subtractIn _ _ _ _ = _
      unfold subtractIn
      rw [load_ok (hU.get_set hlt _ (show j - 1 < j by omega) (by omega)), load_ok (hself _)]
      show Lanczos.store _ _ _ = _
      rw [Lanczos.store, wr_ok (by simpa using hlt), set_set_same]
      obtain ⟨k, rfl⟩ : ∃ k, j = k + 1 := ⟨j - 1, by omega⟩
      rw [gp_succ]; rfl
  have e3 : gkReorthogonalizeU Real.sqrt eps orth buf (s.U.set (j % buf) (some (gp A z j)) hlt) j =
      .ok (s.U.set (j % buf) (some (gp A z j)) hlt) := by
    unfold gkReorthogonalizeU
    split
    · rename_i h
      apply gramSchmidtIn_noop _ _ _ _ _ _ (hself _)
      intro step hstep
      obtain ⟨h1, h2⟩ := gkNumOrtho_bound hb2 hstep
      refine ⟨gu A z (j - 1 - step), ?_, ?_⟩
      · rw [gsIndex_eq (by omega) (by omega)]
        exact hU.get_set hlt _ (by omega) (by omega)
      · obtain ⟨k, rfl⟩ : ∃ k, j = k + 1 := ⟨j - 1, by omega⟩
        rw [dotProduct_comm]
        exact gp_orth hvo (fun i hi l hl => huo i (by omega) l (by omega)) hne _ (by omega)
    · rfl
  have e4 : normalizeIn Real.sqrt (s.U.set (j % buf) (some (gp A z j)) hlt) (j % buf) =
      .ok (s.U.set (j % buf) (some (gu A z j)) hlt, ga A z j) := by
    unfold normalizeIn
    rw [load_ok (hself _)]
    show (do let V ← Lanczos.store _ _ (divide (gp A z j) (ga A z j)); Except.ok (V, ga A z j)) = _
    rw [divide_eq (hga j le_rfl), Lanczos.store, wr_ok (by simpa using hlt), set_set_same]
    rfl
  have hU' := hU.set hlt
  have hwa : wr s.alpha j (ga A z j) = .ok (s.alpha.set j (ga A z j) (by rw [hs.asize]; exact hj)) :=
    wr_ok _ _
  have f1 : Lanczos.store s.V ((j + 1) % buf) (some (Aᵀ *ᵥ gu A z j)) =
      .ok (s.V.set ((j + 1) % buf) (some (Aᵀ *ᵥ gu A z j)) hltV) := wr_ok hltV _
  have f2 : subtractIn (s.V.set ((j + 1) % buf) (some (Aᵀ *ᵥ gu A z j)) hltV) (j % buf) (ga A z j)
      ((j + 1) % buf) = .ok (s.V.set ((j + 1) % buf) (some (gq A z (j + 1))) hltV) := by
    unfold subtractIn
    rw [load_ok (hV.get_set hltV _ (show j < j + 1 by omega) (by omega)), load_ok (hselfV _)]
    show Lanczos.store _ _ _ = _
    rw [Lanczos.store, wr_ok (by simpa using hltV), set_set_same]
    rfl
  have f3 : gkReorthogonalizeV Real.sqrt eps orth buf
      (s.V.set ((j + 1) % buf) (some (gq A z (j + 1))) hltV) j =
      .ok (s.V.set ((j + 1) % buf) (some (gq A z (j + 1))) hltV) := by
    unfold gkReorthogonalizeV
    split
    · apply gramSchmidtIn_noop _ _ _ _ _ _ (hselfV _)
      intro step hstep
      obtain ⟨h1, h2⟩ := gkNumOrtho_bound hb2 hstep
      refine ⟨gv A z (j - step), ?_, ?_⟩
      · rw [gsIndex_eq (by omega) (by omega)]
        exact hV.get_set hltV _ (by omega) (by omega)
      · rw [dotProduct_comm]
        exact hqo _ (by omega)
    · rfl
  have f4 : normalizeIn Real.sqrt (s.V.set ((j + 1) % buf) (some (gq A z (j + 1))) hltV)
      ((j + 1) % buf) =
      .ok (s.V.set ((j + 1) % buf) (divide (gq A z (j + 1)) (gb A z (j + 1))) hltV,
        gb A z (j + 1)) := by
    unfold normalizeIn
    rw [load_ok (hselfV _)]
    show (do let V ← Lanczos.store _ _ (divide (gq A z (j + 1)) (gb A z (j + 1)))
             Except.ok (V, gb A z (j + 1))) = _
    rw [Lanczos.store, wr_ok (by simpa using hltV), set_set_same]
    rfl
  have hwb : wr s.beta j (gb A z (j + 1)) =
      .ok (s.beta.set j (gb A z (j + 1)) (by rw [hs.bsize]; exact hj)) := wr_ok _ _
  refine ⟨⟨s.U.set (j % buf) (some (gu A z j)) hlt,
    s.V.set ((j + 1) % buf) (divide (gq A z (j + 1)) (gb A z (j + 1))) hltV,
    s.alpha.set j (ga A z j) (by rw [hs.asize]; exact hj),
    s.beta.set j (gb A z (j + 1)) (by rw [hs.bsize]; exact hj), s.size + 1,
    decide (gb A z (j + 1) < tol * Real.sqrt n)⟩, ?_, ?_⟩
  · unfold golubKahnBody
    rw [e0, Except.ok_bind', hdot, Except.ok_bind', e1, Except.ok_bind', e2, Except.ok_bind', e3,
      Except.ok_bind', e4, Except.ok_bind']
    simp only
    rw [hwa, Except.ok_bind', load_ok (hself _), Except.ok_bind', htdot, Except.ok_bind', f1,
      Except.ok_bind', f2, Except.ok_bind', f3, Except.ok_bind', f4, Except.ok_bind']
    simp only
    rw [hwb, Except.ok_bind']
  · constructor
    · simp [hs.asize]
    · simp [hs.bsize]
    · intro i hi
      simp only at hi ⊢
      rw [Array.getElem?_set]
      by_cases h : j = i
      · subst h; simp
      · rw [if_neg h]; exact hs.alpha i (by omega)
    · intro i hi
      simp only at hi ⊢
      rw [Array.getElem?_set]
      by_cases h : j = i
      · subst h; simp
      · rw [if_neg h]; exact hs.beta i (by omega)
    · simp [hsz]
    · intro i hi
      simp only at hi
      rcases Nat.lt_or_ge (i + 1) s.size with h1 | h1
      · exact hs.big i h1
      · obtain rfl : i + 1 = j := by omega
        exact hbig (by omega)
    · intro h
      simp only [decide_eq_true_eq] at h ⊢
      refine ⟨by omega, ?_⟩
      rw [hsz]; exact h
    · intro h
      simp only [decide_eq_false_iff_not, not_lt] at h ⊢
      refine ⟨by omega, fun _ => h, hU', ?_⟩
      have hb' : gb A z (j + 1) ≠ 0 := (lt_of_lt_of_le htol h).ne'
      rw [divide_eq hb']
      exact hV.set hltV

/-- What the program returns, in terms of the recurrence. -/
structure GKResult (A : Matrix (Fin n) (Fin n) ℝ) (z : Fin n → ℝ) (m : Nat) (thr : ℝ)
    (c : Coefficients ℝ) : Prop where
  asize : c.alpha.size = m
  bsize : c.beta.size = m
  alpha : ∀ i < c.size, c.alpha[i]? = some (ga A z i)
  beta : ∀ i < c.size, c.beta[i]? = some (gb A z (i + 1))
  le : c.size ≤ m
  pos : 0 < m → 0 < c.size
  big : ∀ i, i + 1 < c.size → thr ≤ gb A z (i + 1)
  early : c.size < m → gb A z c.size < thr

theorem golubKahn_result {dot tdot : (Fin n → ℝ) → Except Fault (Fin n → ℝ)}
    (hdot : ∀ x, dot x = .ok (A *ᵥ x)) (htdot : ∀ x, tdot x = .ok (Aᵀ *ᵥ x))
    (hA : ∀ j, (∀ i ≤ j, gb A z i ≠ 0) → ∀ i ≤ j, ga A z i ≠ 0) (hz : z ≠ 0) (eps tol : ℝ)
    (htol : 0 < tol) (m : Nat) (orth : Int) (hm : 2 ≤ m ∨ (1 ≤ m ∧ orth = 0))
    {alpha beta : Array ℝ} (ha : alpha.size = m) (hb : beta.size = m) :
    ∃ c, golubKahn Real.sqrt eps dot tdot z m tol orth alpha beta = .ok c ∧
      GKResult A z m (tol * Real.sqrt n) c := by
  have hn : 0 < n := by
    rcases Nat.eq_zero_or_pos n with h | h
    · subst h; exact absurd (Subsingleton.elim z 0) hz
    · exact h
  have hthr : 0 < tol * Real.sqrt n := mul_pos htol (Real.sqrt_pos.2 (by exact_mod_cast hn))
  have hbuf := golubKahnBufferSize_ge hm
  set buf := golubKahnBufferSize m orth with hbufdef
  have hz0 : gb A z 0 ≠ 0 := norm_ne_zero hz
  have hlt0 : 0 < (Array.replicate buf (none : Option (Fin n → ℝ))).size := by simp; omega
  have hV0 : Holds ((Array.replicate buf (none : Option (Fin n → ℝ))).set 0 (some (gv A z 0)) hlt0) buf
      (gv A z) 1 := by
    refine ⟨by simp, ?_⟩
    intro i hi _
    obtain rfl : i = 0 := by omega
    simp
  obtain ⟨s, h1, h2⟩ := forRange_inv
    (body := fun j s =>
      if s.stop then .ok s
      else golubKahnBody Real.sqrt eps dot tdot tol orth buf j s)
    (GInv A z m buf (tol * Real.sqrt n)) (Nat.zero_le m)
    ⟨Array.replicate buf none,
      (Array.replicate buf none).set 0 (some (gv A z 0)) hlt0, alpha, beta, 0, false⟩
    ⟨ha, hb, by simp, by simp, by simp, by simp, by simp,
      fun _ => ⟨rfl, by simp, ⟨by simp, by simp⟩, hV0⟩⟩ (by
      intro j _ hj s hs
      by_cases hst : s.stop = true
      · refine ⟨s, by simp [hst], ?_⟩
        exact ⟨hs.asize, hs.bsize, hs.alpha, hs.beta, by have := hs.le; omega, hs.big, hs.stopped,
          by simp [hst]⟩
      · have hst' : s.stop = false := by simpa using hst
        rw [hst']
        have hne := hs.ne_zero hz hthr hst'
        exact golubKahnBody_inv hdot htdot eps tol hthr hbuf orth hj hne (hA j hne) hs hst')
  refine ⟨⟨s.size, s.alpha, s.beta⟩, ?_, ?_⟩
  · unfold golubKahn
    simp only [← hbufdef]
    rw [show norm Real.sqrt z = gb A z 0 from rfl, divide_eq hz0, Lanczos.store, wr_ok hlt0,
      Except.ok_bind']
    rw [show (gb A z 0)⁻¹ • z = gv A z 0 from rfl, h1]; rfl
  · refine ⟨h2.asize, h2.bsize, h2.alpha, h2.beta, h2.le, ?_, h2.big, ?_⟩
    · intro hm
      by_cases hst : s.stop = true
      · exact (h2.stopped hst).1
      · have := (h2.running (by simpa using hst)).1
        show 0 < s.size
        omega
    · intro hm
      by_cases hst : s.stop = true
      · exact (h2.stopped hst).2
      · have := (h2.running (by simpa using hst)).1
        simp only at hm
        omega

end Imate.Lanczos
