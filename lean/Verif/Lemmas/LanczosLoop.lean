import Verif.Lemmas.Lanczos

/-! The ring-buffered Lanczos loop computes the un-buffered recurrence. -/

namespace Imate.Lanczos

open Matrix

variable {n : Nat} {A : Matrix (Fin n) (Fin n) ℝ} {z : Fin n → ℝ}

theorem mod_inj {i j buf : Nat} (h1 : i ≤ j) (h2 : j < i + buf) (h : i % buf = j % buf) : i = j := by
  have ha := Nat.div_add_mod i buf
  have hb := Nat.div_add_mod j buf
  rw [h] at ha
  rcases Nat.lt_trichotomy (i / buf) (j / buf) with h3 | h3 | h3
  · have : buf * (i / buf + 1) ≤ buf * (j / buf) := Nat.mul_le_mul_left _ h3
    rw [Nat.mul_add] at this
    omega
  · rw [h3] at ha; omega
  · have : buf * (j / buf + 1) ≤ buf * (i / buf) := Nat.mul_le_mul_left _ h3
    rw [Nat.mul_add] at this
    omega

theorem lanczosBufferSize_pos {m j : Nat} (orth : Int) (hj : j < m) :
    0 < lanczosBufferSize m orth ∧ (0 < j → 2 ≤ lanczosBufferSize m orth) := by
  unfold lanczosBufferSize
  split
  · omega
  · split <;> omega

/-- Rows of a ring buffer that still hold `v_i` before step `j`. -/
def Holds (V : Rows ℝ n) (buf : Nat) (v : Nat → Fin n → ℝ) (j : Nat) : Prop :=
  V.size = buf ∧ ∀ i < j, j ≤ i + buf → V[i % buf]? = some (some (v i))

theorem Holds.store {V : Rows ℝ n} {buf : Nat} {v : Nat → Fin n → ℝ} {j : Nat} (hb : 0 < buf)
    (h : Holds V buf v j) : ∃ V', store V (j % buf) (some (v j)) = .ok V' ∧
      Holds V' buf v (j + 1) := by
  have hlt : j % buf < V.size := by rw [h.1]; exact Nat.mod_lt _ hb
  refine ⟨_, wr_ok hlt _, by simp [h.1], ?_⟩
  intro i hi hij
  rw [Array.getElem?_set]
  by_cases he : j % buf = i % buf
  · have := mod_inj (i := i) (j := j) (by omega) (by omega) he.symm
    subst this
    simp
  · rw [if_neg he]
    have hne : i ≠ j := fun h' => he (by rw [h'])
    exact h.2 i (by omega) (by omega)

/-- The loop invariant. -/
structure LInv (A : Matrix (Fin n) (Fin n) ℝ) (z : Fin n → ℝ) (m buf : Nat) (thr : ℝ) (j : Nat)
    (s : LanczosState ℝ n) : Prop where
  asize : s.alpha.size = m
  bsize : s.beta.size = m
  alpha : ∀ i < s.size, s.alpha[i]? = some (aa A z i)
  beta : ∀ i < s.size, s.beta[i]? = some (bb A z (i + 1))
  le : s.size ≤ j
  big : ∀ i, i + 1 < s.size → thr ≤ bb A z (i + 1)
  stopped : s.stop = true → 0 < s.size ∧ bb A z s.size < thr
  running : s.stop = false → s.size = j ∧ (0 < j → thr ≤ bb A z j) ∧ s.r = rr A z j ∧
    Holds s.V buf (vv A z) j

theorem LInv.ne_zero {m buf j : Nat} {thr : ℝ} {s : LanczosState ℝ n} (hz : z ≠ 0) (hthr : 0 < thr)
    (hs : LInv A z m buf thr j s) (hstop : s.stop = false) : ∀ i ≤ j, bb A z i ≠ 0 := by
  obtain ⟨hsz, hbig, hr, hV⟩ := hs.running hstop
  intro i hi
  rcases Nat.eq_zero_or_pos i with rfl | hp
  · exact norm_ne_zero hz
  · rcases Nat.lt_or_ge i j with h1 | h1
    · have := hs.big (i - 1) (by omega)
      rw [Nat.sub_add_cancel hp] at this
      exact (lt_of_lt_of_le hthr this).ne'
    · obtain rfl : i = j := by omega
      exact (lt_of_lt_of_le hthr (hbig hp)).ne'

theorem lanczosBody_inv {dot : (Fin n → ℝ) → Except Fault (Fin n → ℝ)}
    (hdot : ∀ x, dot x = .ok (A *ᵥ x)) (hA : A.IsSymm) (eps tol : ℝ)
    {m : Nat} (orth : Int) {j : Nat} (hj : j < m) (hne : ∀ i ≤ j, bb A z i ≠ 0)
    {s : LanczosState ℝ n}
    (hs : LInv A z m (lanczosBufferSize m orth) (tol * Real.sqrt n) j s) (hstop : s.stop = false) :
    ∃ s', lanczosBody Real.sqrt eps dot tol orth (lanczosBufferSize m orth) (norm Real.sqrt z) j s
        = .ok s' ∧ LInv A z m (lanczosBufferSize m orth) (tol * Real.sqrt n) (j + 1) s' := by
  obtain ⟨hsz, hbig, hr, hV⟩ := hs.running hstop
  obtain ⟨hb0, hb2⟩ := lanczosBufferSize_pos orth hj
  set buf := lanczosBufferSize m orth with hbuf
  obtain ⟨hon, hro⟩ := orthonormal_ref hA j hne
  obtain ⟨V', hst, hV'⟩ := hV.store hb0
  have hrow : ∀ i ≤ j, j < i + buf → load V' (i % buf) = .ok (vv A z i) := by
    intro i hi hij
    exact load_ok (hV'.2 i (by omega) (by omega))
  -- storing the normalised vector
  have hdiv : divide s.r (bb A z j) = some (vv A z j) := by
    rw [divide_eq (hne j le_rfl), hr]; rfl
  have hbprev : 0 < j → rd s.beta (j - 1) = .ok (bb A z j) := by
    intro hp
    have := hs.beta (j - 1) (by omega)
    rw [Nat.sub_add_cancel hp] at this
    exact rd_ok this
  have e1 : lanczosNormalize buf (norm Real.sqrt z) j s = .ok V' := by
    unfold lanczosNormalize
    rcases Nat.eq_zero_or_pos j with h0 | hp
    · subst h0
      rw [if_pos rfl]
      rw [show norm Real.sqrt z = bb A z 0 from rfl, hdiv, hst]
    · rw [if_neg (by omega), hbprev hp]
      show Lanczos.store s.V (j % buf) (divide s.r (bb A z j)) = _
      rw [hdiv, hst]
  have hwa : wr s.alpha j (aa A z j) = .ok (s.alpha.set j (aa A z j) (by rw [hs.asize]; exact hj)) :=
    wr_ok _ _
  have e2 : lanczosSubtractPrevious buf V' s.beta j (A *ᵥ vv A z j - aa A z j • vv A z j) =
      .ok (rr A z (j + 1)) := by
    unfold lanczosSubtractPrevious
    rcases Nat.eq_zero_or_pos j with h0 | hp
    · subst h0
      rw [if_neg (by omega), rr_one]
    · rw [if_pos hp, hrow (j - 1) (by omega) (by have := hb2 hp; omega), hbprev hp]
      obtain ⟨k, rfl⟩ : ∃ k, j = k + 1 := ⟨j - 1, by omega⟩
      show Except.ok _ = _
      rw [rr_succ]; rfl
  have e3 : lanczosReorthogonalize Real.sqrt eps orth buf V' j (rr A z (j + 1)) =
      .ok (rr A z (j + 1)) := by
    unfold lanczosReorthogonalize
    split
    · apply gramSchmidt_noop
      intro step hstep
      have hle := gsNumSteps_le_of_nat n buf (if j < buf then j + 1 else buf)
      have h1 : step < (if j < buf then j + 1 else buf) := by omega
      have h2 : step < buf := by omega
      have h3 : step ≤ j := by split at h1 <;> omega
      refine ⟨vv A z (j - step), ?_, ?_⟩
      · rw [gsIndex_eq h2 h3]
        exact hV'.2 (j - step) (by omega) (by omega)
      · rw [dotProduct_comm]
        exact hro (j - step) (by omega)
    · rfl
  have hwb : wr s.beta j (bb A z (j + 1)) =
      .ok (s.beta.set j (bb A z (j + 1)) (by rw [hs.bsize]; exact hj)) := wr_ok _ _
  refine ⟨⟨V', rr A z (j + 1), s.alpha.set j (aa A z j) (by rw [hs.asize]; exact hj),
    s.beta.set j (bb A z (j + 1)) (by rw [hs.bsize]; exact hj), s.size + 1,
    decide (bb A z (j + 1) < tol * Real.sqrt n)⟩, ?_, ?_⟩
  · unfold lanczosBody
    rw [e1, Except.ok_bind', hrow j le_rfl (by omega), Except.ok_bind', hdot, Except.ok_bind']
    rw [show vv A z j ⬝ᵥ (A *ᵥ vv A z j) = aa A z j from rfl, hwa, Except.ok_bind', e2,
      Except.ok_bind', e3, Except.ok_bind']
    rw [show norm Real.sqrt (rr A z (j + 1)) = bb A z (j + 1) from rfl, hwb, Except.ok_bind']
  · constructor
    · simp [hs.asize]
    · simp [hs.bsize]
    · intro i hi
      simp only at hi ⊢
      rw [Array.getElem?_set]
      by_cases h : j = i
      · subst h; simp
      · rw [if_neg h]; exact hs.alpha i (by omega)
    · intro i hi
      simp only at hi ⊢
      rw [Array.getElem?_set]
      by_cases h : j = i
      · subst h; simp
      · rw [if_neg h]; exact hs.beta i (by omega)
    · simp [hsz]
    · intro i hi
      simp only at hi
      rcases Nat.lt_or_ge (i + 1) s.size with h1 | h1
      · exact hs.big i h1
      · obtain rfl : i + 1 = j := by omega
        exact hbig (by omega)
    · intro h
      simp only [decide_eq_true_eq] at h ⊢
      refine ⟨by omega, ?_⟩
      rw [hsz]; exact h
    · intro h
      simp only [decide_eq_false_iff_not, not_lt] at h ⊢
      exact ⟨by omega, fun _ => h, trivial, hV'⟩

/-- What the program returns, in terms of the recurrence. -/
structure LanczosResult (A : Matrix (Fin n) (Fin n) ℝ) (z : Fin n → ℝ) (m : Nat) (thr : ℝ)
    (c : Coefficients ℝ) : Prop where
  asize : c.alpha.size = m
  bsize : c.beta.size = m
  alpha : ∀ i < c.size, c.alpha[i]? = some (aa A z i)
  beta : ∀ i < c.size, c.beta[i]? = some (bb A z (i + 1))
  le : c.size ≤ m
  pos : 0 < m → 0 < c.size
  big : ∀ i, i + 1 < c.size → thr ≤ bb A z (i + 1)
  early : c.size < m → bb A z c.size < thr

theorem lanczos_result {dot : (Fin n → ℝ) → Except Fault (Fin n → ℝ)}
    (hdot : ∀ x, dot x = .ok (A *ᵥ x)) (hA : A.IsSymm) (hz : z ≠ 0) (eps tol : ℝ)
    (htol : 0 < tol) (m : Nat) (orth : Int) {alpha beta : Array ℝ} (ha : alpha.size = m)
    (hb : beta.size = m) :
    ∃ c, lanczos Real.sqrt eps dot z m tol orth alpha beta = .ok c ∧
      LanczosResult A z m (tol * Real.sqrt n) c := by
  have hn : 0 < n := by
    rcases Nat.eq_zero_or_pos n with h | h
    · subst h; exact absurd (Subsingleton.elim z 0) hz
    · exact h
  have hthr : 0 < tol * Real.sqrt n := mul_pos htol (Real.sqrt_pos.2 (by exact_mod_cast hn))
  obtain ⟨s, h1, h2⟩ := forRange_inv
    (body := fun j s =>
      if s.stop then .ok s
      else lanczosBody Real.sqrt eps dot tol orth (lanczosBufferSize m orth) (norm Real.sqrt z) j s)
    (LInv A z m (lanczosBufferSize m orth) (tol * Real.sqrt n)) (Nat.zero_le m)
    ⟨Array.replicate (lanczosBufferSize m orth) none, z, alpha, beta, 0, false⟩
    ⟨ha, hb, by simp, by simp, by simp, by simp, by simp,
      fun _ => ⟨rfl, by simp, rfl, by simp, by simp⟩⟩ (by
      intro j _ hj s hs
      by_cases hst : s.stop = true
      · refine ⟨s, by simp [hst], ?_⟩
        exact ⟨hs.asize, hs.bsize, hs.alpha, hs.beta, by have := hs.le; omega, hs.big, hs.stopped,
          by simp [hst]⟩
      · have hst' : s.stop = false := by simpa using hst
        rw [hst']
        exact lanczosBody_inv hdot hA eps tol orth hj (hs.ne_zero hz hthr hst') hs hst')
  refine ⟨⟨s.size, s.alpha, s.beta⟩, ?_, ?_⟩
  · unfold lanczos
    simp only
    rw [h1]; rfl
  · refine ⟨h2.asize, h2.bsize, h2.alpha, h2.beta, h2.le, ?_, h2.big, ?_⟩
    · intro hm
      by_cases hst : s.stop = true
      · exact (h2.stopped hst).1
      · have := (h2.running (by simpa using hst)).1
        show 0 < s.size
        omega
    · intro hm
      by_cases hst : s.stop = true
      · exact (h2.stopped hst).2
      · have := (h2.running (by simpa using hst)).1
        simp only at hm
        omega

end Imate.Lanczos
