import Verif.Spec.Reorthogonalization
import Verif.Props.Lanczos

/-!
# C112: which vectors a new Lanczos vector is orthogonalized against
-/

namespace Imate.Props

open Imate.Lanczos Imate.Spec Matrix

variable {n : ℕ}

/-- `v` without its components along `W t, …, W (t - N + 1)`. -/
noncomputable def projected (W : ℕ → Fin n → ℝ) (t N : ℕ) (v : Fin n → ℝ) : Fin n → ℝ :=
  v - ∑ s ∈ Finset.range N, (W (t - s) ⬝ᵥ v) • W (t - s)

theorem projected_orthogonal {W : ℕ → Fin n → ℝ} {I : Set ℕ} (hW : OrthonormalOn W I) {t N : ℕ} (hI : ∀ s < N, t - s ∈ I) (hN : N ≤ t + 1)
    (v : Fin n → ℝ) {i : ℕ} (hi : i ≤ t) (hiN : t < i + N) : W i ⬝ᵥ projected W t N v = 0 := by
  unfold projected
  have hi' : i = t - (t - i) := by omega
  rw [dotProduct_sub, dotProduct_sum, Finset.sum_eq_single (t - i)]
  · rw [← hi', dotProduct_smul, hW i (by rw [hi']; exact hI _ (by omega)) i (by rw [hi']; exact hI _ (by omega)), if_pos rfl, smul_eq_mul,
      mul_one, sub_self]
  · intro s hs hne
    have hs' := Finset.mem_range.1 hs
    rw [dotProduct_smul, hW i (by rw [hi']; exact hI _ (by omega)) _ (hI s hs'), if_neg (by omega), smul_zero]
  · intro h
    exact absurd (Finset.mem_range.2 (by omega)) h

theorem projected_other {W : ℕ → Fin n → ℝ} {I : Set ℕ} (hW : OrthonormalOn W I) {t N : ℕ} (hI : ∀ s < N, t - s ∈ I)
    (v : Fin n → ℝ) {i : ℕ} (hi : i ∈ I) (hiN : ∀ s < N, t - s ≠ i) : W i ⬝ᵥ projected W t N v = W i ⬝ᵥ v := by
  unfold projected
  rw [dotProduct_sub, dotProduct_sum, Finset.sum_eq_zero, sub_zero]
  intro s hs
  have hs' := Finset.mem_range.1 hs
  rw [dotProduct_smul, hW i hi _ (hI s hs'), if_neg (fun h => hiN s hs' h.symm), smul_zero]

/-- One step of the process. -/
theorem projected_step {eps : ℝ} (heps : eps * Real.sqrt n ≤ 1) {W : ℕ → Fin n → ℝ} {I : Set ℕ} (hW : OrthonormalOn W I) {t N : ℕ}
    (hI : ∀ s < N + 1, t - s ∈ I) (hN : N ≤ t) {v : Fin n → ℝ} (hv : NotParallel eps W I v) :
    gsStep Real.sqrt eps (W (t - N)) (projected W t N v) = projected W t (N + 1) v := by
  have h1 : W (t - N) ⬝ᵥ W (t - N) = 1 := by rw [hW _ (hI N (by omega)) _ (hI N (by omega)), if_pos rfl]
  have hdot : W (t - N) ⬝ᵥ projected W t N v = W (t - N) ⬝ᵥ v :=
    projected_other hW (fun s hs => hI s (by omega)) v (hI N (by omega)) fun s hs => by omega
  rw [gsStep_eq eps, hdot, h1, div_one]
  · unfold projected
    rw [Finset.sum_range_succ, sub_add_eq_sub_sub]
  · unfold Lanczos.norm
    rw [h1, Real.sqrt_one]
    exact heps
  · rw [hdot, h1, div_one]
    exact hv _ (hI N (by omega))

theorem steps_nat {buf k : ℕ} (hb : 2 ≤ buf) (hk : k ≤ buf) : gsNumSteps n buf (k : ℤ) = min k n := by
  obtain ⟨h0, -, h2⟩ := gram_schmidt_window_length n buf (k : ℤ) hb
  rcases Nat.eq_zero_or_pos k with rfl | hp
  · rw [h0 rfl]; simp
  · exact h2 k hp hk rfl

/-- The process with the vector outside the buffer. -/
theorem outside_projected {eps : ℝ} (heps : eps * Real.sqrt n ≤ 1) {W : ℕ → Fin n → ℝ} {I : Set ℕ} (hW : OrthonormalOn W I) {t k buf : ℕ}
    (hb : 2 ≤ buf) (hk : k ≤ buf) (hkt : k ≤ t + 1) (hI : ∀ s < k, t - s ∈ I) {V : Rows ℝ n}
    (hV : ∀ i ∈ I, V[i % buf]? = some (some (W i))) {v : Fin n → ℝ} (hv : NotParallel eps W I v) :
    gramSchmidt Real.sqrt eps V buf (t % buf) (k : ℤ) v = .ok (projected W t (min k n) v) := by
  unfold gramSchmidt
  rw [steps_nat hb hk]
  obtain ⟨s', e1, e2⟩ := forRange_inv (body := fun step v => do
    let Vi ← load V (gsIndex buf (t % buf) step)
    .ok (gsStep Real.sqrt eps Vi v)) (fun N u => u = projected W t N v)
    (Nat.zero_le (min k n)) v (by simp [projected]) (by
      intro i _ hi u hu
      have hi' : i < k := by omega
      refine ⟨_, ?_, rfl⟩
      rw [gsIndex_eq (by omega) (by omega), load_ok (hV _ (hI i hi')), Except.ok_bind', hu,
        projected_step heps hW (fun s hs => hI s (by omega)) (by omega) hv])
  rw [e1, e2]

/-- The process with the vector in the next row of the buffer. -/
theorem inside_projected {eps : ℝ} (heps : eps * Real.sqrt n ≤ 1) {W : ℕ → Fin n → ℝ} {I : Set ℕ} (hW : OrthonormalOn W I) {t k buf : ℕ}
    (hb : 2 ≤ buf) (hk : k < buf) (hkt : k ≤ t + 1) (hI : ∀ s < k, t - s ∈ I) {V : Rows ℝ n}
    (hV : ∀ i ∈ I, V[i % buf]? = some (some (W i))) {v : Fin n → ℝ} (hs : V[(t + 1) % buf]? = some (some v))
    (hv : NotParallel eps W I v) :
    ∃ V', gramSchmidtIn Real.sqrt eps V buf (t % buf) (k : ℤ) ((t + 1) % buf) = .ok V' ∧
      V'[(t + 1) % buf]? = some (some (projected W t (min k n) v)) := by
  unfold gramSchmidtIn
  rw [steps_nat hb hk.le]
  obtain ⟨s', e1, e2, -⟩ := forRange_inv (body := fun step V => do
    let Vi ← load V (gsIndex buf (t % buf) step)
    let v ← load V ((t + 1) % buf)
    Lanczos.store V ((t + 1) % buf) (some (gsStep Real.sqrt eps Vi v)))
    (fun N (R : Rows ℝ n) => R[(t + 1) % buf]? = some (some (projected W t N v)) ∧ ∀ s < k, R[(t - s) % buf]? = some (some (W (t - s))))
    (Nat.zero_le (min k n)) V ⟨by simpa [projected] using hs, fun s hs => hV _ (hI s hs)⟩ (by
      intro i _ hi R hR
      have hi' : i < k := by omega
      have hlt : (t + 1) % buf < R.size := by
        by_contra hc
        have := hR.1
        rw [Array.getElem?_eq_none (by omega)] at this
        simp at this
      refine ⟨R.set ((t + 1) % buf) (some (projected W t (i + 1) v)) hlt, ?_, ?_, fun s hs => ?_⟩
      · rw [gsIndex_eq (by omega) (by omega), load_ok (hR.2 i hi'), Except.ok_bind', load_ok hR.1, Except.ok_bind',
          projected_step heps hW (fun s hs => hI s (by omega)) (by omega) hv, Lanczos.store, wr_ok hlt]
      · simp
      · rw [Array.getElem?_set, if_neg, hR.2 s hs]
        intro h
        have := mod_inj (i := t - s) (j := t + 1) (buf := buf) (by omega) (by omega) h.symm
        omega)
  exact ⟨s', e1, e2⟩

/-- The vectors with indices up to `t` among the last `b`. -/
def lastVectors (t b : ℕ) : Set ℕ := {i | i ≤ t ∧ t < i + b}

/-- **C112, Lanczos.**  In step `j` the residual is made orthogonal to the documented previous vectors (up to `n` of them, there cannot be
more), when those in the buffer are orthonormal. -/
theorem lanczos_window {eps : ℝ} (heps : eps * Real.sqrt n ≤ 1) {m j : ℕ} (hm : 2 ≤ m) (hj : j < m) {q : ℤ} (hq : q ≠ 0)
    {W : ℕ → Fin n → ℝ} (hW : OrthonormalOn W (lastVectors j (lanczosBufferSize m q))) {V : Rows ℝ n}
    (hV : ∀ i ∈ lastVectors j (lanczosBufferSize m q), V[i % lanczosBufferSize m q]? = some (some (W i))) {r : Fin n → ℝ}
    (hr : NotParallel eps W (lastVectors j (lanczosBufferSize m q)) r) :
    ∃ r', lanczosReorthogonalize Real.sqrt eps q (lanczosBufferSize m q) V j r = .ok r' ∧
      ∀ i ≤ j, j < i + min (documentedWindow m q (j + 1)) n → W i ⬝ᵥ r' = 0 := by
  have hb : 2 ≤ lanczosBufferSize m q := by
    unfold lanczosBufferSize
    split
    · omega
    · split <;> omega
  have hd : documentedWindow m q (j + 1) ≤ if j < lanczosBufferSize m q then j + 1 else lanczosBufferSize m q := by
    unfold documentedWindow lanczosBufferSize
    split_ifs <;> omega
  set buf := lanczosBufferSize m q
  set k := if j < buf then j + 1 else buf with hkdef
  have hk1 : k ≤ buf := by rw [hkdef]; split <;> omega
  have hk2 : k ≤ j + 1 := by rw [hkdef]; split <;> omega
  have hI : ∀ s < k, j - s ∈ lastVectors j buf := fun s hs => ⟨by omega, by omega⟩
  refine ⟨projected W j (min k n) r, ?_, fun i hi hin => ?_⟩
  · unfold lanczosReorthogonalize
    rw [if_pos hq]
    exact outside_projected heps hW hb hk1 hk2 hI hV hr
  · exact projected_orthogonal hW (fun s hs => hI s (by omega)) (by omega) r hi (by omega)

/-- **C112, the left vectors of the Golub-Kahn iteration.**  In step `j ≥ 1` the new left vector is made orthogonal to the documented previous
ones. -/
theorem golub_kahn_left_window {eps : ℝ} (heps : eps * Real.sqrt n ≤ 1) {m t : ℕ} (hm : t + 1 < m) {q : ℤ} (hq : q ≠ 0)
    {W : ℕ → Fin n → ℝ} (hW : OrthonormalOn W (lastVectors t (golubKahnBufferSize m q - 1))) {U : Rows ℝ n}
    (hU : ∀ i ∈ lastVectors t (golubKahnBufferSize m q - 1), U[i % golubKahnBufferSize m q]? = some (some (W i))) {u : Fin n → ℝ}
    (hu : U[(t + 1) % golubKahnBufferSize m q]? = some (some u))
    (hp : NotParallel eps W (lastVectors t (golubKahnBufferSize m q - 1)) u) :
    ∃ U' u', gkReorthogonalizeU Real.sqrt eps q (golubKahnBufferSize m q) U (t + 1) = .ok U' ∧
      U'[(t + 1) % golubKahnBufferSize m q]? = some (some u') ∧
      ∀ i ≤ t, t < i + min (documentedWindow m q (t + 1)) n → W i ⬝ᵥ u' = 0 := by
  have hb : 2 ≤ golubKahnBufferSize m q := golubKahnBufferSize_ge (Or.inl (by omega))
  have hd : documentedWindow m q (t + 1) ≤ gkNumOrtho (golubKahnBufferSize m q) (t + 1) := by
    unfold documentedWindow golubKahnBufferSize gkNumOrtho
    split_ifs <;> omega
  set buf := golubKahnBufferSize m q
  have hk1 : gkNumOrtho buf (t + 1) < buf := by unfold gkNumOrtho; split <;> omega
  have hk2 : gkNumOrtho buf (t + 1) ≤ t + 1 := by unfold gkNumOrtho; split <;> omega
  have hI : ∀ s < gkNumOrtho buf (t + 1), t - s ∈ lastVectors t (buf - 1) := fun s hs => ⟨by omega, by omega⟩
  obtain ⟨U', h1, h2⟩ := inside_projected heps hW hb hk1 hk2 hI hU hu hp
  refine ⟨U', _, ?_, h2, fun i hi hin => projected_orthogonal hW (fun s hs => hI s (by omega)) (by omega) u hi (by omega)⟩
  unfold gkReorthogonalizeU
  rw [if_pos ⟨hq, by omega⟩]
  exact h1

/-- **C112, the right vectors of the Golub-Kahn iteration.**  In step `j` the new right vector is made orthogonal to the documented previous
ones except the first one.  Missing: the first vector, see `golub_kahn_first_vector_kept`. -/
theorem golub_kahn_right_window_partial {eps : ℝ} (heps : eps * Real.sqrt n ≤ 1) {m j : ℕ} (hm : 2 ≤ m) (hj : j < m) {q : ℤ} (hq : q ≠ 0)
    {W : ℕ → Fin n → ℝ} (hW : OrthonormalOn W (lastVectors j (golubKahnBufferSize m q - 1))) {V : Rows ℝ n}
    (hV : ∀ i ∈ lastVectors j (golubKahnBufferSize m q - 1), V[i % golubKahnBufferSize m q]? = some (some (W i))) {v : Fin n → ℝ}
    (hv : V[(j + 1) % golubKahnBufferSize m q]? = some (some v))
    (hp : NotParallel eps W (lastVectors j (golubKahnBufferSize m q - 1)) v) :
    ∃ V' v', gkReorthogonalizeV Real.sqrt eps q (golubKahnBufferSize m q) V j = .ok V' ∧
      V'[(j + 1) % golubKahnBufferSize m q]? = some (some v') ∧
      ∀ i, 1 ≤ i → i ≤ j → j < i + min (documentedWindow m q (j + 1)) n → W i ⬝ᵥ v' = 0 := by
  have hb : 2 ≤ golubKahnBufferSize m q := golubKahnBufferSize_ge (Or.inl hm)
  have hd : ∀ i, 1 ≤ i → i ≤ j → j < i + documentedWindow m q (j + 1) → j < i + gkNumOrtho (golubKahnBufferSize m q) j := by
    unfold documentedWindow golubKahnBufferSize gkNumOrtho
    intro i hi
    split_ifs <;> omega
  set buf := golubKahnBufferSize m q
  have hk1 : gkNumOrtho buf j < buf := by unfold gkNumOrtho; split <;> omega
  have hk2 : gkNumOrtho buf j ≤ j + 1 := by unfold gkNumOrtho; split <;> omega
  have hI : ∀ s < gkNumOrtho buf j, j - s ∈ lastVectors j (buf - 1) := fun s hs => ⟨by omega, by omega⟩
  obtain ⟨V', h1, h2⟩ := inside_projected heps hW hb hk1 hk2 hI hV hv hp
  refine ⟨V', _, ?_, h2, fun i hi hij hin => projected_orthogonal hW (fun s hs => hI s (by omega)) (by omega) v hij ?_⟩
  · unfold gkReorthogonalizeV
    rw [if_pos hq]
    exact h1
  · have := hd i hi hij (by omega)
    omega

/-- **C112, refuted for the first right vector.**  As long as the first right vector is in the buffer (always, with full reorthogonalization,
until it is overwritten in the last step) the component of a new right vector along it is left as it is, although all previous vectors are asked
for. -/
theorem golub_kahn_first_vector_kept {eps : ℝ} (heps : eps * Real.sqrt n ≤ 1) {m j : ℕ} {q : ℤ} (hj : j + 1 < golubKahnBufferSize m q)
    {W : ℕ → Fin n → ℝ} (hW : OrthonormalOn W (lastVectors j (j + 1))) {V : Rows ℝ n}
    (hV : ∀ i ∈ lastVectors j (j + 1), V[i % golubKahnBufferSize m q]? = some (some (W i))) {v : Fin n → ℝ}
    (hv : V[(j + 1) % golubKahnBufferSize m q]? = some (some v)) (hp : NotParallel eps W (lastVectors j (j + 1)) v) :
    ∃ V' v', gkReorthogonalizeV Real.sqrt eps q (golubKahnBufferSize m q) V j = .ok V' ∧
      V'[(j + 1) % golubKahnBufferSize m q]? = some (some v') ∧ W 0 ⬝ᵥ v' = W 0 ⬝ᵥ v := by
  set buf := golubKahnBufferSize m q
  by_cases hq : q = 0
  · refine ⟨V, v, ?_, hv, rfl⟩
    unfold gkReorthogonalizeV
    rw [if_neg (by simpa using hq)]
  have hk : gkNumOrtho buf j = j := if_pos (by omega)
  have hI : ∀ s < j, j - s ∈ lastVectors j (j + 1) := fun s hs => ⟨by omega, by omega⟩
  obtain ⟨V', h1, h2⟩ := inside_projected heps hW (by omega) (by omega : j < buf) (by omega) hI hV hv hp
  refine ⟨V', _, ?_, h2, projected_other hW (fun s hs => hI s (by omega)) v ⟨by omega, by omega⟩ fun s hs => by omega⟩
  unfold gkReorthogonalizeV
  rw [if_pos hq, hk]
  exact h1

theorem dot_three (a b c x y z : ℝ) : ![a, b, c] ⬝ᵥ ![x, y, z] = a * x + b * y + c * z := by
  simp [dotProduct, Fin.sum_univ_three]

/-- A buffer for three steps with full reorthogonalization (`q = -1`) after two steps: the new vector has the component `3` along the first
vector and `4` along the second. -/
theorem golub_kahn_right_window_wrong :
    ∃ (V : Rows ℝ 3) (v : Fin 3 → ℝ), V[0]? = some (some ![1, 0, 0]) ∧ V[1]? = some (some ![0, 1, 0]) ∧ V[2]? = some (some v) ∧
      documentedWindow 3 (-1) 2 = 2 ∧ golubKahnBufferSize 3 (-1) = 3 ∧
      ∃ V' v', gkReorthogonalizeV Real.sqrt 0 (-1) 3 V 1 = .ok V' ∧ V'[2]? = some (some v') ∧
        ![0, 1, 0] ⬝ᵥ v' = 0 ∧ ![1, 0, 0] ⬝ᵥ v' = 3 := by
  set W : ℕ → Fin 3 → ℝ := fun i => if i = 0 then ![1, 0, 0] else ![0, 1, 0] with hWdef
  have hcase : ∀ i ∈ lastVectors 1 2, i = 0 ∨ i = 1 := fun i hi => by
    have := hi.1
    omega
  have hW : OrthonormalOn W (lastVectors 1 2) := fun i hi k hk => by
    rcases hcase i hi with rfl | rfl <;> rcases hcase k hk with rfl | rfl <;> simp [hWdef, dotProduct, Fin.sum_univ_three]
  have hp : NotParallel 0 W (lastVectors 1 2) ![3, 4, 5] := fun i hi => by
    rcases hcase i hi with rfl | rfl <;> norm_num [hWdef, dot_three]
  have hV : ∀ i ∈ lastVectors 1 2, (#[some ![1, 0, 0], some ![0, 1, 0], some ![3, 4, 5]] : Rows ℝ 3)[i % 3]? = some (some (W i)) := fun i hi => by
    rcases hcase i hi with rfl | rfl <;> rfl
  refine ⟨#[some ![1, 0, 0], some ![0, 1, 0], some ![3, 4, 5]], ![3, 4, 5], rfl, rfl, rfl, rfl, rfl, ?_⟩
  have hbuf : golubKahnBufferSize 3 (-1) = 3 := by decide
  have k1 := golub_kahn_first_vector_kept (n := 3) (eps := 0) (m := 3) (q := -1) (j := 1) (W := W)
    (V := #[some ![1, 0, 0], some ![0, 1, 0], some ![3, 4, 5]]) (v := ![3, 4, 5]) (by simp) (by decide) hW
  have k2 := golub_kahn_right_window_partial (n := 3) (eps := 0) (m := 3) (q := -1) (j := 1) (W := W)
    (V := #[some ![1, 0, 0], some ![0, 1, 0], some ![3, 4, 5]]) (v := ![3, 4, 5]) (by simp) (by norm_num) (by norm_num) (by norm_num)
  rw [hbuf] at k1 k2
  obtain ⟨V', v', h1, h2, h3⟩ := k1 hV rfl hp
  obtain ⟨V'', v'', h4, h5, h6⟩ := k2 hW hV rfl hp
  have e1 : V' = V'' := Except.ok.inj (h1.symm.trans h4)
  subst e1
  have e2 : v' = v'' := Option.some.inj (Option.some.inj (h2.symm.trans h5))
  subst e2
  refine ⟨V', v', h1, h2, ?_, ?_⟩
  · exact h6 1 le_rfl le_rfl (by decide)
  · have : W 0 ⬝ᵥ ![3, 4, 5] = 3 := by simp [hWdef, dotProduct, Fin.sum_univ_three]
    rw [← this, ← h3]
    rfl

/-- The hypotheses of `lanczos_window`: three steps with a window of two, which has wrapped around. -/
example : ∃ r', lanczosReorthogonalize Real.sqrt 0 2 2 (#[some ![0, 0, 1], some ![0, 1, 0]] : Rows ℝ 3) 2 ![3, 4, 5] = .ok r' ∧
    ![0, 0, 1] ⬝ᵥ r' = 0 ∧ ![0, 1, 0] ⬝ᵥ r' = 0 := by
  set W : ℕ → Fin 3 → ℝ := fun i => if i = 2 then ![0, 0, 1] else ![0, 1, 0] with hWdef
  have hcase : ∀ i ∈ lastVectors 2 2, i = 2 ∨ i = 1 := fun i hi => by
    have := hi.1
    have := hi.2
    omega
  obtain ⟨r', h1, h2⟩ := lanczos_window (n := 3) (eps := 0) (m := 3) (q := 2) (j := 2) (W := W) (by simp) (by norm_num) (by norm_num)
    (by norm_num) (fun i hi k hk => by
      rcases hcase i hi with rfl | rfl <;> rcases hcase k hk with rfl | rfl <;> simp [hWdef, dotProduct, Fin.sum_univ_three])
    (V := #[some ![0, 0, 1], some ![0, 1, 0]]) (fun i hi => by rcases hcase i hi with rfl | rfl <;> rfl) (r := ![3, 4, 5])
    (fun i hi => by rcases hcase i hi with rfl | rfl <;> norm_num [hWdef, dot_three])
  exact ⟨r', h1, h2 2 (by norm_num) (by decide), h2 1 (by norm_num) (by decide)⟩

/-- The hypotheses of `golub_kahn_left_window`, with the same vectors. -/
example : ∃ U' u', gkReorthogonalizeU Real.sqrt 0 (-1) 3 (#[some ![1, 0, 0], some ![0, 1, 0], some ![3, 4, 5]] : Rows ℝ 3) 2 = .ok U' ∧
    U'[2]? = some (some u') ∧ ![0, 1, 0] ⬝ᵥ u' = 0 ∧ ![1, 0, 0] ⬝ᵥ u' = 0 := by
  set W : ℕ → Fin 3 → ℝ := fun i => if i = 0 then ![1, 0, 0] else ![0, 1, 0] with hWdef
  have hcase : ∀ i ∈ lastVectors 1 2, i = 0 ∨ i = 1 := fun i hi => by
    have := hi.1
    omega
  obtain ⟨U', u', h1, h2, h3⟩ := golub_kahn_left_window (n := 3) (eps := 0) (m := 3) (q := -1) (t := 1) (W := W) (by simp) (by norm_num)
    (by norm_num) (fun i hi k hk => by
      rcases hcase i hi with rfl | rfl <;> rcases hcase k hk with rfl | rfl <;> simp [hWdef, dotProduct, Fin.sum_univ_three])
    (U := #[some ![1, 0, 0], some ![0, 1, 0], some ![3, 4, 5]]) (fun i hi => by rcases hcase i hi with rfl | rfl <;> rfl) (u := ![3, 4, 5])
    rfl (fun i hi => by rcases hcase i hi with rfl | rfl <;> norm_num [hWdef, dot_three])
  exact ⟨U', u', h1, h2, h3 1 le_rfl (by decide), h3 0 (by norm_num) (by decide)⟩

end Imate.Props
