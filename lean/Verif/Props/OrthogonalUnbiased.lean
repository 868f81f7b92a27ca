import Verif.Lemmas.ColumnEquivariance
import Verif.Props.Hutchinson

/-!
# C113: the Hutchinson estimate is unbiased with orthogonalized vectors
-/

namespace Imate.Props

open Imate.Random Imate.Hutchinson Imate.Spec Imate.Columns Imate.Lanczos Matrix

variable {n s L : ℕ} {solve : Solver ℝ} {a : Assume} {eps : ℝ}

/-- The random signs of a call: `s` vectors, and a supply of `L` vectors to replace some of them. -/
abbrev SignDraws (n s L : ℕ) := (Fin s → Fin n → Bool) × (Fin L → Fin n → Bool)

/-- The orthonormal vectors the method makes of the drawn ones. -/
noncomputable def orthonormalColumns (eps : ℝ) (hL : 0 < L) (d : SignDraws n s L) : Except Fault (Array (Fin n → ℝ)) :=
  columnsFrom eps (fun k => signVector (d.2 ⟨k % L, Nat.mod_lt k hL⟩)) (Array.ofFn fun j => signVector (d.1 j)) s true

/-! ## Exchanging coordinates and changing signs -/

/-- The map that exchanges coordinates and changes signs. -/
noncomputable def signedMap (β : Fin n → Bool) (π : Equiv.Perm (Fin n)) : (Fin n → ℝ) →ₗ[ℝ] (Fin n → ℝ) where
  toFun v := fun b => (if β b then -1 else 1) * v (π b)
  map_add' u v := by funext b; simp only [Pi.add_apply]; ring
  map_smul' c v := by funext b; simp only [Pi.smul_apply, smul_eq_mul, RingHom.id_apply]; ring

theorem signedMap_isometry (β : Fin n → Bool) (π : Equiv.Perm (Fin n)) : Columns.Isometry (signedMap β π) := ⟨fun u v => by
  show ∑ b, ((if β b then -1 else 1) * u (π b)) * ((if β b then -1 else 1) * v (π b)) = ∑ b, u b * v b
  rw [← Equiv.sum_comp π fun b => u b * v b]
  refine Finset.sum_congr rfl fun b _ => ?_
  split <;> ring⟩

/-- The same on signs. -/
def signedBits (β : Fin n → Bool) (π : Equiv.Perm (Fin n)) (w : Fin n → Bool) : Fin n → Bool := fun b => xor (β b) (w (π b))

theorem signVector_signedBits (β : Fin n → Bool) (π : Equiv.Perm (Fin n)) (w : Fin n → Bool) :
    signVector (signedBits β π w) = signedMap β π (signVector w) := by
  funext b
  show (if xor (β b) (w (π b)) = true then (1 : ℝ) else -1) = (if β b = true then -1 else 1) * (if w (π b) = true then 1 else -1)
  cases β b <;> cases w (π b) <;> simp

theorem signedBits_injective (β : Fin n → Bool) (π : Equiv.Perm (Fin n)) : Function.Injective (signedBits β π) := fun w w' h => by
  funext b
  have := congrFun h (π.symm b)
  unfold signedBits at this
  simpa using this

/-- The same on all draws. -/
def signedDraws (β : Fin n → Bool) (π : Equiv.Perm (Fin n)) (d : SignDraws n s L) : SignDraws n s L :=
  (fun i => signedBits β π (d.1 i), fun i => signedBits β π (d.2 i))

theorem signedDraws_bijective (β : Fin n → Bool) (π : Equiv.Perm (Fin n)) : Function.Bijective (signedDraws (s := s) (L := L) β π) := by
  rw [← Finite.injective_iff_bijective]
  intro d d' h
  refine Prod.ext ?_ ?_
  · funext i
    exact signedBits_injective β π (congrFun (congrArg Prod.fst h) i)
  · funext i
    exact signedBits_injective β π (congrFun (congrArg Prod.snd h) i)

theorem orthonormalColumns_signed (hL : 0 < L) (β : Fin n → Bool) (π : Equiv.Perm (Fin n)) (d : SignDraws n s L) :
    orthonormalColumns eps hL (signedDraws β π d) = (orthonormalColumns eps hL d).map (Array.map (signedMap β π)) := by
  unfold orthonormalColumns
  rw [← columnsFrom_map (signedMap_isometry β π)]
  congr 1
  · funext k
    exact signVector_signedBits β π _
  · rw [Array.map_ofFn]
    congr 1
    funext j
    exact signVector_signedBits β π _

/-- A function of vector `i`, and zero for draws that end the process. -/
noncomputable def valueOf (eps : ℝ) (hL : 0 < L) (i : ℕ) (F : (Fin n → ℝ) → ℝ) (d : SignDraws n s L) : ℝ :=
  match orthonormalColumns eps hL d with
  | .ok V => F (V.getD i 0)
  | .error _ => 0

theorem sum_signed (hL : 0 < L) (i : ℕ) (F : (Fin n → ℝ) → ℝ) (β : Fin n → Bool) (π : Equiv.Perm (Fin n)) :
    ∑ d : SignDraws n s L, valueOf eps hL i F d = ∑ d : SignDraws n s L, valueOf eps hL i (fun v => F (signedMap β π v)) d := by
  rw [← (signedDraws_bijective β π).sum_comp]
  refine Finset.sum_congr rfl fun d _ => ?_
  unfold valueOf
  rw [orthonormalColumns_signed]
  cases orthonormalColumns eps hL d with
  | error e => rfl
  | ok V =>
    show F ((V.map (signedMap β π)).getD i 0) = F (signedMap β π (V.getD i 0))
    congr 1
    unfold Array.getD
    by_cases h : i < V.size
    · rw [dif_pos h, dif_pos (by simpa using h)]
      simp
    · rw [dif_neg h, dif_neg (by simpa using h), map_zero]

/-- A product of different coordinates averages to zero. -/
theorem sum_different (hL : 0 < L) (i : ℕ) {x y : Fin n} (hxy : x ≠ y) :
    ∑ d : SignDraws n s L, valueOf eps hL i (fun v => v x * v y) d = 0 := by
  have h := sum_signed (s := s) (eps := eps) hL i (fun v => v x * v y) (fun b => decide (b = x)) 1
  have h2 : ∀ d : SignDraws n s L, valueOf eps hL i (fun v => signedMap (fun b => decide (b = x)) 1 v x * signedMap (fun b => decide (b = x)) 1 v y) d =
      -valueOf eps hL i (fun v => v x * v y) d := fun d => by
    unfold valueOf
    cases orthonormalColumns eps hL d with
    | error e => simp
    | ok V =>
      show ((if decide (x = x) = true then -1 else 1) * V.getD i 0 x) * ((if decide (y = x) = true then -1 else 1) * V.getD i 0 y) =
        -(V.getD i 0 x * V.getD i 0 y)
      rw [if_pos (by simp), if_neg (by simpa using fun h => hxy h.symm)]
      ring
  rw [Finset.sum_congr rfl fun d _ => h2 d, Finset.sum_neg_distrib] at h
  linarith

/-- The squares of all coordinates average to the same. -/
theorem sum_squares_equal (hL : 0 < L) (i : ℕ) (x y : Fin n) :
    ∑ d : SignDraws n s L, valueOf eps hL i (fun v => v x * v x) d = ∑ d : SignDraws n s L, valueOf eps hL i (fun v => v y * v y) d := by
  rw [sum_signed (s := s) (eps := eps) hL i (fun v => v x * v x) (fun _ => false) (Equiv.swap x y)]
  refine Finset.sum_congr rfl fun d _ => ?_
  unfold valueOf
  cases orthonormalColumns eps hL d with
  | error e => rfl
  | ok V =>
    show ((if false = true then -1 else 1) * V.getD i 0 (Equiv.swap x y x)) * ((if false = true then -1 else 1) * V.getD i 0 (Equiv.swap x y x)) = _
    rw [Equiv.swap_apply_left]
    simp

/-- The draws for which the method does not end the process. -/
noncomputable def successful (eps : ℝ) (hL : 0 < L) : Finset (SignDraws n s L) := by
  classical exact Finset.univ.filter fun d => ∃ V, orthonormalColumns eps hL d = .ok V

theorem mem_successful (hL : 0 < L) (d : SignDraws n s L) : d ∈ successful eps hL ↔ ∃ V, orthonormalColumns eps hL d = .ok V := by
  classical
  unfold successful
  rw [Finset.mem_filter]
  exact ⟨fun h => h.2, fun h => ⟨Finset.mem_univ _, h⟩⟩

theorem columns_orthonormal (hn : 1 ≤ n) (he : 0 < eps) (he1 : eps ≤ 1) (hL : 0 < L) {d : SignDraws n s L} {V : Array (Fin n → ℝ)}
    (h : orthonormalColumns eps hL d = .ok V) : V.size = s ∧ PairwiseOrthogonal V ∧ Units V := by
  unfold orthonormalColumns columnsFrom at h
  rw [if_pos rfl] at h
  have hsize : (Array.ofFn fun j => signVector (d.1 j)).size = s := by simp
  rcases orthogonalize_sound hn he he1 (fun k => signVector (d.2 ⟨k % L, Nat.mod_lt k hL⟩)) (fun k => signVector_rademacher _)
    (Array.ofFn fun j => signVector (d.1 j)) (fun i hi => by
      rw [Array.getElem_ofFn]
      exact signVector_rademacher _) with h1 | ⟨W, h1, h2, h3, h4, -⟩
  · rw [hsize] at h1
    rw [h1] at h
    cases h
  · rw [hsize] at h1 h2
    rw [h1, Except.ok_bind'] at h
    obtain ⟨V', h5, h6, h7⟩ := normalize_loop W h4
    rw [h2] at h5 h6
    have h8 : Except.ok V' = Except.ok V := h5.symm.trans h
    cases h8
    refine ⟨h6, fun i j hi hj hij => ?_, fun i hi => ?_⟩
    · rw [← row_eq hi, ← row_eq hj, h7 i (by omega), h7 j (by omega), smul_dotProduct,
        dotProduct_smul, h3 i j (by omega) (by omega) hij, smul_zero, smul_zero]
    · rw [← row_eq hi, h7 i (by omega), smul_dotProduct, dotProduct_smul, smul_eq_mul, smul_eq_mul, ← norm_sq]
      have hne : Lanczos.norm Real.sqrt W[i] ≠ 0 := by
        intro hz
        have := norm_sq W[i]
        rw [hz] at this
        exact h4 i (by omega) (dotProduct_self_eq_zero.1 (by linarith [this.symm]))
      field_simp

/-- The supply is large enough for every call: at most 20 vectors are drawn for each of the `s` vectors. -/
theorem orthonormalColumns_supply (hL : 0 < L) (h : 20 * s ≤ L) (d : SignDraws n s L) (regen : ℕ → Fin n → ℝ)
    (hr : ∀ k (hk : k < L), regen k = signVector (d.2 ⟨k, hk⟩)) :
    columnsFrom eps regen (Array.ofFn fun j => signVector (d.1 j)) s true = orthonormalColumns eps hL d := by
  refine columnsFrom_supply eps (fun k hk => ?_) _ true
  have hk' : k < L := by omega
  rw [hr k hk', show (⟨k % L, Nat.mod_lt k hL⟩ : Fin L) = ⟨k, hk'⟩ from Fin.ext (Nat.mod_eq_of_lt hk')]

/-- What `generate_random_column_vectors` returns (one thread), with any clock and seed, is this function of the signs it draws. -/
theorem generated_of_draws (hL : 0 < L) (h : 20 * s ≤ L) (clock : ℕ → ℕ → BitVec 64) (seed : BitVec 64) :
    ∃ d : SignDraws n s L,
      (∀ j : Fin s, signVector (d.1 j) = drawnVector (Xoshiro.construct (clock 0 0) seed).jump n j) ∧
      (∀ k : Fin L, signVector (d.2 k) = regenerated (clock (k + 1)) seed n) ∧
      generateColumnVectors Real.sqrt eps clock seed n s true = orthonormalColumns eps hL d := by
  have hsign : ∀ v : Fin n → ℝ, Rademacher v → signVector (fun b => decide (v b = 1)) = v := fun v hv => by
    funext b
    unfold signVector
    rcases hv b with h | h <;> simp only [h] <;> norm_num
  have hx := initGenerators_one (clock 0) seed
  obtain ⟨a, h3, -, h4⟩ := pyGenerate_spec (clock 0) seed (n * s) hx
  have h1 : ∀ j : Fin s, signVector (fun b => decide (drawnVector (Xoshiro.construct (clock 0 0) seed).jump n j b = 1)) =
      drawnVector (Xoshiro.construct (clock 0 0) seed).jump n j := fun j => hsign _ (drawnVector_rademacher _ _ _)
  have h2 : ∀ k : Fin L, signVector (fun b => decide (regenerated (clock (k + 1)) seed n b = (1 : ℝ))) = regenerated (clock (k + 1)) seed n :=
    fun k => hsign _ (by
      rw [regenerated_eq (clock (k + 1)) seed n (initGenerators_one _ _)]
      exact drawnVector_rademacher _ _ _)
  refine ⟨(fun j b => decide (drawnVector (Xoshiro.construct (clock 0 0) seed).jump n j b = 1),
    fun k b => decide (regenerated (clock (k + 1)) seed n b = (1 : ℝ))), h1, h2, ?_⟩
  rw [generate_columnsFrom, h3, Except.ok_bind', initial_rows h4,
    ← orthonormalColumns_supply hL h _ (fun k => regenerated (clock (k + 1)) seed n) fun k hk => (h2 ⟨k, hk⟩).symm]
  congr 2
  funext j
  exact (h1 j).symm

/-- The quadratic form at vector `i` averages to the trace over `n`. -/
theorem sum_form (hn : 1 ≤ n) (he : 0 < eps) (he1 : eps ≤ 1) (hL : 0 < L) {i : ℕ} (hi : i < s) (G : Matrix (Fin n) (Fin n) ℝ) :
    ∑ d : SignDraws n s L, valueOf eps hL i (fun v => n * (v ⬝ᵥ (G *ᵥ v))) d = (successful (n := n) (s := s) eps hL).card * G.trace := by
  classical
  set M : Fin n → Fin n → ℝ := fun x y => ∑ d : SignDraws n s L, valueOf eps hL i (fun v => v x * v y) d with hM
  -- the diagonal
  have hdiag : ∀ x, (n : ℝ) * M x x = (successful (n := n) (s := s) eps hL).card := fun x => by
    have h1 : ∑ y, M y y = n * M x x := by
      rw [Finset.sum_congr rfl fun y _ => sum_squares_equal (s := s) (eps := eps) hL i y x, Finset.sum_const, Finset.card_univ, Fintype.card_fin,
        nsmul_eq_mul]
    rw [← h1, hM, Finset.sum_comm]
    unfold successful
    rw [Finset.card_filter, Nat.cast_sum]
    refine Finset.sum_congr rfl fun d _ => ?_
    unfold valueOf
    cases hd : orthonormalColumns eps hL d with
    | error e => simp
    | ok V =>
      rw [if_pos ⟨V, rfl⟩, Nat.cast_one]
      obtain ⟨h3, -, h4⟩ := columns_orthonormal hn he he1 hL hd
      have h5 := h4 i (by omega)
      show ∑ x, V.getD i 0 x * V.getD i 0 x = 1
      rw [show V.getD i 0 = V[i] by simp [Array.getD, show i < V.size by omega]]
      exact h5
  have h2 : ∀ d : SignDraws n s L, valueOf eps hL i (fun v => n * (v ⬝ᵥ (G *ᵥ v))) d =
      ∑ x, ∑ y, n * G x y * valueOf eps hL i (fun v => v x * v y) d := fun d => by
    unfold valueOf
    cases orthonormalColumns eps hL d with
    | error e => simp
    | ok V =>
      show (n : ℝ) * ∑ x, V.getD i 0 x * ∑ y, G x y * V.getD i 0 y = ∑ x, ∑ y, n * G x y * (V.getD i 0 x * V.getD i 0 y)
      rw [Finset.mul_sum]
      refine Finset.sum_congr rfl fun x _ => ?_
      rw [Finset.mul_sum, Finset.mul_sum]
      exact Finset.sum_congr rfl fun y _ => by ring
  rw [Finset.sum_congr rfl fun d _ => h2 d, Finset.sum_comm]
  unfold Matrix.trace
  rw [Finset.mul_sum]
  refine Finset.sum_congr rfl fun x _ => ?_
  rw [Finset.sum_comm, Finset.sum_eq_single x]
  · rw [← Finset.mul_sum, ← hdiag x, Matrix.diag_apply]
    ring
  · intro y _ hy
    rw [← Finset.mul_sum, sum_different hL i hy.symm, mul_zero]
  · intro h
    exact absurd (Finset.mem_univ x) h

/-- **C113.**  The Hutchinson method with orthogonalized vectors (`orthogonalize=True`, the default), under the conditions of C35.  Over all
draws of the `s` random sign vectors and of the vectors that replace dependent ones (`L` of them, which is enough when `20 s ≤ L`), as far as the method does not end the process, each
sample, and so the mean of the first `k`, averages to the documented trace.  Missing: the exponents and the case excluded in C35. -/
theorem hutchinson_orthogonal_unbiased_partial (hn : 1 ≤ n) (he : 0 < eps) (he1 : eps ≤ 1) (hL : 0 < L) (hs : SolverSpec solve)
    {A : Matrix (Fin n) (Fin n) ℝ} (hA : Admissible a A) {p : ℤ} (hp : -1 ≤ p) (hu : 1 ≤ p → IsUnit A.det) (gram : Bool)
    (B C : Option (Matrix (Fin n) (Fin n) ℝ)) (hBC : C.isSome → B.isSome) (hex : ¬ (gram = true ∧ p = -1 ∧ B.isSome)) :
    ∃ sample : SignDraws n s L → ℕ → ℝ,
      (∀ d V, orthonormalColumns eps hL d = .ok V → ∀ i (hi : i < V.size),
        sampleOf solve (square A) (B.map square) (C.map square) gram (.int p) a ⟨n, V[i]⟩ = .ok (sample d i)) ∧
      (∀ (d : SignDraws n s L) V, orthonormalColumns eps hL d = .ok V → V.size = s ∧ PairwiseOrthogonal V ∧ Units V) ∧
      (∀ i < s, ∑ d ∈ successful eps hL, sample d i = (successful (n := n) (s := s) eps hL).card * (documented gram A p B C).trace) ∧
      ∀ k, 0 < k → k ≤ s → ∑ d ∈ successful eps hL, (∑ i ∈ Finset.range k, sample d i) / k =
        (successful (n := n) (s := s) eps hL).card * (documented gram A p B C).trace := by
  classical
  obtain ⟨h1, h2⟩ := sample_form hs hA hp hu gram B C hBC hex
  set G := sampledMatrix gram A p B C
  have hsum : ∀ i < s, ∑ d ∈ successful eps hL, valueOf eps hL i (fun v => n * (v ⬝ᵥ (G *ᵥ v))) d =
      (successful (n := n) (s := s) eps hL).card * (documented gram A p B C).trace := fun i hi => by
    rw [← h1, ← sum_form hn he he1 hL hi G]
    unfold successful
    rw [Finset.sum_filter]
    refine Finset.sum_congr rfl fun d _ => ?_
    unfold valueOf
    cases orthonormalColumns eps hL d with
    | error e => simp
    | ok V => simp
  refine ⟨fun d i => valueOf eps hL i (fun v => n * (v ⬝ᵥ (G *ᵥ v))) d, fun d V hV i hi => ?_, fun d V hV => ?_, hsum, fun k hk hks => ?_⟩
  · rw [h2]
    show _ = Except.ok (valueOf eps hL i (fun v => n * (v ⬝ᵥ (G *ᵥ v))) d)
    unfold valueOf
    rw [hV]
    simp [Array.getD, hi]
  · exact columns_orthonormal hn he he1 hL hV
  · rw [← Finset.sum_div, Finset.sum_comm, Finset.sum_congr rfl fun i hi => hsum i (by have := Finset.mem_range.1 hi; omega), Finset.sum_const,
      Finset.card_range, nsmul_eq_mul]
    have : (k : ℝ) ≠ 0 := by exact_mod_cast hk.ne'
    field_simp

/-- The method returns for the vectors `(1, 1)` and `(1, -1)`, so the average is over some draws, and `A` may be any positive definite matrix. -/
example (hL : 0 < L) : (successful (n := 2) (s := 2) (L := L) (1/2) hL).Nonempty := by
  obtain ⟨d, hd⟩ : ∃ d : SignDraws 2 2 L, d.1 = ![fun _ => true, fun b => decide (b = 0)] := ⟨(_, fun _ _ => true), rfl⟩
  refine ⟨d, (mem_successful hL d).2 ?_⟩
  set V0 : Array (Fin 2 → ℝ) := Array.ofFn fun j => signVector (d.1 j) with hV0
  have hsize : V0.size = 2 := by simp [hV0]
  set regen : ℕ → Fin 2 → ℝ := fun k => signVector (d.2 ⟨k % L, Nat.mod_lt k hL⟩)
  have h0 : ∀ h, V0[0]'h = ![1, 1] := fun h => by
    funext b
    rw [show V0[0] = signVector (d.1 0) from Array.getElem_ofFn .., hd]
    fin_cases b <;> simp [signVector]
  have h1 : ∀ h, V0[1]'h = ![1, -1] := fun h => by
    funext b
    rw [show V0[1] = signVector (d.1 1) from Array.getElem_ofFn .., hd]
    fin_cases b <;> simp [signVector]
  obtain ⟨W, h2, h3, -, -⟩ := orthogonalize_far_partial (n := 2) (by norm_num) (eps := 1/2) (by norm_num) V0 (fun i hi u hu => by
    obtain ⟨c, hc⟩ := hu
    rw [mul_pow, Real.sq_sqrt (by norm_num)]
    have : i = 0 ∨ i = 1 := by omega
    rcases this with rfl | rfl
    · have : u = 0 := by rw [hc]; simp
      rw [this, h0, sub_zero]
      show _ ≤ ∑ b : Fin 2, (![1, 1] : Fin 2 → ℝ) b * (![1, 1] : Fin 2 → ℝ) b
      rw [Fin.sum_univ_two]
      norm_num
    · have : u = c 0 • ![1, 1] := by
        rw [hc, Fin.sum_univ_one]
        show c 0 • V0.getD 0 0 = _
        rw [show V0.getD 0 0 = V0[0] by simp [Array.getD, hsize], h0]
      rw [this, h1]
      show _ ≤ ∑ b : Fin 2, ((![1, -1] : Fin 2 → ℝ) b - c 0 * (![1, 1] : Fin 2 → ℝ) b) * ((![1, -1] : Fin 2 → ℝ) b - c 0 * (![1, 1] : Fin 2 → ℝ) b)
      rw [Fin.sum_univ_two]
      simp only [Matrix.cons_val_zero, Matrix.cons_val_one]
      norm_num
      nlinarith [sq_nonneg (c 0)]) regen
  rcases orthogonalize_sound (n := 2) (by norm_num) (eps := 1/2) (by norm_num) (by norm_num) regen (fun k => signVector_rademacher _) V0
    (fun i hi => by simp only [hV0, Array.getElem_ofFn]; exact signVector_rademacher _) with h4 | ⟨W', h4, -, -, h5, -⟩
  · rw [h2] at h4
    cases h4
  · rw [h2] at h4
    cases h4
    obtain ⟨V, h6, -, -⟩ := normalize_loop W h5
    refine ⟨V, ?_⟩
    unfold orthonormalColumns columnsFrom
    rw [if_pos rfl]
    rw [hsize] at h2 h3
    rw [h3] at h6
    show (orthogonalizeVectors Real.sqrt (1/2) regen V0 2 >>= fun V => forRange 0 2 (fun j V => normalizeRow Real.sqrt j V) V) = _
    rw [h2, Except.ok_bind']
    exact h6

end Imate.Props
