import Verif.Lemmas.FlatSlq
import Verif.Lemmas.GramSchmidt

/-! Helper lemmas: which accesses of the Golub-Kahn iteration leave the buffers for a non-square
matrix. -/

set_option linter.unusedSectionVars false

namespace Imate

/-- The only error is an access out of bounds. -/
def OobOnly {α : Type _} (x : Except Fault α) : Prop := ∀ e, x = .error e → e = .outOfBounds

variable {α β σ : Type _}

theorem OobOnly.ok (a : α) : OobOnly (.ok a : Except Fault α) := by intro e h; cases h

theorem OobOnly.bind {x : Except Fault α} {f : α → Except Fault β} (hx : OobOnly x)
    (hf : ∀ a, OobOnly (f a)) : OobOnly (x >>= f) := by
  intro e h
  cases x with
  | ok a => exact hf a e h
  | error e' => cases h; exact hx _ rfl

theorem OobOnly.rd (a : Array α) (i : Nat) : OobOnly (Imate.rd a i) := by
  intro e h; unfold Imate.rd at h; split at h <;> cases h; rfl

theorem OobOnly.wr (a : Array α) (i : Nat) (x : α) : OobOnly (Imate.wr a i x) := by
  intro e h; unfold Imate.wr at h; split at h <;> cases h; rfl

theorem OobOnly.loopN {step : Nat} {body : Nat → σ → Except Fault σ}
    (h : ∀ i s, OobOnly (body i s)) : ∀ k i s, OobOnly (Imate.loopN step body k i s) := by
  intro k
  induction k with
  | zero => intro i s; exact OobOnly.ok s
  | succ k ih => intro i s; exact OobOnly.bind (h i s) (fun s => ih _ s)

theorem OobOnly.forRange {lo hi : Nat} {body : Nat → σ → Except Fault σ}
    (h : ∀ i s, OobOnly (body i s)) (s : σ) : OobOnly (Imate.forRange lo hi body s) :=
  OobOnly.loopN h _ _ _

theorem OobOnly.forStep {st hi : Nat} {body : Nat → σ → Except Fault σ}
    (h : ∀ i s, OobOnly (body i s)) (s : σ) : OobOnly (Imate.forStep st hi body s) :=
  OobOnly.loopN h _ _ _

/-- Every branch of a bounds-checked program. -/
macro "oob" : tactic => `(tactic| repeat' first
  | exact OobOnly.ok _
  | exact OobOnly.rd _ _
  | exact OobOnly.wr _ _ _
  | assumption
  | split
  | (refine OobOnly.forRange ?_ _; intro _ _)
  | (refine OobOnly.forStep ?_ _; intro _ _)
  | refine OobOnly.bind ?_ (fun _ => ?_))

namespace VectorOps
variable {K : Type _} [Field K] [DecidableEq K]

theorem subtractScaledVector_oob (a : Array K) (n : Nat) (s : K) (c : Array K) :
    OobOnly (subtractScaledVector a n s c) := by unfold subtractScaledVector; oob

theorem euclideanNorm_oob (sqrt : K → K) (a : Array K) (n : Nat) :
    OobOnly (euclideanNorm sqrt a n) := by unfold euclideanNorm normSq; oob

theorem innerProduct_oob (a b : Array K) (n : Nat) : OobOnly (innerProduct a b n) := by
  unfold innerProduct; oob

theorem normalizeInPlace_oob (sqrt : K → K) (a : Array K) (n : Nat) :
    OobOnly (normalizeInPlace sqrt a n) := by
  unfold normalizeInPlace
  refine OobOnly.bind (euclideanNorm_oob _ _ _) (fun _ => ?_); oob

theorem normalizeAndCopy_oob (sqrt : K → K) (a : Array K) (n : Nat) (c : Array K) :
    OobOnly (normalizeAndCopy sqrt a n c) := by
  unfold normalizeAndCopy
  refine OobOnly.bind (euclideanNorm_oob _ _ _) (fun _ => ?_); oob

end VectorOps

namespace StoredMatrix
variable {K : Type _} [Field K] [DecidableEq K]

theorem dot_oob (S : StoredMatrix K) (n m : Nat) (b c : Array K) : OobOnly (S.dot n m b c) := by
  cases S <;> unfold dot <;> dsimp only
  · unfold MatrixOps.denseMatvec MatrixOps.chunkedDot MatrixOps.plainDot; oob
  · unfold MatrixOps.csrMatvec MatrixOps.gather; oob
  · unfold MatrixOps.cscMatvec MatrixOps.scatter MatrixOps.zeroFill; oob

theorem transposeDot_oob (S : StoredMatrix K) (n m : Nat) (b c : Array K) :
    OobOnly (S.transposeDot n m b c) := by
  cases S <;> unfold transposeDot <;> dsimp only
  · unfold MatrixOps.denseTransposedMatvec MatrixOps.chunkedDot MatrixOps.plainDot; oob
  · unfold MatrixOps.csrTransposedMatvec MatrixOps.scatter MatrixOps.zeroFill; oob
  · unfold MatrixOps.cscTransposedMatvec MatrixOps.gather; oob

/-- A loop that writes cell `i` in iteration `i` and succeeds stays inside. -/
theorem writes_in_bounds {K : Type _} {body : Nat → Array K → Except Fault (Array K)}
    (hb : ∀ i c c', body i c = .ok c' → i < c.size ∧ c'.size = c.size) {p : Nat} {c c' : Array K}
    (h : forRange 0 p body c = .ok c') : p ≤ c.size := by
  have key : ∀ k i c c', loopN 1 body k i c = .ok c' → k = 0 ∨ i + k ≤ c.size := by
    intro k
    induction k with
    | zero => intro i c c' _; exact Or.inl rfl
    | succ k ih =>
      intro i c c' h
      obtain ⟨c1, h1, h2⟩ := Flat.bind_ok h
      obtain ⟨h3, h4⟩ := hb i c c1 h1
      rcases ih _ _ _ h2 with h5 | h5
      · right; omega
      · right; omega
  rcases key _ _ _ _ h with h1 | h1 <;> omega

theorem wr_in_bounds {K : Type _} {c c' : Array K} {i : Nat} {x : K} (h : wr c i x = .ok c') :
    i < c.size ∧ c'.size = c.size := by
  obtain ⟨hi, rfl⟩ := Flat.wr_ok_inv h
  exact ⟨hi, by simp⟩

/-- Whatever the stored arrays contain, the transposed product writes as many cells as the matrix has
columns. -/
theorem transposeDot_writes {S : StoredMatrix K} {n m : Nat} {b c c' : Array K}
    (h : S.transposeDot n m b c = .ok c') : m ≤ c.size := by
  cases S with
  | dense A rm =>
    unfold transposeDot MatrixOps.denseTransposedMatvec at h
    dsimp only at h
    split at h
    all_goals
      refine writes_in_bounds (fun i c c' hi => ?_) h
      obtain ⟨s, _, h2⟩ := Flat.bind_ok hi
      exact wr_in_bounds h2
  | csr d ix p =>
    obtain ⟨c1, h1, _⟩ := Flat.bind_ok h
    exact writes_in_bounds (fun i c c' hi => wr_in_bounds hi) h1
  | csc d ix p =>
    refine writes_in_bounds (fun i c c' hi => ?_) h
    obtain ⟨_, _, hi⟩ := Flat.bind_ok hi
    obtain ⟨_, _, hi⟩ := Flat.bind_ok hi
    obtain ⟨_, _, hi⟩ := Flat.bind_ok hi
    exact wr_in_bounds hi

end StoredMatrix

namespace Flat
open Lanczos VectorOps
variable {K : Type _} [Field K] [LinearOrder K]

theorem through_oob {a : Array K} {o : Nat} {f : Array K → Except Fault (Array K)}
    (h : ∀ c, OobOnly (f c)) : OobOnly (through a o f) :=
  OobOnly.bind (h _) (fun _ => OobOnly.ok _)

theorem gsStep_oob (sqrt : K → K) (eps : K) (n : Nat) (a b : Array K) :
    OobOnly (gsStep sqrt eps n a b) := by
  unfold gsStep
  refine OobOnly.bind (euclideanNorm_oob _ _ _) (fun _ => ?_)
  split
  · exact OobOnly.ok _
  · refine OobOnly.bind (innerProduct_oob _ _ _) (fun _ => OobOnly.bind ?_ (fun _ => ?_))
    · unfold tooClose
      split
      · exact OobOnly.bind (euclideanNorm_oob _ _ _) (fun _ => OobOnly.ok _)
      · exact OobOnly.ok _
    · split
      · exact OobOnly.ok _
      · exact subtractScaledVector_oob _ _ _ _

theorem gramSchmidtIn_oob (sqrt : K → K) (eps : K) (V : Array K) (n nv last : Nat) (no : Int)
    (slot : Nat) : OobOnly (gramSchmidtIn sqrt eps V n nv last no slot) :=
  OobOnly.forRange (fun _ _ => through_oob (fun _ => gsStep_oob _ _ _ _ _)) _

theorem normalizeAt_oob (sqrt : K → K) (V : Array K) (o n : Nat) :
    OobOnly (normalizeAt sqrt V o n) :=
  OobOnly.bind (normalizeInPlace_oob _ _ _) (fun _ => OobOnly.ok _)

theorem golubKahn_oob (sqrt : K → K) (eps : K) {dot tdot : Product K}
    (hd : ∀ b c, OobOnly (dot b c)) (ht : ∀ b c, OobOnly (tdot b c)) (v : Array K) (n m : Nat) (tol : K)
    (orth : Int) (jU jV : Nat → K) (alpha beta : Array K) :
    OobOnly (golubKahn sqrt eps dot tdot v n m tol orth jU jV alpha beta) := by
  unfold golubKahn
  refine OobOnly.bind (normalizeAndCopy_oob _ _ _ _) (fun _ => OobOnly.bind ?_ (fun _ => OobOnly.ok _))
  refine OobOnly.forRange (fun j s => ?_) _
  split
  · exact OobOnly.ok _
  unfold golubKahnBody
  refine OobOnly.bind (through_oob (fun _ => hd _ _)) (fun _ => ?_)
  refine OobOnly.bind ?_ (fun _ => ?_)
  · unfold gkSubtractPrevious
    split
    · exact OobOnly.bind (OobOnly.rd _ _)
        (fun _ => through_oob (fun _ => subtractScaledVector_oob _ _ _ _))
    · exact OobOnly.ok _
  refine OobOnly.bind ?_ (fun _ => ?_)
  · unfold gkReorthogonalizeU
    split
    · exact gramSchmidtIn_oob _ _ _ _ _ _ _ _
    · exact OobOnly.ok _
  refine OobOnly.bind (normalizeAt_oob _ _ _ _) (fun _ => ?_)
  refine OobOnly.bind (OobOnly.wr _ _ _) (fun _ => ?_)
  refine OobOnly.bind (through_oob (fun _ => ht _ _)) (fun _ => ?_)
  refine OobOnly.bind (through_oob (fun _ => subtractScaledVector_oob _ _ _ _)) (fun _ => ?_)
  refine OobOnly.bind ?_ (fun _ => ?_)
  · unfold gkReorthogonalizeV
    split
    · exact gramSchmidtIn_oob _ _ _ _ _ _ _ _
    · exact OobOnly.ok _
  refine OobOnly.bind (normalizeAt_oob _ _ _ _) (fun _ => ?_)
  exact OobOnly.bind (OobOnly.wr _ _ _) (fun _ => OobOnly.ok _)

/-- Any buffer with room for `n` cells begins with some vector. -/
theorem begins_any {a : Array K} {n : Nat} (h : n ≤ a.size) :
    Begins a (fun i : Fin n => a[i.1]'(by omega)) := by
  intro i; exact Array.getElem?_eq_getElem (by omega)

theorem through_size {a : Array K} {o : Nat} {f : Array K → Except Fault (Array K)} (ho : o ≤ a.size)
    (h : ∃ c, f (pointer a o) = .ok c ∧ c.size = (pointer a o).size) :
    ∃ a', through a o f = .ok a' ∧ a'.size = a.size := by
  obtain ⟨c, h1, h2⟩ := h
  refine ⟨_, by unfold through; rw [h1]; rfl, ?_⟩
  rw [Array.size_append, Array.size_extract, h2, pointer_size]; omega

theorem row_room {a : Array K} {n b i : Nat} (ha : a.size = n * b) (hi : i < b) :
    i * n ≤ a.size ∧ n ≤ (pointer a (i * n)).size := by
  have : (i + 1) * n ≤ b * n := Nat.mul_le_mul_right n hi
  rw [Nat.add_mul] at this
  rw [pointer_size, ha, Nat.mul_comm n b]
  omega

theorem gsStep_any (sqrt : K → K) (eps : K) {n : Nat} {a b : Array K} (ha : n ≤ a.size)
    (hb : n ≤ b.size) : ∃ c, gsStep sqrt eps n a b = .ok c ∧ c.size = b.size := by
  obtain ⟨c, h1, h2⟩ := gsStep_refines sqrt eps (begins_any ha) (begins_any hb)
  exact ⟨c, h1, h2.size⟩

theorem gsIndex_lt {nv last s : Nat} (hl : last < nv) (hs : s < nv) : gsIndex nv last s < nv := by
  rw [gsIndex_window hl hs]; exact Nat.mod_lt _ (by omega)

theorem gramSchmidtIn_any (sqrt : K → K) (eps : K) {V : Array K} {n nv last slot : Nat} (no : Int)
    (hV : V.size = n * nv) (hl : last < nv) (hs : slot < nv) :
    ∃ V', gramSchmidtIn sqrt eps V n nv last no slot = .ok V' ∧ V'.size = n * nv := by
  unfold gramSchmidtIn
  refine forRange_inv (fun _ V => V.size = n * nv) (Nat.zero_le _) V hV ?_
  intro i _ hi W hW
  have hle := gsNumSteps_le n nv no
  obtain ⟨h1, h2⟩ := row_room hW hs
  obtain ⟨_, h4⟩ := row_room hW (gsIndex_lt hl (show i < nv by omega))
  rw [Nat.mul_comm n]
  obtain ⟨W', h5, h6⟩ := through_size h1 (gsStep_any sqrt eps h4 h2)
  exact ⟨W', h5, by rw [h6, hW]⟩

theorem normalizeAt_any (sqrt : K → K) {V : Array K} {n nv i : Nat} (hV : V.size = n * nv)
    (hi : i < nv) : ∃ V' x, normalizeAt sqrt V (i * n) n = .ok (V', x) ∧ V'.size = n * nv := by
  obtain ⟨h1, h2⟩ := row_room hV hi
  obtain ⟨c, h3, h4⟩ := normalizeInPlace_long sqrt (begins_any h2)
  refine ⟨_, _, by unfold normalizeAt; rw [h3]; rfl, ?_⟩
  rw [Array.size_append, Array.size_extract, h4.size, pointer_size]; omega

theorem subtractRows_any {V W : Array K} {n nv i j : Nat} (s : K) (hV : V.size = n * nv)
    (hW : W.size = n * nv) (hi : i < nv) (hj : j < nv) :
    ∃ V', through V (i * n) (subtractScaledVector (pointer W (j * n)) n s) = .ok V' ∧
      V'.size = n * nv := by
  obtain ⟨h1, h2⟩ := row_room hV hi
  obtain ⟨_, h4⟩ := row_room hW hj
  obtain ⟨c, h5, h6⟩ := subtractScaledVector_long (begins_any h4) s (begins_any h2)
  obtain ⟨V', h7, h8⟩ := through_size h1 ⟨c, h5, h6.size⟩
  exact ⟨V', h7, by rw [h8, hV]⟩

/-- The loop body of the Golub-Kahn iteration stays in bounds whenever the two products do. -/
theorem golubKahnBody_any (sqrt : K → K) (eps : K) {dot tdot : Product K} {n m nv : Nat}
    (hd : ∀ b c, n ≤ b.size → n ≤ c.size → ∃ c', dot b c = .ok c' ∧ c'.size = c.size)
    (ht : ∀ b c, n ≤ b.size → n ≤ c.size → ∃ c', tdot b c = .ok c' ∧ c'.size = c.size)
    (tol : K) (orth : Int) (hnv : 0 < nv) {j : Nat} (hj : j < m) {s : GKState K}
    (hU : s.U.size = n * nv) (hV : s.V.size = n * nv) (ha : s.alpha.size = m) (hb : s.beta.size = m) :
    ∃ s', golubKahnBody sqrt eps dot tdot n tol orth nv j s = .ok s' ∧ s'.U.size = n * nv ∧
      s'.V.size = n * nv ∧ s'.alpha.size = m ∧ s'.beta.size = m := by
  have hlt : ∀ i, i % nv < nv := fun i => Nat.mod_lt _ hnv
  obtain ⟨u1, u2⟩ := row_room hU (hlt j)
  obtain ⟨_, v2⟩ := row_room hV (hlt j)
  obtain ⟨U1, h1, s1⟩ := through_size u1 (hd _ _ v2 u2)
  rw [hU] at s1
  obtain ⟨U2, h2, s2⟩ : ∃ U2, gkSubtractPrevious n nv U1 s.beta j = .ok U2 ∧ U2.size = n * nv := by
    unfold gkSubtractPrevious
    split
    · rw [rd_ok (Array.getElem?_eq_getElem (show j - 1 < s.beta.size by omega))]
      exact subtractRows_any _ s1 s1 (hlt j) (hlt (j - 1))
    · exact ⟨U1, rfl, s1⟩
  obtain ⟨U3, h3, s3⟩ : ∃ U3, gkReorthogonalizeU sqrt eps orth n nv U2 j = .ok U3 ∧
      U3.size = n * nv := by
    unfold gkReorthogonalizeU
    split
    · exact gramSchmidtIn_any sqrt eps _ s2 (hlt _) (hlt _)
    · exact ⟨U2, rfl, s2⟩
  obtain ⟨U4, x, h4, s4⟩ := normalizeAt_any sqrt s3 (hlt j)
  have h5 := wr_ok (a := s.alpha) (i := j) (by omega) x
  obtain ⟨_, r2⟩ := row_room s4 (hlt j)
  obtain ⟨w1, w2⟩ := row_room hV (hlt (j + 1))
  obtain ⟨V1, h6, s6⟩ := through_size w1 (ht _ _ r2 w2)
  rw [hV] at s6
  obtain ⟨V2, h7, s7⟩ := subtractRows_any x s6 s6 (hlt (j + 1)) (hlt j)
  obtain ⟨V3, h8, s8⟩ : ∃ V3, gkReorthogonalizeV sqrt eps orth n nv V2 j = .ok V3 ∧
      V3.size = n * nv := by
    unfold gkReorthogonalizeV
    split
    · exact gramSchmidtIn_any sqrt eps _ s7 (hlt _) (hlt _)
    · exact ⟨V2, rfl, s7⟩
  obtain ⟨V4, y, h9, s9⟩ := normalizeAt_any sqrt s8 (hlt (j + 1))
  have h10 := wr_ok (a := s.beta) (i := j) (by omega) y
  refine ⟨⟨U4, V4, s.alpha.set j x (by omega), s.beta.set j y (by omega), s.size + 1,
    decide (y < tol * sqrt n)⟩, ?_, s4, s9, by simp [ha], by simp [hb]⟩
  unfold golubKahnBody
  simp only [h1, h2, h3, h4, h5, h6, h7, h8, h9, h10, Except.ok_bind']

theorem golubKahn_any (sqrt : K → K) (eps : K) {dot tdot : Product K} {n m : Nat}
    (hd : ∀ b c, n ≤ b.size → n ≤ c.size → ∃ c', dot b c = .ok c' ∧ c'.size = c.size)
    (ht : ∀ b c, n ≤ b.size → n ≤ c.size → ∃ c', tdot b c = .ok c' ∧ c'.size = c.size)
    (tol : K) (orth : Int) (hm : 1 ≤ m) {v : Array K} (hv : n ≤ v.size) (jU jV : Nat → K)
    {alpha beta : Array K} (ha : alpha.size = m) (hb : beta.size = m) :
    ∃ c, golubKahn sqrt eps dot tdot v n m tol orth jU jV alpha beta = .ok c := by
  have hnv : 0 < golubKahnBufferSize m orth := by
    unfold golubKahnBufferSize
    split
    · omega
    · split <;> omega
  unfold golubKahn
  obtain ⟨V, h1, h2⟩ := normalizeAndCopy_long sqrt (begins_any hv)
    (Array.ofFn (fun i : Fin (n * golubKahnBufferSize m orth) => jV i)) (by
      rw [Array.size_ofFn]; exact Nat.le_mul_of_pos_right n hnv)
  obtain ⟨s, h3, _⟩ := forRange_inv (body := fun j s =>
      if s.stop then .ok s
      else golubKahnBody sqrt eps dot tdot n tol orth (golubKahnBufferSize m orth) j s)
    (fun _ (s : GKState K) => s.U.size = n * golubKahnBufferSize m orth ∧
      s.V.size = n * golubKahnBufferSize m orth ∧ s.alpha.size = m ∧ s.beta.size = m)
    (Nat.zero_le m)
    ⟨Array.ofFn (fun i : Fin (n * golubKahnBufferSize m orth) => jU i), V, alpha, beta, 0, false⟩
    ⟨by simp, by simpa using h2.size, ha, hb⟩ (by
      intro j _ hj s ⟨i1, i2, i3, i4⟩
      split
      · exact ⟨s, rfl, i1, i2, i3, i4⟩
      · exact golubKahnBody_any sqrt eps hd ht tol orth hnv hj i1 i2 i3 i4)
  refine ⟨⟨s.size, s.alpha, s.beta⟩, ?_⟩
  simp only [h1, Except.ok_bind', h3]

end Flat
end Imate
